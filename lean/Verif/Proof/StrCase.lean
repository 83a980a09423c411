import Verif.Proof.StrOps
import Verif.Props.CharClass
namespace Strpp.SV

open Spec Arr

/-- `StringArray::join` of at least one string -/
theorem join_ok {s : State} (h : Inv s) {j w : Nat} {ws : List Nat} {d t : List UCS4} {ts : List (List UCS4)} (hj : Txt s j d)
    (hw : Txt s w t) (hl : ws.length = ts.length)
    (hts : ∀ (i : Nat) (w : Nat) (t : List UCS4), ws[i]? = some w → ts[i]? = some t → Txt s w t)
    {k : Nat} (hr : Roomy s (k + joinCost d ts)) :
    ∃ s', join s j (w :: ws) = .ok s' ∧ Inv s' ∧ Roomy s' k ∧ Txt s' (s.vars.length + 1) (t ++ joinTail d ts) ∧
      (∀ i, s.vars.length ≤ i → i < s'.vars.length → i ≠ s.vars.length + 1 → s'.vars[i]? = some none) := by
  have hjl := hj.lt
  have hw' := hw
  obtain ⟨x, b, pre, post, hx, hb, hd, he⟩ := hw
  simp only [join]
  rw [getVar_ok hx, res_bind_ok]
  obtain ⟨h1, h2, h3, h4, h5⟩ := newVar_txt (x := ⟨x.body, x.off, x.num, ⟨0, 0⟩⟩) h hb (den_nomark hd) he hr
  have f1 := frame_newVar h.ids ⟨x.body, x.off, x.num, ⟨0, 0⟩⟩ (get_lt hb)
  obtain ⟨s2, a1, a2, a3, a4, a5⟩ := asUTF8_ok h1 h4 h2
  have f2 := frame_asUTF8 h1.ids _ a1
  rw [a1, res_bind_ok]
  have hsz := a5.size a3
  have a5' := a5
  obtain ⟨y, c, p2, q2, hy, hc, hd2, he2⟩ := a5
  rw [getStr_ok hy hc, res_bind_ok, hd2.nthC 0 (by omega), res_bind_ok]
  simp only [deref, res_bind_ok]
  rw [hd2.numBytes, res_bind_ok, bpos_mid p2 t q2 0 (by omega), bpos_zero, Nat.add_zero]
  obtain ⟨slack, hm⟩ := hd2.memAt
  obtain ⟨z, rest, hzr⟩ : ∃ z rest, encodeAll q2 ++ ([0#8] ++ slack) = z :: rest := by
    cases h' : encodeAll q2 ++ ([0#8] ++ slack) with
    | nil => simp at h'
    | cons z rest => exact ⟨z, rest, rfl⟩
  rw [hzr] at hm
  simp only at hm
  obtain ⟨s3, d1, d2⟩ := newData_made a2 a3 (fun u => u = j ∨ u ∈ ws) c.arr.mem (encodeAll p2).length 0 (encodeAll p2) t z rest hm rfl hd2.good
    hsz (by omega)
  rw [d1, res_bind_ok]
  have f3 := frame_newData a2.ids a2.pos _ _ _ _ d1
  have hlen2 : s2.vars.length = s.vars.length + 1 := by rw [a4, h3]
  have keep : ∀ (i : Nat) (c : List UCS4), i < s.vars.length → Txt s i c → Txt s3 i c := by
    intro i c hi ht
    exact other_txt a2 d2.inv f3 (by simp) (other_txt h1 a2 f2 (show ¬ i = s.vars.length by omega) (other_txt h h1 f1 (by simp) ht))
  have hwsl : ∀ u ∈ ws, u < s.vars.length := by
    intro u hu
    obtain ⟨i, hi⟩ := List.mem_iff_getElem?.mp hu
    have hil : i < ts.length := by rw [← hl]; exact get_lt hi
    exact (hts i u ts[i] hi (List.getElem?_eq_getElem hil)).lt
  have hl3 := d2.len
  obtain ⟨s4, e1, e2, e3, e4, e5, e6, e7⟩ := joinLoop_ok (r := s.vars.length + 1) (j := j) (d := d) ws ts d2.inv (keep j d hjl hj)
    (by rw [← hlen2]; exact d2.txt) hl
    (fun i w' t' g1 g2 => keep w' t' (hwsl w' (List.mem_of_getElem? g1)) (hts i w' t' g1 g2)) d2.roomy (P := fun u => u = j ∨ u ∈ ws)
    (by rintro (e | e)
        · omega
        · have := hwsl _ e; omega) (Or.inl rfl) (fun u hu => Or.inr hu)
    (by rintro u (rfl | e)
        · omega
        · have := hwsl _ e; omega)
    (by rw [← hlen2]; exact d2.anch)
  rw [e1, res_bind_ok]
  have f4 := frame_joinLoop ws d2.inv.ids d2.inv.pos e1
  have ht4 : Txt s4 s.vars.length t := other_txt d2.inv e2 f4 (show ¬ s.vars.length = s.vars.length + 1 by omega)
    (other_txt a2 d2.inv f3 (by simp) a5')
  obtain ⟨s5, g1, g2, g3, g4, g5⟩ := destroy_ok e2 ht4 e3
  have f5 := frame_destroy e2.ids _ g1
  refine ⟨s5, g1, g2, g3, other_txt e2 g2 f5 (show ¬ s.vars.length + 1 = s.vars.length by omega) e5, ?_⟩
  intro i hi hi' hne
  by_cases hii : i = s.vars.length
  · subst hii
    unfold destroy at g1
    obtain ⟨x, -, g1⟩ := hbind g1
    cases g1
    rw [List.getElem?_set_self (by omega)]
  · exact (f5.same i (by omega) hii).1 (e7 i (by omega) (by omega))

/-! ### transform -/

theorem whole_owned {s : State} (h : Inv s) {v : Nat} {t : List UCS4} (hv : Txt s v t) (hw : Whole s v) {k : Nat} (hr : Roomy s k) :
    ∃ s', unshare s v = .ok s' ∧ Inv s' ∧ Roomy s' k ∧ s'.vars.length = s.vars.length ∧ ∃ x b, Owned s' v x b [] t [] ∧ x.off = 0 ∧
      ∀ y : Var, s.vars[v]? = some (some y) → x.mark.cn = y.mark.cn ∨ x.mark.cn = wrap ((y.mark.cn : Int) - y.off) := by
  obtain ⟨x, b, pre, post, hx, hb, hd, he⟩ := hv
  obtain ⟨s1, u1, u2, u3, u4, u5⟩ := unshare_spec h hx hb hd he hr
  refine ⟨s1, u1, u2, u3, u4, ?_⟩
  rcases u5 with ⟨r1, rfl, r3⟩ | ⟨r1, x1, b1, r2, r3, r4⟩
  · rcases hw x b hx hb with hw | ⟨hw1, hw2⟩
    · omega
    · have ho := hd.off
      have hn := hd.num
      simp only at ho hn
      rw [den_text hd.body] at hw2
      simp only [List.length_append] at hw2
      have hp : pre = [] := List.eq_nil_of_length_eq_zero (by omega)
      have hq : post = [] := List.eq_nil_of_length_eq_zero (by omega)
      subst hp; subst hq
      exact ⟨x, b, r3, hw1, fun y hy => by rw [hx] at hy; cases hy; exact Or.inl rfl⟩
  · exact ⟨x1, b1, r2, r4, fun y hy => by rw [hx] at hy; cases hy; exact Or.inr r3⟩

theorem showAll_spec {σ : Str} {b : SBody} {cs : List UCS4} (h : BDen b cs) :
    ∃ b', σ.showAll b = .ok { σ with b := b', num := cs.length } ∧ BDen b' cs ∧ b'.arr = b.arr := by
  obtain ⟨b', e1, e2, e3, e4⟩ := h.count
  unfold Str.showAll
  rw [e1, res_bind_ok, e3]
  exact ⟨b', rfl, e2, e4⟩

/-- `transform` -/
theorem transform_ok {S : Type} {s : State} (h : Inv s) {v : Nat} {t : List UCS4} (hv : Txt s v t) (hw : Whole s v)
    (I : S → Prop) (x : XForm S) (f : S → List UCS4 → S × List UCS4 × Nat) (hx : Behaves I x f) (st : S) (hI : I st) (after : Int)
    (hgood : ∀ c ∈ transformAfter f st (wrap (after + 1)) t, ¬ Reserved c)
    {k : Nat} (hr : Roomy s k) (hsz : (encodeAll (transformAfter f st (wrap (after + 1)) t)).length + 1 + k ≤ 1073741824) :
    ∃ s', transform s v x st after = .ok s' ∧ Inv s' ∧ Roomy s' k ∧ s'.vars.length = s.vars.length ∧
      Txt s' v (transformAfter f st (wrap (after + 1)) t) := by
  obtain ⟨s1, u1, u2, u3, u4, y, b, u5, u6, -⟩ := whole_owned h hv hw hr
  have hden := u5.den.body
  simp only [List.nil_append, List.append_nil] at hden
  obtain ⟨b', t1, t2, t3, t4⟩ := transform_spec I x f (hx.at hden) st hI _ u5.rc hden u5.st after _ rfl hgood (by omega)
  unfold transform
  rw [u1, res_bind_ok, getVar_ok u5.var, res_bind_ok, getStr_ok u5.var u5.body, res_bind_ok]
  simp only
  rw [t1, res_bind_ok]
  obtain ⟨b2, g1, g2, g3⟩ := showAll_spec (σ := ⟨b, y.off, y.num, y.mark⟩) t2
  simp only
  rw [g1, res_bind_ok]
  have hn2 := g2.num
  have hd := Den.whole g2
  obtain ⟨s2, p1, p2, p3, p4, p5⟩ := put_spec u2 u5 u3 ⟨b2, 0, (transformAfter f st (wrap (after + 1)) t).length, ⟨0, 0⟩⟩ hd (fun _ => rfl)
    (by rw [g3]; exact t4) (by simp only; omega)
  simp only [u6]
  exact ⟨s2, p1, p2, p3, by rw [p4, u4], p5.txt⟩

/-! ### upper and lower case -/

/-- what the closure of `toLower`/`toUpper` does -/
def caseF (conv : Int → UCS4 → Res (UCS4 × Option Int)) (st : Bool × Int) : List UCS4 → (Bool × Int) × List UCS4 × Nat
  | [] => (st, [], 0)
  | c :: _ =>
    match conv st.2 c with
    | .ok r => ((st.1 || !decide (r.1.toNat < 0x80), r.2.getD st.2), [r.1], 1)
    | .error _ => (st, [], 0)

/-- a conversion function with memo: it computes `g` for memos below `M` -/
structure Conv (conv : Int → UCS4 → Res (UCS4 × Option Int)) (M : Int) (g : UCS4 → UCS4) : Prop where
  eq : ∀ (m : Int) (c : UCS4), 0 ≤ m → m < M → ∃ w : Option Int, conv m c = .ok (g c, w) ∧ ∀ m', w = some m' → 0 ≤ m' ∧ m' < M
  good : ∀ c, ¬ Reserved c → ¬ Reserved (g c)

theorem caseF_eq {conv : Int → UCS4 → Res (UCS4 × Option Int)} {M : Int} {g : UCS4 → UCS4} (h : Conv conv M g) (st : Bool × Int)
    (h0 : 0 ≤ st.2) (hM : st.2 < M) (c : UCS4) (cs : List UCS4) : ∃ m, 0 ≤ m ∧ m < M ∧ ∃ w, conv st.2 c = .ok (g c, w) ∧ w.getD st.2 = m ∧
    caseF conv st (c :: cs) = ((st.1 || !decide ((g c).toNat < 0x80), m), [g c], 1) := by
  obtain ⟨w, e, hw⟩ := h.eq st.2 c h0 hM
  refine ⟨w.getD st.2, ?_, ?_, w, e, rfl, ?_⟩
  · cases w with
    | none => exact h0
    | some m => exact (hw m rfl).1
  · cases w with
    | none => exact hM
    | some m => exact (hw m rfl).2
  · simp only [caseF, e]

theorem put_1_6 (c : UCS4) : 0 < (utf8Put c).length ∧ (utf8Put c).length ≤ 6 :=
  ⟨put_len_pos c, by rw [(C02_utf8_len c).1]; exact (C02_utf8_len c).2.2⟩

theorem case_behaves {conv : Int → UCS4 → Res (UCS4 × Option Int)} {M : Int} {g : UCS4 → UCS4} (h : Conv conv M g) :
    Behaves (fun st : Bool × Int => 0 ≤ st.2 ∧ st.2 < M) (caseX conv) (caseF conv) := by
  intro st b cs k hI hb hk
  have hdrop : cs.drop k = cs[k] :: cs.drop (k + 1) := (List.getElem_cons_drop hk).symm
  obtain ⟨m, m0, mM, w, e1, e2, e3⟩ := caseF_eq h st hI.1 hI.2 cs[k] (cs.drop (k + 1))
  rw [hdrop, e3]
  have hgc : ¬ Reserved (g cs[k]) := h.good _ (hb.good_at k hk)
  have hp := put_1_6 (g cs[k])
  have hsb := staticBody_spec [g cs[k]] (by simpa using hgc) (by simp [encodeAll]; omega)
  obtain ⟨b', c1, c2, c3, c4⟩ := ofBody_spec hsb
  refine ⟨⟨b', 0, 1, ⟨0, 0⟩⟩, [], [], ?_, by simp only; omega, ?_, m0, mM⟩
  · unfold caseX oneChar
    rw [hb.get k hk, res_bind_ok]
    simp only
    rw [e1, res_bind_ok]
    have e : utf8Put (g cs[k]) ++ [0#8] = encodeAll [g cs[k]] ++ [0#8] := by simp [encodeAll]
    simp only
    rw [e, c1, res_bind_ok, e2]
    rfl
  · exact Den.whole c2

theorem case_transformed {conv : Int → UCS4 → Res (UCS4 × Option Int)} {M : Int} {g : UCS4 → UCS4} (h : Conv conv M g) (t : List UCS4) :
    ∀ (st : Bool × Int), 0 ≤ st.2 → st.2 < M → (transformed (caseF conv) st t).2 = t.map g := by
  induction t with
  | nil => intro st _ _; unfold transformed; simp
  | cons c t ih =>
    intro st h0 hM
    obtain ⟨m, m0, mM, w, -, -, e3⟩ := caseF_eq h st h0 hM c t
    unfold transformed
    rw [if_neg (by simp), e3]
    simp only [Nat.one_ne_zero, ↓reduceIte, List.drop_succ_cons, List.drop_zero, List.map_cons]
    rw [ih _ m0 mM]; rfl

theorem case_after {conv : Int → UCS4 → Res (UCS4 × Option Int)} {M : Int} {g : UCS4 → UCS4} (h : Conv conv M g) (t : List UCS4)
    (st : Bool × Int) (h0 : 0 ≤ st.2) (hM : st.2 < M) : transformAfter (caseF conv) st 0 t = t.map g := by
  unfold transformAfter
  rw [List.take_zero, List.nil_append, List.drop_zero, case_transformed h t st h0 hM]

theorem toCase_ok {s : State} (h : Inv s) {v : Nat} {t : List UCS4} (hv : Txt s v t) (hw : Whole s v)
    {conv : Int → UCS4 → Res (UCS4 × Option Int)} {M : Int} {g : UCS4 → UCS4} (hc : Conv conv M g) (memo : Int) (h0 : 0 ≤ memo) (hM : memo < M)
    (hmark : MarkFits s v t (t.map g))
    {k : Nat} (hr : Roomy s k) (hsz : (encodeAll (t.map g)).length + 1 + k ≤ 1073741824) :
    ∃ s', toCase s v conv memo = .ok s' ∧ Inv s' ∧ Roomy s' k ∧ s'.vars.length = s.vars.length ∧ Txt s' v (t.map g) := by
  obtain ⟨s1, u1, u2, u3, u4, y, b, u5, u6, u7⟩ := whole_owned h hv hw hr
  have hden := u5.den.body
  simp only [List.nil_append, List.append_nil] at hden
  have hgood : ∀ c ∈ t.map g, ¬ Reserved c := by
    intro c hc'
    obtain ⟨d, hd, rfl⟩ := List.mem_map.mp hc'
    exact hc.good d (hv.good d hd)
  have eq := case_after hc t (false, memo) h0 hM
  have hwr : wrap (-1 + 1) = 0 := by decide
  obtain ⟨b', t1, t2, t3, t4⟩ := transform_spec _ (caseX conv) (caseF conv) ((case_behaves hc).at hden) (false, memo) ⟨h0, hM⟩ _ u5.rc hden u5.st (-1) 0 hwr
    (by rw [eq]; exact hgood) (by rw [eq]; omega)
  rw [eq] at t2 t3
  unfold toCase
  rw [u1, res_bind_ok, getVar_ok u5.var, res_bind_ok, getStr_ok u5.var u5.body, res_bind_ok]
  have hcase : ∃ b3, SBody.toCase conv memo (refCount s1 y.body) b = .ok b3 ∧ BDen b3 (t.map g) ∧ b3.arr.static = false := by
    unfold SBody.toCase
    rw [t1, res_bind_ok]
    simp only
    split
    · exact ⟨_, rfl, ⟨t2.wf, t2.txt, t2.good, t2.small, Or.inl rfl⟩, t4⟩
    · exact ⟨_, rfl, t2, t4⟩
  obtain ⟨b3, k1, k2, k3⟩ := hcase
  simp only
  rw [k1, res_bind_ok]
  obtain ⟨b2, g1, g2, g3⟩ := showAll_spec (σ := ⟨b, y.off, y.num, y.mark⟩) k2
  rw [g1, res_bind_ok]
  have hn2 := g2.num
  have hm1 := u5.den.mark
  have hmi := u5.den.markIn
  simp only [List.nil_append, List.append_nil, List.length_nil, Nat.zero_add] at hm1 hmi
  have hmk : MarkOk (t.map g) y.mark := by
    rcases hm1 with ⟨q1, q2⟩ | q
    · rcases hmark with hmark | hmark
      · obtain ⟨x, b0, pre, post, hx, hb, hd, he⟩ := hv
        have h00 := hmark x hx
        have hcap := hd.cap
        have ho := hd.off
        simp only at ho
        rcases u7 x hx with u7 | u7
        · rw [h00] at u7
          left; rw [u7] at q2 ⊢
          exact ⟨by omega, by simpa using q2⟩
        · rw [h00] at u7
          rcases Nat.eq_zero_or_pos x.off with hz | hz
          · rw [hz] at u7
            have : y.mark.cn = 0 := by rw [u7]; decide
            left; rw [this] at q2 ⊢
            exact ⟨by omega, by simpa using q2⟩
          · rw [wrap_of_neg hz (by omega)] at u7
            omega
      · left
        refine ⟨by simpa using q1, ?_⟩
        exact q2.trans (hmark _ q1).symm
    · exact Or.inr q
  have hd : Den ⟨b2, y.off, (t.map g).length, y.mark⟩ [] (t.map g) [] := by
    refine ⟨by simpa using g2, by simpa using u6, rfl, by simpa using hmk, ?_⟩
    simpa using hmi
  obtain ⟨s2, p1, p2, p3, p4, p5⟩ := put_spec u2 u5 u3 ⟨b2, y.off, (t.map g).length, y.mark⟩ hd (fun _ => rfl)
    (by rw [g3]; exact k3) (by simp only; omega)
  exact ⟨s2, p1, p2, p3, by rw [p4, u4], p5.txt⟩

theorem convert_good (tbl : List CaseRange)
    (h : ∀ r ∈ tbl, r.last < 0x10000 ∧ 0 ≤ (r.first : Int) + r.delta ∧ (r.last : Int) + r.delta < 0x100000) (c : UCS4) (hc : ¬ Reserved c) :
    ¬ Reserved (convert tbl c) := by
  unfold convert
  split
  · rename_i r hf
    have h1 := List.find?_some hf
    have h2 := h r (List.mem_of_find?_eq_some hf)
    simp only [Bool.and_eq_true, decide_eq_true_eq] at h1
    have hval : (c + BitVec.ofInt 32 r.delta).toNat < 0x100000 := by
      have e : (c + BitVec.ofInt 32 r.delta) = BitVec.ofInt 32 ((c.toNat : Int) + r.delta) := by
        rw [BitVec.ofInt_add]; congr 1; simp
      rw [e, BitVec.toNat_ofInt]
      omega
    unfold Reserved
    rintro (hr | hr)
    · omega
    · rw [hr] at hval; revert hval; decide
  · exact hc

theorem upper_conv : Conv ucs4ToUpper 406 (convert unicodeToUpper) :=
  ⟨fun m c h0 h => toUpper_spec m h0 h c, convert_good _ (by decide +kernel)⟩

theorem lower_conv : Conv ucs4ToLower 396 (convert unicodeToLower) :=
  ⟨fun m c h0 h => toLower_spec m h0 h c, convert_good _ (by decide +kernel)⟩

end Strpp.SV
