import Verif.Spec.StrSlice
import Verif.Props.StrVal
set_option linter.unusedVariables false
set_option linter.unusedSimpArgs false
namespace Strpp.SV
open Spec Arr

theorem Alone.owned {s : State} (h : Inv s) {v : Nat} {pre t post : List UCS4} (ha : Alone s v pre t post) {k : Nat} (hr : Roomy s k) :
    ∃ x b, Owned s v x b pre t post ∧ unshare s v = .ok s := by
  obtain ⟨x, b, hx, hb, hrc, htx, ho, hn⟩ := ha
  obtain ⟨b', pre', t', post', hb', hd, he⟩ := h.vars v x hx
  rw [hb] at hb'
  cases hb'
  have e := den_text hd.body
  rw [htx] at e
  have o' := hd.off
  have n' := hd.num
  simp only at o' n'
  have e1 : pre = pre' := by
    have := congrArg (List.take pre.length) e
    rw [List.append_assoc, List.append_assoc, List.take_left, show pre.length = pre'.length by omega, List.take_left] at this
    exact this
  subst e1
  rw [List.append_assoc, List.append_assoc, List.append_cancel_left_eq] at e
  have e2 : t = t' := by
    have := congrArg (List.take t.length) e
    rw [List.take_left, show t.length = t'.length by omega, List.take_left] at this
    exact this
  subst e2
  rw [List.append_cancel_left_eq] at e
  subst e
  obtain ⟨s1, u1, u2, u3, u4, u5⟩ := unshare_spec h hx hb hd he hr
  rcases u5 with ⟨_, r2, r3⟩ | ⟨r1, _⟩
  · subst r2; exact ⟨x, b, r3, u1⟩
  · omega

/-- the bytes after `insert` into storage of its own, wherever in it the string begins, whatever its bookmark -/
theorem Den.insertAt {σ : Str} {pre t post : List UCS4} (h : Den σ pre t post) (hs : σ.b.arr.static = false) (rc : Nat) (hrc : rc ≤ 1) (pos : Nat)
    (hpos : pos ≤ t.length) (a : List UCS4)
    (hsz : (encodeAll (pre ++ t ++ post)).length + (encodeAll a).length < 1073741824) :
    ∃ σ', σ.insertOwn rc pos (encodeAll a) a.length = .ok σ' ∧ σ'.off = pre.length ∧ σ'.num = t.length + a.length ∧
      σ'.b.arr.elems.dropLast = (encodeAll (pre ++ t ++ post)).take (encodeAll (t.take pos)).length ++ encodeAll a ++
        (encodeAll (pre ++ t ++ post)).drop (encodeAll (t.take pos)).length := by
  obtain ⟨σ1, e1, d1, a1, o1, n1, m1⟩ := h.nth pos hpos
  obtain ⟨σ2, e2, d2, a2, o2, n2, m2⟩ := d1.nth 0 (by omega)
  have p1 := bpos_mid pre t post pos hpos
  have p0 := bpos_mid pre t post 0 (by omega)
  rw [bpos_zero] at p0
  have hbp := bpos_le_end t pos
  have hnum := d2.body.num
  have hall : (encodeAll (pre ++ t ++ post)).length = (encodeAll pre).length + (encodeAll t).length + (encodeAll post).length := by
    simp only [encodeAll_append, List.length_append]
  obtain ⟨arr, i1, i2, i3, i4, i5⟩ := insert_spec σ2.b.arr d2.body.wf (by rw [a2, a1]; exact hs) rc hrc (bpos t pos) (by omega)
    (encodeAll a) (by omega)
  unfold Str.insertOwn
  rw [e1, res_bind_ok]
  simp only
  rw [e2, res_bind_ok]
  simp only [deref, res_bind_ok]
  rw [p1, p0, wrap_of_nonneg (by omega) (by omega), show (encodeAll pre).length + bpos t pos - ((encodeAll pre).length + 0) = bpos t pos by omega, i1,
    res_bind_ok]
  refine ⟨_, rfl, by simp only [o2, o1, h.off], by simp only [n2, n1, h.num], ?_⟩
  simp only
  rw [i5, d2.body.txt]
  have hb : bpos t pos = (encodeAll (t.take pos)).length := rfl
  rw [← hb, List.take_append_of_le_length (by omega), List.drop_append_of_le_length (by omega), ← List.append_assoc]
  exact List.dropLast_concat

/-- what variable `v` shows after `putStr` -/
theorem put_view {s : State} {v : Nat} {x : Var} {b : SBody} (hx : s.vars[v]? = some (some x)) (hb : s.bodies[x.body]? = some b) (σ : Str) :
    ∃ s', putStr s v σ = .ok s' ∧ s'.vars.length = s.vars.length ∧ s'.vars[v]? = some (some ⟨x.body, σ.off, σ.num, σ.mark⟩) ∧
      s'.bodies[x.body]? = some σ.b ∧ view s' v = some (((decodeAll σ.b.arr.elems.dropLast).drop σ.off).take σ.num) ∧ lengthOf s' v = some σ.num := by
  unfold putStr
  rw [getVar_ok hx, res_bind_ok]
  have hvl := get_lt hx
  have hbl := get_lt hb
  have hbod : (setBody s x.body σ.b).bodies[x.body]? = some σ.b := by simp [SV.setBody, hbl]
  have hvar : (setVar (setBody s x.body σ.b) v ⟨x.body, σ.off, σ.num, σ.mark⟩).vars[v]? = some (some ⟨x.body, σ.off, σ.num, σ.mark⟩) := by
    simp [SV.setVar, SV.setBody, hvl]
  have hbod' : (setVar (setBody s x.body σ.b) v ⟨x.body, σ.off, σ.num, σ.mark⟩).bodies[x.body]? = some σ.b := hbod
  refine ⟨_, rfl, by simp [SV.setVar, SV.setBody], hvar, hbod', ?_, ?_⟩
  · unfold SV.view; rw [hvar]; simp only; rw [hbod']
  · unfold lengthOf; rw [hvar]

/-- `insert` into a string that alone refers to its storage -/
theorem insert_alone {s : State} (h : Inv s) {v w : Nat} (hne : v ≠ w) {pre t post u : List UCS4} (ha : Alone s v pre t post) (hw : Txt s w u)
    (pos : Nat) (hpos : pos ≤ t.length) (hr : Roomy s (encodeAll u).length) :
    ∃ s', insert s v pos w = .ok s' ∧ s'.vars.length = s.vars.length ∧ lengthOf s' v = some (t.length + u.length) ∧
      view s' v = some (((decodeAll ((encodeAll (pre ++ t ++ post)).take (encodeAll (t.take pos)).length ++ encodeAll u ++
        (encodeAll (pre ++ t ++ post)).drop (encodeAll (t.take pos)).length)).drop pre.length).take (t.length + u.length)) := by
  obtain ⟨x, b, ho, hu⟩ := ha.owned h hr
  obtain ⟨y, c, pre2, post2, hy, hc, hd2, he2⟩ := hw
  have hsep : y.body ≠ x.body := fun e => by
    have := shared_of_two ho.var hy hne e
    have := ho.rc
    omega
  have hsz := hr.at ho.body
  have hnum := ho.den.body.num
  obtain ⟨σ', i1, i2, i3, i4⟩ := ho.den.insertAt ho.st _ ho.rc pos hpos u (by simp only at hnum; omega)
  unfold insert
  rw [getVar_ok ho.var, res_bind_ok, getVar_ok hy, res_bind_ok]
  rw [if_neg (by simp only [Bool.and_eq_true, beq_iff_eq]; intro hh; exact hsep hh.1.2.symm), hu, res_bind_ok, if_neg (by simpa using hne)]
  rw [getVar_ok ho.var, res_bind_ok, getStr_ok ho.var ho.body, res_bind_ok, getStr_ok hy hc, res_bind_ok, hd2.bytes, res_bind_ok]
  have hyn := hd2.num
  simp only at hyn
  simp only
  rw [hyn, i1, res_bind_ok]
  obtain ⟨s', q1, q2, q3, q4, q5, q6⟩ := put_view ho.var ho.body σ'
  exact ⟨s', q1, q2, by rw [q6, i3], by rw [q5, i2, i3, i4]⟩

/-- `transform` of a string that alone refers to its storage -/
theorem transform_alone {S : Type} {s : State} (h : Inv s) {v : Nat} {pre t post : List UCS4} (ha : Alone s v pre t post)
    (I : S → Prop) (x : XForm S) (f : S → List UCS4 → S × List UCS4 × Nat) (hx : Behaves I x f) (st : S) (hI : I st) (after : Int)
    (hgood : ∀ c ∈ transformAfter f st (wrap (after + 1)) (pre ++ t ++ post), ¬ Reserved c)
    {k : Nat} (hr : Roomy s k) (hsz : (encodeAll (transformAfter f st (wrap (after + 1)) (pre ++ t ++ post))).length < 1073741824) :
    ∃ s', transform s v x st after = .ok s' ∧ s'.vars.length = s.vars.length ∧
      lengthOf s' v = some (transformAfter f st (wrap (after + 1)) (pre ++ t ++ post)).length ∧
      view s' v = some ((transformAfter f st (wrap (after + 1)) (pre ++ t ++ post)).drop pre.length) := by
  obtain ⟨y, b, ho, hu⟩ := ha.owned h hr
  have hden := ho.den.body
  obtain ⟨b', t1, t2, t3, t4⟩ := transform_spec I x f (hx.at hden) st hI _ ho.rc hden ho.st after _ rfl hgood (by omega)
  unfold transform
  rw [hu, res_bind_ok, getVar_ok ho.var, res_bind_ok, getStr_ok ho.var ho.body, res_bind_ok]
  simp only
  simp only at t1
  rw [t1, res_bind_ok]
  obtain ⟨b2, g1, g2, g3⟩ := showAll_spec (σ := ⟨b, y.off, y.num, y.mark⟩) t2
  simp only
  rw [g1, res_bind_ok]
  obtain ⟨s', q1, q2, q3, q4, q5, q6⟩ := put_view ho.var ho.body ⟨b2, y.off, (transformAfter f st (wrap (after + 1)) (pre ++ t ++ post)).length, ⟨0, 0⟩⟩
  have hoff := ho.den.off
  simp only at hoff
  refine ⟨s', q1, q2, q6, ?_⟩
  rw [q5]
  simp only
  rw [den_text g2, hoff, List.take_of_length_le (by simp)]

/-- `toUpper`, `toLower` of a string that alone refers to its storage -/
theorem toCase_alone {s : State} (h : Inv s) {v : Nat} {pre t post : List UCS4} (ha : Alone s v pre t post)
    {conv : Int → UCS4 → Res (UCS4 × Option Int)} {M : Int} {g : UCS4 → UCS4} (hc : Conv conv M g) (memo : Int) (h0 : 0 ≤ memo) (hM : memo < M)
    {k : Nat} (hr : Roomy s k) (hsz : (encodeAll ((pre ++ t ++ post).map g)).length < 1073741824) :
    ∃ s', toCase s v conv memo = .ok s' ∧ s'.vars.length = s.vars.length ∧ lengthOf s' v = some (pre ++ t ++ post).length ∧
      view s' v = some (((pre ++ t ++ post).map g).drop pre.length) ∧
      ∃ y b, s'.vars[v]? = some (some y) ∧ s'.bodies[y.body]? = some b ∧ BDen b ((pre ++ t ++ post).map g) ∧ b.nc = (pre ++ t ++ post).length ∧
        y.off = pre.length ∧ y.num = (pre ++ t ++ post).length := by
  obtain ⟨y, b, ho, hu⟩ := ha.owned h hr
  have hden := ho.den.body
  have hgood : ∀ c ∈ (pre ++ t ++ post).map g, ¬ Reserved c := by
    intro c hc'
    obtain ⟨d, hd, rfl⟩ := List.mem_map.mp hc'
    exact hc.good d (hden.good d hd)
  have eq := case_after hc (pre ++ t ++ post) (false, memo) h0 hM
  have hwr : wrap (-1 + 1) = 0 := by decide
  obtain ⟨b', t1, t2, t3, t4⟩ := transform_spec _ (caseX conv) (caseF conv) ((case_behaves hc).at hden) (false, memo) ⟨h0, hM⟩ _ ho.rc hden ho.st (-1) 0 hwr
    (by rw [eq]; exact hgood) (by rw [eq]; omega)
  rw [eq] at t2 t3
  unfold toCase
  rw [hu, res_bind_ok, getVar_ok ho.var, res_bind_ok, getStr_ok ho.var ho.body, res_bind_ok]
  have hcase : ∃ b3, SBody.toCase conv memo (refCount s y.body) b = .ok b3 ∧ BDen b3 ((pre ++ t ++ post).map g) := by
    unfold SBody.toCase
    simp only at t1
    rw [t1, res_bind_ok]
    simp only
    split
    · exact ⟨_, rfl, ⟨t2.wf, t2.txt, t2.good, t2.small, Or.inl rfl⟩⟩
    · exact ⟨_, rfl, t2⟩
  obtain ⟨b3, k1, k2⟩ := hcase
  simp only
  rw [k1, res_bind_ok]
  obtain ⟨b2, g1, g2, g2n, g3⟩ := k2.count
  have g1' : (⟨b, y.off, y.num, y.mark⟩ : Str).showAll b3 = .ok ⟨b2, y.off, (pre ++ t ++ post).length, y.mark⟩ := by
    unfold Str.showAll
    rw [g1, res_bind_ok, g2n, List.length_map]
  rw [g1', res_bind_ok]
  obtain ⟨s', q1, q2, q3, q4, q5, q6⟩ := put_view ho.var ho.body ⟨b2, y.off, (pre ++ t ++ post).length, y.mark⟩
  have hoff := ho.den.off
  simp only at hoff
  refine ⟨s', q1, q2, q6, ?_, _, b2, q3, q4, g2, by rw [g2n, List.length_map], hoff, rfl⟩
  rw [q5]
  simp only
  rw [den_text g2, hoff, List.take_of_length_le (by simp only [List.length_drop, List.length_map]; omega)]

end Strpp.SV
