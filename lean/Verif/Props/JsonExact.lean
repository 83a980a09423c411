import Verif.Props.StrJson
import Verif.Spec.JsonExact
/-! C82: `asJSON()` exactly, for every string. -/
set_option linter.unusedSimpArgs false
namespace Strpp.SV
open Spec Arr

theorem hexEscape_eq (n : Nat) (h : n < 65536) : codes (u4Chars n) = hexEscape n := by
  have key : ∀ d : Nat, d < 16 → (BitVec.ofNat 32 (if d < 10 then 0x30 + d else 0x37 + d)).toNat = upperHex d := by
    intro d hd
    unfold upperHex
    rw [BitVec.toNat_ofNat]
    split <;> omega
  unfold codes u4Chars hexEscape
  simp only [List.map_cons, List.map_nil, List.cons_append, List.nil_append]
  rw [key _ (by omega), key _ (by omega), key _ (by omega), key _ (by omega), Nat.mod_eq_of_lt (show n / 4096 < 16 by omega)]
  rfl

theorem written_eq (c : UCS4) (hc : c.toNat ≤ 0xFFFFF) : jsonWritten c.toNat = some (codes (esc c)) := by
  have e : ∀ n : Nat, n < 2 ^ 32 → (c = BitVec.ofNat 32 n ↔ c.toNat = n) := by
    intro n hn
    rw [← BitVec.toNat_inj, BitVec.toNat_ofNat, Nat.mod_eq_of_lt hn]
  unfold jsonWritten esc
  simp only [e 0 (by omega), e 0x22 (by omega), e 0x5C (by omega), e 0x2F (by omega), e 0x08 (by omega), e 0x0C (by omega),
    e 0x0A (by omega), e 0x0D (by omega), e 0x09 (by omega)]
  by_cases k0 : c.toNat = 0
  · rw [if_pos k0, if_pos k0]; rfl
  rw [if_neg k0, if_neg k0]
  by_cases k1 : c.toNat = 0x22
  · rw [if_pos (Or.inl k1), if_pos k1, k1]; rfl
  by_cases k2 : c.toNat = 0x5C
  · rw [if_pos (Or.inr (Or.inl k2)), if_neg k1, if_pos k2, k2]; rfl
  by_cases k3 : c.toNat = 0x2F
  · rw [if_pos (Or.inr (Or.inr k3)), if_neg k1, if_neg k2, if_pos k3, k3]; rfl
  rw [if_neg (by omega), if_neg k1, if_neg k2, if_neg k3]
  by_cases k4 : c.toNat = 0x08
  · rw [if_pos k4, if_pos k4]; rfl
  rw [if_neg k4, if_neg k4]
  by_cases k5 : c.toNat = 0x0C
  · rw [if_pos k5, if_pos k5]; rfl
  rw [if_neg k5, if_neg k5]
  by_cases k6 : c.toNat = 0x0A
  · rw [if_pos k6, if_pos k6]; rfl
  rw [if_neg k6, if_neg k6]
  by_cases k7 : c.toNat = 0x0D
  · rw [if_pos k7, if_pos k7]; rfl
  rw [if_neg k7, if_neg k7]
  by_cases k8 : c.toNat = 0x09
  · rw [if_pos k8, if_pos k8]; rfl
  rw [if_neg k8, if_neg k8]
  by_cases k9 : c.toNat < 0x20 ∨ (0xD800 ≤ c.toNat ∧ c.toNat < 0xE000)
  · rw [if_pos k9, if_neg (by omega), if_pos (by omega), hexEscape_eq _ (by omega)]
  rw [if_neg k9]
  by_cases ka : c.toNat ≤ 0xFFFF
  · rw [if_pos ka, if_pos (by omega)]; rfl
  rw [if_neg ka, if_pos hc, if_neg (by omega), if_neg ka]
  unfold codes
  rw [List.map_append]
  have h1 := hexEscape_eq (0xD800 + c.toNat / 1024 % 1024) (by omega)
  have h2 := hexEscape_eq (0xDC00 + c.toNat % 1024) (by omega)
  unfold codes at h1 h2
  rw [h1, h2, Nat.mod_eq_of_lt (show c.toNat / 1024 < 1024 by omega)]

/-! ### aborting -/

/-- the closure without its assertion -/
def jsonAll : XForm Unit := fun st mem cp _ => do
  let r ← utf8Get mem cp
  let repl ← oneChar (encodeAll (esc r.1))
  .ok (st, repl, r.2)

theorem all_behaves {b : SBody} {P : List UCS4} (hb : BDen b P) : BehavesAt (fun _ => True) jsonAll jsonF b P := by
  intro st k _ hk
  have hdrop : P.drop k = P[k] :: P.drop (k + 1) := (List.getElem_cons_drop hk).symm
  rw [hdrop]
  have hsz := esc_size P[k]
  have hsb := staticBody_spec (esc P[k]) (esc_good _ (hb.good_at k hk)) (by omega)
  obtain ⟨b', c1, c2, c3, c4⟩ := ofBody_spec hsb
  refine ⟨⟨b', 0, (esc P[k]).length, ⟨0, 0⟩⟩, [], [], ?_, by simp only [jsonF]; omega, Den.whole c2, trivial⟩
  unfold jsonAll oneChar
  rw [hb.get k hk, res_bind_ok]
  simp only
  rw [c1, res_bind_ok]
  rfl

theorem json_same {b : SBody} {P : List UCS4} (hb : BDen b P) (k : Nat) (hk : k < P.length) (hc : P[k].toNat ≤ 0xFFFFF) (st : Unit) (ep : Nat) :
    jsonX st b.arr.mem (bpos P k) ep = jsonAll st b.arr.mem (bpos P k) ep := by
  have hsz := esc_size P[k]
  unfold jsonX jsonAll inOneChar
  rw [hb.get k hk, res_bind_ok, res_bind_ok]
  simp only
  rw [escape_spec _ hc, res_bind_ok, if_pos (by omega), res_bind_ok]

theorem escape_abort (c : UCS4) (h : 0xFFFFF < c.toNat) : escape c = .error .assertion := by
  have e : ∀ n : Nat, n < 2 ^ 20 → ¬ c = BitVec.ofNat 32 n := by
    intro n hn he
    rw [he, BitVec.toNat_ofNat] at h
    omega
  unfold escape
  simp only [beq_iff_eq]
  rw [if_neg (e 0 (by omega)), if_neg (e 0x22 (by omega)), if_neg (e 0x5C (by omega)), if_neg (e 0x2F (by omega)), if_neg (e 0x08 (by omega)),
    if_neg (e 0x0C (by omega)), if_neg (e 0x0A (by omega)), if_neg (e 0x0D (by omega)), if_neg (e 0x09 (by omega)),
    if_neg (by simp; omega), if_neg (by omega)]
  have ha : (assert (c.toNat ≤ 0xFFFFF) : Res Unit) = .error .assertion := by simp [Strpp.assert]; omega
  rw [ha]; rfl

theorem json_abort {b : SBody} {cs : List UCS4} (h : BDen b cs) (rc : Nat) (hrc : rc ≤ 1) (q : Nat) (hq : q < cs.length)
    (hbad : 0xFFFFF < cs[q].toNat) (hgood : ∀ k (hk : k < q), cs[k].toNat ≤ 0xFFFFF) :
    ∀ (d k fuel : Nat) (t : TState Unit) (o : List UCS4), k + d = q → d < fuel → Out t.out o → t.up = bpos cs k → t.stopped = false →
    t.processed = k → (encodeAll o).length + 12 * (d + 1) < 1073741824 →
    transLoop jsonX rc b.arr.mem (encodeAll cs).length (-1) fuel t = .error .assertion := by
  intro d
  induction d with
  | zero =>
    intro k fuel t o hk hf ho hup hst hpr hsz
    obtain ⟨fu, rfl⟩ : ∃ f, fuel = f + 1 := ⟨fuel - 1, by omega⟩
    have hb : bpos cs k < (encodeAll cs).length := by
      rw [← bpos_end cs cs.length (Nat.le_refl _)]; exact bpos_strict cs (by omega) (Nat.le_refl _)
    have hts : transStep jsonX rc b.arr.mem (encodeAll cs).length (-1) t = xformStep jsonX rc b.arr.mem (encodeAll cs).length t := by
      unfold transStep
      have : wrap (-1 + 1) = 0 := by decide
      rw [this, if_pos (by simp [hst])]
    have hx : xformStep jsonX rc b.arr.mem (encodeAll cs).length t = .error .assertion := by
      unfold xformStep
      rw [hup, decide_eq_true hb, assert_true, res_bind_ok]
      have : jsonX t.st b.arr.mem (bpos cs k) (encodeAll cs).length = .error .assertion := by
        unfold jsonX
        rw [h.get k (by omega), res_bind_ok]
        simp only
        have hkq : k = q := by omega
        subst hkq
        rw [escape_abort _ hbad]; rfl
      rw [this]; rfl
    rw [transLoop, if_pos (by rw [hup]; exact hb), hts, hx]; rfl
  | succ d ih =>
    intro k fuel t o hk hf ho hup hst hpr hsz
    obtain ⟨fu, rfl⟩ : ∃ f, fuel = f + 1 := ⟨fuel - 1, by omega⟩
    have hlt : k < cs.length := by omega
    have hb : bpos cs k < (encodeAll cs).length := by
      rw [← bpos_end cs cs.length (Nat.le_refl _)]; exact bpos_strict cs hlt (Nat.le_refl _)
    have hdrop : cs.drop k = cs[k] :: cs.drop (k + 1) := (List.getElem_cons_drop hlt).symm
    have hes := esc_size cs[k]
    obtain ⟨t', s1, s2, s3, s4, s5, s6, s7, s8⟩ := xformStep_spec (fun _ => True) jsonAll jsonF (all_behaves h) rc hrc h k hlt t o ho hup hpr trivial
      (by rw [hdrop]; simp only [jsonF, encodeAll_append, List.length_append]; omega)
    rw [hdrop] at s2 s3 s4 s6
    simp only [jsonF] at s2 s3 s4 s6
    have hts : transStep jsonX rc b.arr.mem (encodeAll cs).length (-1) t = xformStep jsonX rc b.arr.mem (encodeAll cs).length t := by
      unfold transStep
      have : wrap (-1 + 1) = 0 := by decide
      rw [this, if_pos (by simp [hst])]
    have hxs : xformStep jsonX rc b.arr.mem (encodeAll cs).length t = xformStep jsonAll rc b.arr.mem (encodeAll cs).length t := by
      unfold xformStep
      rw [hup, json_same h k hlt (hgood k (by omega))]
    rw [transLoop, if_pos (by rw [hup]; exact hb), hts, hxs, s1, res_bind_ok]
    refine ih (k + 1) fu t' _ (by omega) (by omega) s2 s3 (by rw [s6, hst]; simp) s4 ?_
    simp only [encodeAll_append, List.length_append]; omega

theorem toJSON_abort {s : State} (h : Inv s) {v : Nat} {t : List UCS4} (hv : Txt s v t) (hw : Whole s v)
    (ht : ∃ c ∈ t, 0xFFFFF < c.toNat) {k : Nat} (hr : Roomy s k) (hsz : 12 * t.length < 2 ^ 30) :
    toJSON s v = .error .assertion := by
  obtain ⟨s1, u1, u2, u3, u4, y, b, u5, u6, u7⟩ := whole_owned h hv hw hr
  have hden := u5.den.body
  simp only [List.nil_append, List.append_nil] at hden
  have hfirst : ∃ q, ∃ (hq : q < t.length), 0xFFFFF < t[q].toNat ∧ ∀ k (hk : k < q), t[k].toNat ≤ 0xFFFFF := by
    clear hv hden hsz u5
    induction t with
    | nil => obtain ⟨c, hc, -⟩ := ht; cases hc
    | cons a t ih =>
      by_cases ha : 0xFFFFF < a.toNat
      · exact ⟨0, by simp, ha, fun k hk => by omega⟩
      · obtain ⟨c, hc, hc2⟩ := ht
        rcases List.mem_cons.mp hc with rfl | hc
        · exact absurd hc2 ha
        · obtain ⟨q, hq, h1, h2⟩ := ih ⟨c, hc, hc2⟩
          refine ⟨q + 1, by simpa using hq, by simpa using h1, fun k hk => ?_⟩
          cases k with
          | zero => simpa using ha
          | succ k => simpa using h2 k (by omega)
  obtain ⟨q, hq, hq1, hq2⟩ := hfirst
  have hn := hden.num
  have hsm := hden.small
  have hge := encodeAll_length_ge t
  have hemp : (Body.empty : Body Byte).WF := ⟨by simp [Body.empty], fun _ => rfl, nofun, by simp [Body.empty]⟩
  obtain ⟨arr, r1, r2, r3, r4, r5, r6⟩ := resize_spec (Body.empty : Body Byte) hemp rfl (b.arr.num + 6) (by simp [Body.empty]) (by omega)
  have hl := json_abort hden _ u5.rc q hq hq1 hq2 q 0 (2 * b.arr.num + 2) ⟨(), ⟨arr, 0⟩, 0, 0, false⟩ [] (by omega) (by omega)
    ⟨r2, r3, by rw [r5]; rfl, rfl⟩ rfl rfl rfl (by simp only [encodeAll_nil, List.length_nil]; omega)
  unfold toJSON
  rw [u1, res_bind_ok, getVar_ok u5.var, res_bind_ok, getStr_ok u5.var u5.body, res_bind_ok]
  unfold SBody.toJSON SBody.transform
  simp only
  rw [decide_eq_true u5.rc, assert_true, res_bind_ok, r1, res_bind_ok]
  rw [hn, Nat.add_sub_cancel, ← hn, hl]; rfl

/-- C82. `asJSON()` of any string: each character is written as `jsonWritten` says, and the call aborts exactly if one of
them is beyond U+FFFFF. -/
theorem C82_asJSON {s : State} (h : Reached s) {w : Nat} {t : List UCS4} (hv : view s w = some t) (hsz : 12 * t.length < 2 ^ 30) :
    (∀ ls, (codes t).mapM jsonWritten = some ls → ∃ s' j, asJSON s w = .ok s' ∧ view s' s.vars.length = some j ∧ codes j = ls.flatten) ∧
    ((codes t).mapM jsonWritten = none → asJSON s w = .error .assertion) := by
  by_cases ht : ∀ c ∈ t, c.toNat ≤ 0xFFFFF
  · have hmap : ∀ l : List UCS4, (∀ c ∈ l, c.toNat ≤ 0xFFFFF) → (codes l).mapM jsonWritten = some (l.map (fun c => codes (esc c))) := by
      intro l
      induction l with
      | nil => intro _; rfl
      | cons c l ih =>
        intro hl
        have i2 := ih (fun d hd => hl d (by simp [hd]))
        unfold codes at i2 ⊢
        rw [List.map_cons, List.mapM_cons, written_eq c (hl c (by simp)), i2]
        rfl
    have hb := esc_bytes t
    obtain ⟨s', e, h1, -, -, h2⟩ := asJSON_ok h.inv.1 (h.inv.1.txt hv) ht h.inv.2 (by omega)
    rw [hmap t ht]
    refine ⟨fun ls hls => ⟨s', _, e, h2.view, ?_⟩, fun hx => (by cases hx)⟩
    cases hls
    unfold codes
    rw [List.flatMap_def, List.map_flatten, List.map_map]; rfl
  · have ht' : ∃ c ∈ t, 0xFFFFF < c.toNat := by
      simp only [Classical.not_forall] at ht
      obtain ⟨c, hc, h1⟩ := ht
      exact ⟨c, hc, by omega⟩
    have hnone : ∀ l : List UCS4, (∃ c ∈ l, 0xFFFFF < c.toNat) → (codes l).mapM jsonWritten = none := by
      intro l
      induction l with
      | nil => rintro ⟨c, hc, -⟩; cases hc
      | cons a l ih =>
        rintro ⟨c, hc, h1⟩
        unfold codes at ih ⊢
        rw [List.map_cons, List.mapM_cons]
        rcases List.mem_cons.mp hc with rfl | hc
        · have : jsonWritten c.toNat = none := by
            unfold jsonWritten
            rw [if_neg (by omega), if_neg (by omega), if_neg (by omega), if_neg (by omega), if_neg (by omega), if_neg (by omega), if_neg (by omega),
              if_neg (by omega), if_neg (by omega), if_neg (by omega)]
          rw [this]; rfl
        · rw [ih ⟨c, hc, h1⟩]
          cases jsonWritten a.toNat <;> rfl
    rw [hnone t ht']
    refine ⟨fun ls hls => (by cases hls), fun _ => ?_⟩
    obtain ⟨s1, c1, c2, c3, c4, c5, c6, c7⟩ := copy_whole h.inv.1 (h.inv.1.txt hv) h.inv.2
    unfold asJSON
    simp only
    rw [c1, res_bind_ok]
    exact toJSON_abort c2 c5 c6 ht' c3 hsz

/-- C82. So the output is the text of a JSON string for the original exactly if the text has no NUL and nothing beyond U+FFFF. -/
theorem C82_right (n : Nat) (hn : n ≤ 0xFFFFF) (hs : ¬ (0xD800 ≤ n ∧ n < 0xE000)) :
    (∃ l, jsonWritten n = some l ∧ jsonString l = some [n]) ↔ n ≠ 0 ∧ n ≤ 0xFFFF := by
  have hc : (BitVec.ofNat 32 n).toNat = n := by rw [BitVec.toNat_ofNat]; omega
  have hw := written_eq (BitVec.ofNat 32 n) (by omega)
  rw [hc] at hw
  constructor
  · rintro ⟨l, h1, h2⟩
    have h0 : n ≠ 0 := by
      rintro rfl
      have : jsonWritten 0 = some [0x5C, 0x30] := rfl
      rw [this] at h1
      cases h1
      revert h2; decide
    refine ⟨h0, ?_⟩
    rw [hw] at h1
    cases h1
    have hd := decoded [BitVec.ofNat 32 n] (by
      intro c hc'
      rw [List.mem_singleton.mp hc']
      exact ⟨fun e => h0 (by rw [← hc, e]; rfl), by omega⟩) (by trivial)
    simp only [List.flatMap_cons, List.flatMap_nil, List.append_nil, codes, List.map_cons, List.map_nil, hc] at hd
    rw [codes, hd] at h2
    simp only [Option.some.injEq, List.cons.injEq, and_true] at h2
    unfold readBack at h2
    split at h2 <;> omega
  · rintro ⟨h0, h1⟩
    refine ⟨_, hw, ?_⟩
    have hd := decoded [BitVec.ofNat 32 n] (by
      intro c hc'
      rw [List.mem_singleton.mp hc']
      exact ⟨fun e => h0 (by rw [← hc, e]; rfl), by omega⟩) (by trivial)
    simp only [List.flatMap_cons, List.flatMap_nil, List.append_nil, codes, List.map_cons, List.map_nil, hc] at hd
    rw [codes, hd]
    unfold readBack
    rw [if_pos h1]

/-- a quote, U+0001, U+1F600 and NUL; U+10FFFF -/
example : [0x22, 1, 0x1F600, 0].mapM jsonWritten = some [[0x5C, 0x22], [0x5C, 0x75, 0x30, 0x30, 0x30, 0x31],
    [0x5C, 0x75, 0x44, 0x38, 0x37, 0x44, 0x5C, 0x75, 0x44, 0x45, 0x30, 0x30], [0x5C, 0x30]] ∧ [0x61, 0x10FFFF].mapM jsonWritten = none := by decide
example : Reached sampleState ∧ view sampleState 0 = some [0x61#32, 0xE9#32, 0x63#32] := ⟨sample_reached, by decide +kernel⟩

end Strpp.SV
