import Verif.Proof.Utf8
import Verif.Spec.Utf8
/-! `UTF8Get` refines the list specification `Spec.decode1`. -/
namespace Strpp
open Spec

theorem isCont_eq (b : Byte) : isCont b = !utf8Is1st b := by revert b; decide +kernel

theorem correctLen_leadInfo (b : Byte) :
    utf8CorrectLen b = (match leadInfo b with | none => 0 | some (n, _) => n + 1) := by
  revert b; decide +kernel

theorem leadInfo_mask (b : Byte) (n v : Nat) (h : leadInfo b = some (n, v)) :
    (b.signExtend 32 &&& utf8Mask (utf8CorrectLen b)).toNat = v := by
  rw [leadMask]
  unfold leadInfo at h
  (repeat' split at h) <;> simp only [Option.some.injEq, Prod.mk.injEq, reduceCtorEq] at h <;>
    (repeat' split) <;> omega

theorem leadInfo_bound (b : Byte) (n v : Nat) (h : leadInfo b = some (n, v)) :
    n ≤ 5 ∧ v * 64 ^ n < 2 ^ 32 ∧ (v + 1) * 64 ^ n ≤ 2 ^ 32 := by
  have hb := b.isLt
  unfold leadInfo at h
  (repeat' split at h) <;> simp only [Option.some.injEq, Prod.mk.injEq, reduceCtorEq] at h <;>
    (obtain ⟨rfl, rfl⟩ := h; omega)

theorem contValue_bound (cs : List Byte) (v : Nat) (hc : ∀ c ∈ cs, isCont c = true) :
    v * 64 ^ cs.length ≤ contValue v cs ∧ contValue v cs < (v + 1) * 64 ^ cs.length := by
  unfold contValue
  induction cs generalizing v with
  | nil => simp
  | cons c cs ih =>
    have h1 := hc c (by simp)
    simp only [isCont, Bool.and_eq_true, decide_eq_true_eq] at h1
    have := ih (v * 64 + (c.toNat - 128)) (fun c' h' => hc c' (by simp [h']))
    simp only [List.foldl_cons, List.length_cons, Nat.pow_succ]
    generalize 64 ^ cs.length = p at *
    generalize List.foldl (fun a c => a * 64 + (BitVec.toNat c - 128)) (v * 64 + (BitVec.toNat c - 128)) cs = r at *
    constructor
    · refine Nat.le_trans ?_ this.1
      rw [Nat.add_mul, Nat.mul_comm p 64, Nat.mul_assoc]; omega
    · refine Nat.lt_of_lt_of_le this.2 ?_
      have h64 : (v * 64 + (c.toNat - 128) + 1) ≤ (v + 1) * 64 := by omega
      rw [Nat.mul_comm p 64, ← Nat.mul_assoc]
      exact Nat.mul_le_mul_right p h64

theorem acc_contValue (cs : List Byte) (ch : UCS4) (v : Nat) (hv : ch.toNat = v)
    (hc : ∀ c ∈ cs, isCont c = true) (hb : (v + 1) * 64 ^ cs.length ≤ 2 ^ 32) :
    (cs.foldl utf8Acc ch).toNat = contValue v cs := by
  unfold contValue
  induction cs generalizing ch v with
  | nil => simpa
  | cons c cs ih =>
    have h1 := hc c (by simp)
    simp only [isCont, Bool.and_eq_true, decide_eq_true_eq] at h1
    simp only [List.length_cons, Nat.pow_succ] at hb
    have hpos : 0 < 64 ^ cs.length := Nat.pow_pos (by decide)
    simp only [List.foldl_cons]
    have h64 : (v + 1) * 64 * 64 ^ cs.length ≤ 2 ^ 32 := by
      rwa [Nat.mul_assoc, Nat.mul_comm 64]
    have h65 : (v + 1) * 64 ≤ 2 ^ 32 := Nat.le_trans (Nat.le_mul_of_pos_right _ hpos) h64
    apply ih
    · rw [getStep_toNat, hv]; omega
    · intro c' h'; exact hc c' (by simp [h'])
    · refine Nat.le_trans (Nat.mul_le_mul_right _ ?_) h64
      omega

theorem encodeIllegal_eq (b : Byte) : utf8EncodeIllegal b = BitVec.ofNat 32 (0x80000000 + b.toNat) := by
  revert b; decide +kernel

/-- The fall-through decoder meets a non-continuation among the next bytes: illegal. -/
theorem getFall_illegal (m : List Byte) (sp : Nat) (b0 : Byte) (k : Nat) (ch : UCS4) (cp j : Nat) (hj : j < k)
    (c : Byte) (hm : m[cp + 1 + j]? = some c) (hc : utf8Is1st c = true)
    (hpre : ∀ i, i < j → ∃ c', m[cp + 1 + i]? = some c') :
    utf8GetFall m sp b0 (k + 1) ch cp = .ok (utf8EncodeIllegal b0, sp + 1) := by
  induction k generalizing ch cp j with
  | zero => omega
  | succ k ih =>
    cases j with
    | zero =>
      have h0 : rd m (cp + 1) = .ok c := by simpa using hm
      simp only [utf8GetFall, h0, res_bind_ok, hc, if_true]
    | succ j =>
      obtain ⟨c', hc'⟩ := hpre 0 (by omega)
      have h0 : rd m (cp + 1) = .ok c' := by simpa using hc'
      simp only [utf8GetFall, h0, res_bind_ok]
      split
      · rfl
      · refine ih (utf8Acc ch c') (cp + 1) j (by omega) ?_ ?_
        · rw [← hm]; congr 1; omega
        · intro i hi
          have := hpre (i + 1) (by omega)
          have e : cp + 1 + (i + 1) = cp + 1 + 1 + i := by omega
          rwa [e] at this

/-- First non-continuation in a list. -/
theorem first_noncont (l : List Byte) (h : ¬ l.all isCont = true) :
    ∃ (j : Nat) (c : Byte), l[j]? = some c ∧ isCont c = false := by
  simp only [List.all_eq_true, Classical.not_forall] at h
  obtain ⟨c, hc, hn⟩ := h
  obtain ⟨j, hj⟩ := List.mem_iff_getElem?.mp hc
  exact ⟨j, c, hj, by simpa using hn⟩

/-- `UTF8Get` on any buffer where a non-continuation byte follows (e.g. a NUL): it decodes as specified. -/
theorem get_decode1 (m : List Byte) (p z : Nat) (c : Byte) (hp : p < z) (hz : m[z]? = some c)
    (hc : utf8Is1st c = true) :
    ∃ ch n, decode1 (m.drop p) = some (ch, n) ∧ utf8Get m p = .ok (ch, p + n) ∧ 1 ≤ n ∧ n ≤ 6 ∧ p + n ≤ z := by
  have hzl : z < m.length := by
    rcases Nat.lt_or_ge z m.length with h | h
    · exact h
    · rw [List.getElem?_eq_none h] at hz; cases hz
  have hd : m.drop p = m[p] :: m.drop (p + 1) := List.drop_eq_getElem_cons (by omega)
  have h0 : m[p]? = some m[p] := List.getElem?_eq_getElem (by omega)
  have hrd : rd m p = .ok m[p] := by simp
  generalize m[p] = b at *
  have hidx : ∀ i, (m.drop (p + 1))[i]? = m[p + 1 + i]? := by intro i; simp
  generalize hrest : m.drop (p + 1) = rest at *
  have hcl := correctLen_leadInfo b
  rw [hd]
  have hget : utf8Get m p = utf8GetFall m p b (utf8CorrectLen b) (b.signExtend 32 &&& utf8Mask (utf8CorrectLen b)) p := by
    unfold utf8Get; rw [hrd]; rfl
  simp only [decode1]
  cases hli : leadInfo b with
  | none =>
    rw [hli] at hcl
    refine ⟨_, 1, rfl, ?_, by omega, by omega, by omega⟩
    rw [hget, hcl]; simp [utf8GetFall, encodeIllegal_eq]
  | some nv =>
    obtain ⟨n, v⟩ := nv
    rw [hli] at hcl
    simp only at hcl
    have hb := leadInfo_bound b n v hli
    have hmask := leadInfo_mask b n v hli
    simp only
    by_cases hcond : (rest.take n).length = n ∧ (rest.take n).all isCont = true
    · rw [if_pos hcond]
      obtain ⟨hlen, hall⟩ := hcond
      rw [List.all_eq_true] at hall
      have hz2 : p + (n + 1) ≤ z := by
        rcases Nat.lt_or_ge z (p + (n + 1)) with h | h
        · exfalso
          have h1 : (rest.take n)[z - (p + 1)]? = some c := by
            rw [List.getElem?_take_of_lt (by omega), hidx, ← hz]; congr 1; omega
          have := hall c (List.mem_of_getElem? h1)
          rw [isCont_eq, hc] at this; cases this
        · exact h
      refine ⟨_, n + 1, rfl, ?_, by omega, by omega, hz2⟩
      have hr := get_run m p b (rest.take n) h0 (by rw [hlen, hcl]) (by
        intro i hi
        have hin : i < n := by simpa [hlen] using hi
        rw [← hidx, ← List.getElem?_take_of_lt hin, List.getElem?_eq_getElem hi]) (by
        intro c' hc'
        have := hall c' hc'
        rw [isCont_eq] at this; simpa using this)
      rw [hr, hlen]
      have : (rest.take n).foldl utf8Acc (b.signExtend 32 &&& utf8Mask (utf8CorrectLen b))
          = BitVec.ofNat 32 (contValue v (rest.take n)) := by
        apply BitVec.eq_of_toNat_eq
        rw [acc_contValue _ _ v hmask hall (by rw [hlen]; exact hb.2.2), BitVec.toNat_ofNat, Nat.mod_eq_of_lt]
        have h3 := (contValue_bound (rest.take n) v hall).2
        rw [hlen] at h3
        exact Nat.lt_of_lt_of_le h3 hb.2.2
      rw [this, Nat.add_assoc]
    · rw [if_neg hcond]
      refine ⟨_, 1, rfl, ?_, by omega, by omega, by omega⟩
      rw [hget, hcl, ← encodeIllegal_eq]
      by_cases hlen : (rest.take n).length = n
      · obtain ⟨j, c', hj, hc'⟩ := first_noncont (rest.take n) (fun h => hcond ⟨hlen, h⟩)
        have hjn : j < n := by
          rcases Nat.lt_or_ge j n with h | h
          · exact h
          · rw [List.getElem?_eq_none (by omega)] at hj; cases hj
        refine getFall_illegal m p b n _ p j hjn c' ?_ ?_ ?_
        · rw [← hidx, ← hj, List.getElem?_take_of_lt hjn]
        · rw [isCont_eq] at hc'; simpa using hc'
        · intro i hi
          refine ⟨_, (?_ : _ = some ((rest.take n)[i]'(by omega)))⟩
          rw [← hidx, ← List.getElem?_eq_getElem, List.getElem?_take_of_lt (by omega)]
      · -- fewer than n bytes remain: the terminator is among them
        have hrl : rest.length < n := by
          simp only [List.length_take] at hlen; omega
        have hmr : rest.length = m.length - (p + 1) := by rw [← hrest, List.length_drop]
        refine getFall_illegal m p b n _ p (z - (p + 1)) (by omega) c ?_ hc ?_
        · rw [← hz]; congr 1; omega
        · intro i hi
          exact ⟨_, List.getElem?_eq_getElem (by omega)⟩

/-- ... and at a NUL (or any ASCII byte) it returns that byte. -/
theorem get_ascii (m : List Byte) (p : Nat) (c : Byte) (hz : m[p]? = some c) (hc : c.toNat < 128) :
    decode1 (m.drop p) = some (c.zeroExtend 32, 1) ∧ utf8Get m p = .ok (c.zeroExtend 32, p + 1) := by
  have hlen : p < m.length := by
    rcases Nat.lt_or_ge p m.length with h | h
    · exact h
    · rw [List.getElem?_eq_none h] at hz; cases hz
  have hd : m.drop p = c :: m.drop (p + 1) := by
    rw [List.drop_eq_getElem_cons hlen]
    rw [List.getElem?_eq_getElem hlen] at hz; rw [Option.some.inj hz]
  have hr : rd m p = .ok c := by simpa using hz
  have hl : leadInfo c = some (0, c.toNat) := by unfold leadInfo; simp [hc]
  have h1 : utf8CorrectLen c = 1 := by unfold utf8CorrectLen; simp [hc]
  have e : BitVec.ofNat 32 c.toNat = c.zeroExtend 32 := by
    apply BitVec.eq_of_toNat_eq; simp
  constructor
  · rw [hd]; simp [decode1, hl, contValue, e]
  · unfold utf8Get; rw [hr]
    simp only [res_bind_ok]
    have hm := leadMask c
    rw [h1] at *
    simp only [utf8GetFall, Except.ok.injEq, Prod.mk.injEq, and_true]
    apply BitVec.eq_of_toNat_eq
    rw [hm, if_pos (by omega)]; simp; omega

end Strpp
