import Verif.Proof.Utf16
import Verif.Model.Utf16Release
import Verif.Spec.Utf16Any
/-! Property C74: UTF-16 on arbitrary units, with and without assertions (include/char_encoding.h). -/
namespace Strpp
open Spec

/-- The units from `p` on, as numbers, with their bytes exchanged if asked. -/
def unitsAt (m : List UTF16) (p : Nat) (swap : Bool) : List Nat :=
  (m.drop p).map (fun u => if swap then swapBytes u.toNat else u.toNat)

theorem sw_num (swap : Bool) (u : UTF16) : (if swap then swapBytes u.toNat else u.toNat) = (utf16Sw swap u).toNat := by
  cases swap
  · rfl
  · simp only [utf16Sw, if_true, swab_toNat]

theorem get16_aux (m : List UTF16) (p : Nat) (swap : Bool) :
    utf16GetRelease m p swap = (match first16 (unitsAt m p swap) with
      | .char c n => .ok (BitVec.ofNat 32 c, p + n)
      | .lone => .ok (0xFFFD#32, p + 1)
      | .short => .error .ub) ∧
    utf16Get m p swap = (match first16 (unitsAt m p swap) with
      | .char c n => .ok (BitVec.ofNat 32 c, p + n)
      | .lone => .error .assertion
      | .short => .error .ub) := by
  unfold unitsAt
  simp only [sw_num]
  rcases Nat.lt_or_ge p m.length with hp | hp
  · have hd : m.drop p = m[p] :: m.drop (p + 1) := List.drop_eq_getElem_cons hp
    have hr : rd m p = .ok m[p] := rd_lt m p hp
    rw [hd, List.map_cons]
    unfold utf16GetRelease utf16Get
    rw [hr]
    simp only [res_bind_ok]
    generalize utf16Sw swap m[p] = c1
    have s1 := isSurrogate_iff c1
    have s2 := is1st16_iff c1
    have l1 := c1.isLt
    cases e1 : utf16IsSurrogate c1 with
    | false =>
      rw [e1] at s1
      simp only [Bool.false_eq_true, false_iff] at s1
      have hf : ∀ L, first16 (c1.toNat :: L) = .char c1.toNat 1 := by
        intro L; simp only [first16]; rw [if_pos (by omega)]
      rw [hf]
      simp only [Bool.not_false, if_true, Except.ok.injEq, Prod.mk.injEq, and_true, and_self]
      apply BitVec.eq_of_toNat_eq; simp
    | true =>
      rw [e1] at s1
      simp only [true_iff] at s1
      simp only [Bool.not_true, Bool.false_eq_true, if_false]
      cases e2 : utf16Is1st c1 with
      | false =>
        rw [e2] at s2
        simp only [Bool.false_eq_true, false_iff] at s2
        have hf : ∀ L, first16 (c1.toNat :: L) = .lone := by
          intro L; simp only [first16]; rw [if_neg (by omega), if_pos (by omega)]
        rw [hf]
        exact ⟨rfl, rfl⟩
      | true =>
        rw [e2] at s2
        simp only [true_iff] at s2
        simp only [if_true, assert, res_bind_ok]
        rcases Nat.lt_or_ge (p + 1) m.length with hp1 | hp1
        · have hd1 : m.drop (p + 1) = m[p + 1] :: m.drop (p + 1 + 1) := List.drop_eq_getElem_cons hp1
          rw [rd_lt m (p + 1) hp1, hd1, List.map_cons]
          simp only [res_bind_ok]
          generalize utf16Sw swap m[p + 1] = c2
          have s3 := is2nd16_iff c2
          cases e3 : utf16Is2nd c2 with
          | false =>
            rw [e3] at s3
            simp only [Bool.false_eq_true, false_iff] at s3
            have hf : ∀ L, first16 (c1.toNat :: c2.toNat :: L) = .lone := by
              intro L; simp only [first16]; rw [if_neg (by omega), if_neg (by omega), if_neg s3]
            rw [hf]
            exact ⟨rfl, rfl⟩
          | true =>
            rw [e3] at s3
            simp only [true_iff] at s3
            have hf : ∀ L, first16 (c1.toNat :: c2.toNat :: L) =
                .char (0x10000 + (c1.toNat - 0xD800) * 0x400 + (c2.toNat - 0xDC00)) 2 := by
              intro L; simp only [first16]; rw [if_neg (by omega), if_neg (by omega), if_pos s3]
            rw [hf]
            simp only [if_true, res_bind_ok, Except.ok.injEq, Prod.mk.injEq, and_true, and_self]
            apply BitVec.eq_of_toNat_eq
            rw [BitVec.toNat_add, BitVec.toNat_add, BitVec.toNat_shiftLeft, high_payload' c1 s2,
              low_payload' c2 s3, Nat.shiftLeft_eq, BitVec.toNat_ofNat, BitVec.toNat_ofNat]
            omega
        · have hr1 : rd m (p + 1) = .error .ub := by unfold rd; rw [List.getElem?_eq_none hp1]
          have hf : first16 [c1.toNat] = .short := by
            simp only [first16]; rw [if_neg (by omega), if_neg (by omega)]
          rw [hr1, List.drop_eq_nil_of_le hp1, List.map_nil, hf]
          exact ⟨rfl, rfl⟩
  · have hr : rd m p = .error .ub := by unfold rd; rw [List.getElem?_eq_none hp]
    unfold utf16GetRelease utf16Get
    rw [hr, List.drop_eq_nil_of_le hp]
    exact ⟨rfl, rfl⟩

/-- C74. Without assertions, `UTF16Get` on any units, in either byte order: the character there and the pointer after
it; the replacement character and the next unit for a surrogate out of place; a read outside the buffer exactly if the
buffer ends before the first unit or between the units of a pair. -/
theorem C74_get_release (m : List UTF16) (p : Nat) (swap : Bool) :
    utf16GetRelease m p swap = (match first16 (unitsAt m p swap) with
      | .char c n => .ok (BitVec.ofNat 32 c, p + n)
      | .lone => .ok (0xFFFD#32, p + 1)
      | .short => .error .ub) := (get16_aux m p swap).1

/-- C74. With assertions the same, except that it aborts for a surrogate out of place. -/
theorem C74_get (m : List UTF16) (p : Nat) (swap : Bool) :
    utf16Get m p swap = (match first16 (unitsAt m p swap) with
      | .char c n => .ok (BitVec.ofNat 32 c, p + n)
      | .lone => .error .assertion
      | .short => .error .ub) := (get16_aux m p swap).2

/-- C74. In a buffer that ends with a zero unit, reading anywhere up to it, without assertions, always returns, and
never passes the end. -/
theorem C74_get_safe (m : List UTF16) (z p : Nat) (swap : Bool) (hz : m[z]? = some 0#16) (hp : p ≤ z) :
    ∃ ch n, utf16GetRelease m p swap = .ok (ch, p + n) ∧ (n = 1 ∨ n = 2) ∧ p + n ≤ z + 1 ∧ (p < z → p + n ≤ z) := by
  have hzl : z < m.length := by
    rcases Nat.lt_or_ge z m.length with h | h
    · exact h
    · rw [List.getElem?_eq_none h] at hz; cases hz
  rw [C74_get_release]
  have hd : m.drop p = m[p] :: m.drop (p + 1) := List.drop_eq_getElem_cons (by omega)
  unfold unitsAt
  simp only [sw_num]
  rw [hd, List.map_cons]
  simp only [first16]
  split
  · rename_i c n h
    split at h
    · cases h; exact ⟨_, 1, rfl, Or.inl rfl, by omega, by omega⟩
    · split at h
      · cases h
      · rename_i h1 h2
        split at h
        · cases h
        · rename_i v rest' heq
          split at h
          · rename_i hv
            rw [Unit16.char.injEq] at h
            obtain ⟨-, rfl⟩ := h
            have hpz : p ≠ z := by
              rintro rfl
              rw [List.getElem?_eq_getElem hzl] at hz
              simp only [Option.some.injEq] at hz
              rw [hz] at h1
              revert h1
              cases swap <;> decide
            have hp1 : p + 1 ≠ z := by
              rintro rfl
              rw [List.drop_eq_getElem_cons hzl, List.map_cons] at heq
              simp only [List.cons.injEq] at heq
              rw [List.getElem?_eq_getElem hzl] at hz
              simp only [Option.some.injEq] at hz
              rw [hz] at heq
              rw [← heq.1] at hv
              revert hv
              cases swap <;> decide
            exact ⟨_, 2, rfl, Or.inr rfl, by omega, by omega⟩
          · cases h
  · exact ⟨_, 1, rfl, Or.inl rfl, by omega, by omega⟩
  · rename_i h
    exfalso
    split at h
    · cases h
    · split at h
      · cases h
      · rename_i h1 h2
        split at h
        · rename_i heq
          have hlen : (m.drop (p + 1)).length = 0 := by simpa using congrArg List.length heq
          rw [List.length_drop] at hlen
          have : p = z := by omega
          subst this
          rw [List.getElem?_eq_getElem hzl] at hz
          simp only [Option.some.injEq] at hz
          rw [hz] at h1
          revert h1
          cases swap <;> decide
        · split at h <;> cases h

/-- C74. `UTF16Put` without assertions, for every value: the standard's units; one unit with the same value for a
surrogate; the replacement character for everything that is not Unicode; and `UTF16Len` is the number of units. -/
theorem C74_put_release (ch : UCS4) (swap : Bool) :
    (utf16PutRelease ch swap).map (fun u => if swap then swapBytes u.toNat else u.toNat) =
      (if ch.toNat < 0x110000 then utf16Units ch.toNat else [0xFFFD]) ∧
    utf16LenChRelease ch = (utf16PutRelease ch swap).length := by
  have hs : ∀ u : UTF16, (if swap then swapBytes (utf16Sw swap u).toNat else (utf16Sw swap u).toNat) = u.toNat := by
    intro u
    cases swap
    · simp [utf16Sw]
    · simp only [utf16Sw, if_true, ← swab_toNat, swab_swab]
  have hu : ucs4IsUnicode ch = decide (ch.toNat < 0x110000) := rfl
  unfold utf16PutRelease utf16LenChRelease utf16Units
  rw [hu]
  by_cases h1 : ch.toNat ≤ 0xFFFF
  · rw [if_pos h1, if_pos (by omega), if_pos (by omega), if_pos (by simp; omega), if_neg (by omega)]
    simp only [List.map_cons, List.map_nil, hs, BitVec.truncate_eq_setWidth, BitVec.toNat_setWidth, List.length_singleton, and_true]
    rw [Nat.mod_eq_of_lt (by omega)]
  · rw [if_neg h1]
    by_cases h2 : ch.toNat < 0x110000
    · simp only [h2, decide_true, if_true]
      rw [if_neg (show ¬ ch.toNat < 0x10000 by omega), if_pos (by omega)]
      simp only [List.map_cons, List.map_nil, hs, high_toNat ch (by omega) h2, low_toNat ch (by omega), List.length_cons,
        List.length_nil, and_true]
    · simp only [h2, decide_false, if_false, Bool.false_eq_true, List.map_cons, List.map_nil, hs, List.length_singleton, and_true]
      decide

/-- C74. With assertions, `UTF16Put` and `UTF16Len` abort exactly for what is not Unicode, and are the same otherwise. -/
theorem C74_put (ch : UCS4) (swap : Bool) :
    (ch.toNat < 0x110000 → utf16Put ch swap = .ok (utf16PutRelease ch swap) ∧ utf16LenCh ch = .ok (utf16LenChRelease ch)) ∧
    (0x110000 ≤ ch.toNat → utf16Put ch swap = .error .assertion ∧ utf16LenCh ch = .error .assertion) := by
  have hu : ucs4IsUnicode ch = decide (ch.toNat < 0x110000) := rfl
  unfold utf16PutRelease utf16LenChRelease utf16Put utf16LenCh
  rw [hu]
  constructor
  · intro h
    simp only [h, decide_true, assert, if_true, res_bind_ok, and_true]
    split <;> rfl
  · intro h
    have hn : ¬ ch.toNat < 0x110000 := by omega
    rw [if_neg (by omega)]
    simp only [hn, decide_false, assert, Bool.false_eq_true, if_false]
    exact ⟨rfl, rfl⟩

/-- C74. `UTF16Len(const UTF16*)` is 2 exactly at the first surrogate of a pair, complete or not: at a lone one it differs
from what reading takes. -/
theorem C74_len_at (m : List UTF16) (p : Nat) (swap : Bool) (u : UTF16) (h : m[p]? = some u) :
    utf16LenAt m p swap = .ok (if HighSurrogate (if swap then swapBytes u.toNat else u.toNat) then 2 else 1) := by
  unfold utf16LenAt
  rw [rd_eq_ok.mpr h, res_bind_ok]
  have := is1st16_iff (utf16Sw swap u)
  rw [sw_num]
  by_cases hh : utf16Is1st (utf16Sw swap u) = true
  · rw [if_pos hh, if_pos (this.1 hh)]
  · rw [if_neg hh, if_neg (fun h => hh (this.2 h))]

example : first16 [0xD83D, 0xDE00] = .char 0x1F600 2 ∧ first16 [0xD83D, 0x41] = .lone ∧ first16 [0xDC00] = .lone ∧
    first16 [0xD83D] = .short := by decide
example : unitsAt [0x3DD8#16, 0x00DE#16] 0 true = [0xD83D, 0xDE00] := by decide
example : utf16GetRelease [0xD83D#16, 0x41#16] 0 = .ok (0xFFFD#32, 1) ∧ utf16LenAt [0xD83D#16, 0x41#16] 0 = .ok 2 := by decide

end Strpp
