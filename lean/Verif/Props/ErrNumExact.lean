import Verif.Props.ErrNum
/-! Property C90: error numbers exactly, for every set and every message number (include/error.h). -/
namespace Strpp.ErrNum

/-- Set numbers that make the same errors: their low 16 bits agree, bits 12 and 13 apart. -/
def SameSet (s s' : BitVec 32) : Prop := ∀ i, i < 16 → i ≠ 12 → i ≠ 13 → s.getLsbD i = s'.getLsbD i

/-- Message numbers that make the same errors: their low 14 bits agree. -/
def SameMsg (m m' : BitVec 32) : Prop := ∀ i, i < 14 → m.getLsbD i = m'.getLsbD i

/-- C90. Two errors are equal just when their set numbers agree (as `SameSet` says) and their message numbers agree. -/
theorem C90_equal (s m s' m' : BitVec 32) : mk s m = mk s' m' ↔ SameSet s s' ∧ SameMsg m m' := by
  constructor
  · intro h
    constructor
    · intro i hi h1 h2
      have hb : (mk s m)[i + 14] = (mk s' m')[i + 14] := by rw [h]
      rw [mk_bit _ _ _ (by omega), mk_bit _ _ _ (by omega)] at hb
      have a1 : ¬ (i + 14 = 26 ∨ i + 14 = 27) := by omega
      have a2 : 14 ≤ i + 14 ∧ i + 14 < 30 := by omega
      have a3 : ¬ i + 14 < 14 := by omega
      simpa [a1, a2, a3, h1, h2] using hb
    · intro i hi
      have hb : (mk s m)[i] = (mk s' m')[i] := by rw [h]
      rw [mk_bit _ _ _ (by omega), mk_bit _ _ _ (by omega)] at hb
      have a1 : ¬ (i = 26 ∨ i = 27) := by omega
      have a2 : ¬ (14 ≤ i ∧ i < 30) := by omega
      simp only [a1, a2, hi, decide_false, decide_true, Bool.false_and, Bool.true_and, Bool.or_false, Bool.false_or] at hb
      rw [BitVec.getLsbD_eq_getElem (by omega), BitVec.getLsbD_eq_getElem (by omega)]
      exact hb
  · rintro ⟨h1, h2⟩
    ext i hi
    rw [mk_bit _ _ _ hi, mk_bit _ _ _ hi]
    by_cases a : i < 14
    · have a1 : ¬ (14 ≤ i ∧ i < 30) := by omega
      have := h2 i a
      rw [BitVec.getLsbD_eq_getElem hi, BitVec.getLsbD_eq_getElem hi] at this
      simp [a1, this]
    · by_cases b : i = 26 ∨ i = 27
      · simp [b]
      · by_cases c : i < 30
        · have := h1 (i - 14) (by omega) (by omega) (by omega)
          simp [this, a]
        · simp [a, c]

/-- sets 5 and 0x3005 make the same errors, 5 and 6 do not -/
example : mk 5#32 7#32 = mk 0x3005#32 7#32 ∧ mk 5#32 7#32 ≠ mk 6#32 7#32 := by decide

/-- C90. The numbers that come back: of the message the low 14 bits, of the set the low 16 with 12 and 13 set. -/
theorem C90_unpack (s m : BitVec 32) (i : Nat) :
    (msg (mk s m)).getLsbD i = (decide (i < 14) && m.getLsbD i) ∧
    (set (mk s m)).getLsbD i = (decide (i < 16) && (s.getLsbD i || decide (i = 12 ∨ i = 13))) := by
  rw [C16_msg, C16_set_partial, BitVec.getLsbD_and, BitVec.getLsbD_or, BitVec.getLsbD_and]
  by_cases hi : i < 32
  · have e1 := bits_3fff ⟨i, hi⟩
    have e2 := bits_ffff ⟨i, hi⟩
    have e3 := bits_3000 ⟨i, hi⟩
    simp only at e1 e2 e3
    rw [← BitVec.getLsbD_eq_getElem hi] at e1 e2 e3
    rw [e1, e2, e3]
    constructor
    · exact Bool.and_comm _ _
    · by_cases a : i < 16
      · simp [a]
      · have : ¬ (i = 12 ∨ i = 13) := by omega
        simp [a, this]
  · rw [BitVec.getLsbD_of_ge m i (by omega), BitVec.getLsbD_of_ge s i (by omega)]
    have h1 : (0x3FFF#32).getLsbD i = false := BitVec.getLsbD_of_ge _ i (by omega)
    have h3 : (0x3000#32).getLsbD i = false := BitVec.getLsbD_of_ge _ i (by omega)
    have h4 : ¬ i < 16 := by omega
    simp only [h3, h4, Bool.false_and, Bool.and_false, Bool.or_false, decide_false, and_self]

/-- C90. The set number comes back exactly when it is below 65536 and has bits 12 and 13. -/
theorem C90_set_survives (s m : BitVec 32) : set (mk s m) = s ↔ s.toNat < 65536 ∧ s.getLsbD 12 = true ∧ s.getLsbD 13 = true := by
  constructor
  · intro h
    have hb := fun i => (C90_unpack s m i).2
    rw [h] at hb
    refine ⟨?_, by have := hb 12; simpa using this, by have := hb 13; simpa using this⟩
    refine Nat.lt_pow_two_of_testBit (n := 16) _ (fun i hi => ?_)
    have := hb i
    rw [BitVec.getLsbD] at this
    rw [this]
    have : ¬ i < 16 := by omega
    simp [this]
  · rintro ⟨h, h1, h2⟩
    apply BitVec.eq_of_getLsbD_eq
    intro i hi
    rw [(C90_unpack s m i).2]
    by_cases a : i < 16
    · by_cases b : i = 12
      · subst b; simp [h1]
      · by_cases c : i = 13
        · subst c; simp [h2]
        · simp [a, b, c]
    · rw [BitVec.getLsbD, Nat.testBit_lt_two_pow (Nat.lt_of_lt_of_le (show s.toNat < 2 ^ 16 from h) (Nat.pow_le_pow_right (by decide) (show 16 ≤ i by omega)))]
      simp [a]

/-- C90. The message number comes back exactly when it is below 16384. -/
theorem C90_msg_survives (s m : BitVec 32) : msg (mk s m) = m ↔ m.toNat < 16384 := by
  constructor
  · intro h
    have hb := fun i => (C90_unpack s m i).1
    rw [h] at hb
    have : m = m &&& 0x3FFF#32 := by rw [← C16_msg s m, h]
    rw [this, BitVec.toNat_and]
    exact Nat.lt_of_le_of_lt Nat.and_le_right (by decide)
  · intro h
    apply BitVec.eq_of_getLsbD_eq
    intro i hi
    rw [(C90_unpack s m i).1]
    by_cases a : i < 14
    · simp [a]
    · rw [BitVec.getLsbD, Nat.testBit_lt_two_pow (Nat.lt_of_lt_of_le (show m.toNat < 2 ^ 14 from h) (Nat.pow_le_pow_right (by decide) (show 14 ≤ i by omega)))]
      simp [a]

example : set (mk 0x3001#32 2#32) = 0x3001#32 ∧ msg (mk 0x3001#32 2#32) = 2#32 := by decide

/-- C90. An error made from an `int32_t`: zero is no error; any other value is kept with bits 26 and 27 set, so it comes back if it
had them, and is never "no error". -/
theorem C90_of_int (x : BitVec 32) : (ofInt32 x = none ↔ x = 0#32) ∧
    (x ≠ 0#32 → ∀ i, i < 32 → (toInt32 (ofInt32 x)).getLsbD i = (x.getLsbD i || decide (i = 26 ∨ i = 27))) := by
  have key : x ≠ 0#32 → ∀ i, i < 32 → (toInt32 (ofInt32 x)).getLsbD i = (x.getLsbD i || decide (i = 26 ∨ i = 27)) := by
    intro h i hi
    unfold toInt32 ofInt32
    rw [if_pos (by simpa using h), BitVec.or_assoc, BitVec.getLsbD_or]
    have e := bits_flag ⟨i, hi⟩
    simp only at e
    rw [← BitVec.getLsbD_eq_getElem hi] at e
    rw [e]
  refine ⟨⟨fun h => ?_, fun h => by subst h; rfl⟩, key⟩
  by_cases hx : x = 0#32
  · exact hx
  · have := key hx 26 (by omega)
    rw [show toInt32 (ofInt32 x) = ofInt32 x from rfl, h] at this
    simp [none] at this

example : (5#32 : BitVec 32) ≠ 0#32 ∧ toInt32 (ofInt32 5#32) = 0xC000005#32 := by decide

end Strpp.ErrNum
