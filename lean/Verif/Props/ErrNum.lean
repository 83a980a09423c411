import Verif.Model.ErrNum
/-! Property C16: error numbers (include/error.h). -/
namespace Strpp.ErrNum

theorem bits_ffff : ∀ i : Fin 32, (0xFFFF#32)[i.1] = decide (i.1 < 16) := by decide
theorem bits_3fff : ∀ i : Fin 32, (0x3FFF#32)[i.1] = decide (i.1 < 14) := by decide
theorem bits_flag : ∀ i : Fin 32, (ERR_FLAG ||| ERR_CUST)[i.1] = decide (i.1 = 26 ∨ i.1 = 27) := by decide
theorem bits_3000 : ∀ i : Fin 32, (0x3000#32)[i.1] = decide (i.1 = 12 ∨ i.1 = 13) := by decide

/-- bit `i` of a packed error number -/
theorem mk_bit (s m : BitVec 32) (i : Nat) (hi : i < 32) :
    (mk s m)[i] = (decide (i = 26 ∨ i = 27) || (decide (14 ≤ i ∧ i < 30) && s.getLsbD (i - 14)) ||
      (decide (i < 14) && m[i])) := by
  have e1 := bits_3fff ⟨i, hi⟩
  have e2 := bits_flag ⟨i, hi⟩
  simp only at e1 e2
  unfold mk
  rw [BitVec.getElem_or, BitVec.getElem_or, e2, BitVec.getElem_and, e1, BitVec.getElem_shiftLeft]
  by_cases h14 : i < 14
  · have : ¬ 14 ≤ i := by omega
    simp [h14, this]
  · have h14' : 14 ≤ i := by omega
    have e3 := bits_ffff ⟨i - 14, by omega⟩
    simp only at e3
    rw [← BitVec.getLsbD_eq_getElem (by omega : i - 14 < 32)] at e3
    simp only [BitVec.getElem_and, ← BitVec.getLsbD_eq_getElem (by omega : i - 14 < 32), h14, h14', e3, decide_false,
      Bool.not_false, Bool.true_and, true_and, Bool.and_false, Bool.or_false, Bool.false_and]
    by_cases h30 : i < 30
    · have : i - 14 < 16 := by omega
      simp [e3, this, h30]
    · have : ¬ i - 14 < 16 := by omega
      simp [e3, this, h30]

/-- C16. The message number always comes back (its low 14 bits). -/
theorem C16_msg (s m : BitVec 32) : msg (mk s m) = m &&& 0x3FFF#32 := by
  ext i hi
  have e1 := bits_3fff ⟨i, hi⟩
  simp only at e1
  unfold msg
  rw [BitVec.getElem_and, BitVec.getElem_and, e1, mk_bit s m i hi]
  by_cases h : i < 14
  · have : ¬ 14 ≤ i := by omega
    have h2 : ¬ (i = 26 ∨ i = 27) := by omega
    simp [h, this, h2]
  · simp [h]

/-- C16 (partial). The set number comes back with bits 12 and 13 forced on: exactly `set` (16 bits) when `set` has
both of them. Missing: every other set number, see `C16_refuted`. -/
theorem C16_set_partial (s m : BitVec 32) : set (mk s m) = (s &&& 0xFFFF#32) ||| 0x3000#32 := by
  have hmsb : (mk s m).msb = false := by
    rw [BitVec.msb_eq_getLsbD_last, BitVec.getLsbD_eq_getElem (by decide), mk_bit s m 31 (by decide)]
    simp
  ext i hi
  have e1 := bits_ffff ⟨i, hi⟩
  have e2 := bits_3000 ⟨i, hi⟩
  simp only at e1 e2
  unfold set
  rw [BitVec.getElem_and, BitVec.getElem_or, BitVec.getElem_and, e1, e2, BitVec.getElem_sshiftRight, hmsb]
  by_cases h : i < 16
  · have h1 : 14 + i < 32 := by omega
    rw [dif_pos h1, mk_bit s m _ h1]
    have a1 : (14 + i = 26 ∨ 14 + i = 27) ↔ (i = 12 ∨ i = 13) := by omega
    have a2 : 14 + i < 30 := by omega
    have a3 : 14 + i - 14 = i := by omega
    have a4 : ¬ 14 + i < 14 := by omega
    simp only [a1, a2, a3, h, BitVec.getLsbD_eq_getElem hi, Nat.le_add_right, and_self, decide_true, Bool.true_and,
      a4, decide_false, Bool.false_and, Bool.or_false, Bool.and_true]
    exact Bool.or_comm _ _
  · have h2 : ¬ (i = 12 ∨ i = 13) := by omega
    simp [h, h2]

/-- C16. Within the set numbers that do come back, distinct pairs have distinct error numbers. -/
theorem C16_injective_partial (s m s' m' : BitVec 32) (hs : (s &&& 0xFFFF#32) ||| 0x3000#32 = s)
    (hs' : (s' &&& 0xFFFF#32) ||| 0x3000#32 = s') (hm : m &&& 0x3FFF#32 = m) (hm' : m' &&& 0x3FFF#32 = m')
    (h : mk s m = mk s' m') : s = s' ∧ m = m' := by
  have h1 := congrArg set h
  have h2 := congrArg msg h
  rw [C16_set_partial, C16_set_partial, hs, hs'] at h1
  rw [C16_msg, C16_msg, hm, hm'] at h2
  exact ⟨h1, h2⟩

example : (0x3001#32 &&& 0xFFFF#32) ||| 0x3000#32 = 0x3001#32 := by decide

theorem mk_ne_zero (s m : BitVec 32) : mk s m ≠ 0#32 := by
  intro h
  have : (mk s m)[27] = false := by rw [h]; rfl
  rw [mk_bit s m 27 (by decide)] at this
  simp at this

/-- C16. A constructed error is never the "no error" value; a zero int stays "no error"; and going through `int32_t`
and back preserves every constructed error number. -/
theorem C16_int_round_trip (s m : BitVec 32) :
    mk s m ≠ none ∧ ofInt32 0#32 = none ∧ ofInt32 (toInt32 (mk s m)) = mk s m := by
  refine ⟨mk_ne_zero s m, rfl, ?_⟩
  unfold ofInt32 toInt32
  have : (mk s m != 0#32) = true := by rw [bne_iff_ne]; exact mk_ne_zero s m
  rw [if_pos this]
  ext i hi
  have e2 := bits_flag ⟨i, hi⟩
  simp only at e2
  rw [BitVec.or_assoc, BitVec.getElem_or, e2, mk_bit s m i hi]
  by_cases h : i = 26 ∨ i = 27 <;> simp [h]

/-- C16. Re-packing what an error number unpacks to gives the same error number. -/
theorem C16_repack (s m : BitVec 32) : mk (set (mk s m)) (msg (mk s m)) = mk s m := by
  rw [C16_set_partial, C16_msg]
  ext i hi
  rw [mk_bit _ _ i hi, mk_bit _ _ i hi]
  by_cases h : i < 14
  · have e1 := bits_3fff ⟨i, hi⟩
    simp only at e1
    have h2 : ¬ 14 ≤ i := by omega
    simp [h, h2, e1]
  · by_cases h30 : 14 ≤ i ∧ i < 30
    · have e3 := bits_ffff ⟨i - 14, by omega⟩
      have e4 := bits_3000 ⟨i - 14, by omega⟩
      simp only at e3 e4
      rw [← BitVec.getLsbD_eq_getElem (by omega : i - 14 < 32)] at e3 e4
      have a : i - 14 < 16 := by omega
      have b : (i - 14 = 12 ∨ i - 14 = 13) ↔ (i = 26 ∨ i = 27) := by omega
      rw [BitVec.getLsbD_or, BitVec.getLsbD_and, e3, e4]
      simp only [a, b, h30, h, and_self, decide_true, Bool.true_and, Bool.and_true, decide_false, Bool.false_and,
        Bool.or_false]
      cases decide (i = 26 ∨ i = 27) <;> simp
    · simp only [h, h30, decide_false, Bool.false_and]

/-- C16 at full strength is false: set numbers 0 and 0x1000 collide and do not come back, and the number is not
negative although include/error.h:41 says the sign bit indicates an error. -/
theorem C16_refuted : mk 0#32 1#32 = mk 0x1000#32 1#32 ∧ set (mk 0#32 1#32) = 0x3000#32 ∧
    (mk 0#32 1#32).toInt = 201326593 := by decide

/-- no error number constructed from a set and a message is negative -/
theorem C16_never_negative (s m : BitVec 32) : 0 ≤ (mk s m).toInt := by
  have hmsb : (mk s m).msb = false := by
    rw [BitVec.msb_eq_getLsbD_last, BitVec.getLsbD_eq_getElem (by decide), mk_bit s m 31 (by decide)]
    simp
  rw [BitVec.toInt_eq_msb_cond, hmsb]
  simp

end Strpp.ErrNum
