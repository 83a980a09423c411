import Verif.Model.Utf16
import Verif.Spec.Utf16
import Verif.Proof.Utf8
namespace Strpp
open Spec

/-- Masking off the low `k` bits. -/
theorem and_himask_toNat {w : Nat} (x : BitVec w) (k : Nat) :
    (x &&& (BitVec.allOnes w <<< k)).toNat = x.toNat / 2 ^ k * 2 ^ k := by
  have h : (x &&& (BitVec.allOnes w <<< k)) = (x >>> k) <<< k := by
    ext i hi
    simp only [BitVec.getElem_and, BitVec.getElem_shiftLeft, BitVec.getElem_ushiftRight, BitVec.getElem_allOnes]
    by_cases h8 : i < k
    · simp [h8]
    · simp only [h8, decide_false, Bool.not_false, Bool.true_and]
      have : k + (i - k) = i := by omega
      simp only [this, BitVec.getLsbD_eq_getElem hi]
      simp [Bool.and_comm]
  rw [h]
  simp only [BitVec.toNat_shiftLeft, BitVec.toNat_ushiftRight, Nat.shiftRight_eq_div_pow, Nat.shiftLeft_eq]
  apply Nat.mod_eq_of_lt
  exact Nat.lt_of_le_of_lt (Nat.div_mul_le_self _ _) x.isLt

theorem isSurrogate_iff (c : UTF16) : utf16IsSurrogate c = true ↔ (0xD800 ≤ c.toNat ∧ c.toNat < 0xE000) := by
  unfold utf16IsSurrogate
  have e : (0xF800#16) = BitVec.allOnes 16 <<< 11 := by decide
  rw [beq_iff_eq, ← BitVec.toNat_inj, e, and_himask_toNat]
  have : (0xD800#16).toNat = 0xD800 := rfl
  omega

theorem is1st16_iff (c : UTF16) : utf16Is1st c = true ↔ (0xD800 ≤ c.toNat ∧ c.toNat < 0xDC00) := by
  unfold utf16Is1st
  have e : (0xFC00#16) = BitVec.allOnes 16 <<< 10 := by decide
  rw [beq_iff_eq, ← BitVec.toNat_inj, e, and_himask_toNat]
  have : (0xD800#16).toNat = 0xD800 := rfl
  omega

theorem is2nd16_iff (c : UTF16) : utf16Is2nd c = true ↔ (0xDC00 ≤ c.toNat ∧ c.toNat < 0xE000) := by
  unfold utf16Is2nd
  have e : (0xFC00#16) = BitVec.allOnes 16 <<< 10 := by decide
  rw [beq_iff_eq, ← BitVec.toNat_inj, e, and_himask_toNat]
  have : (0xDC00#16).toNat = 0xDC00 := rfl
  omega

theorem swab_toNat (x : UTF16) : (utf16Swab x).toNat = swapBytes x.toNat := by
  unfold utf16Swab swapBytes
  have e : (0xff00#16) = BitVec.allOnes 16 <<< 8 := by decide
  have e2 : (0x00ff#16).toNat = 2 ^ 8 - 1 := rfl
  rw [BitVec.toNat_or, BitVec.toNat_shiftLeft, BitVec.toNat_and, e2, Nat.and_two_pow_sub_one_eq_mod,
    BitVec.toNat_ushiftRight, e, and_himask_toNat, Nat.shiftLeft_eq, Nat.shiftRight_eq_div_pow]
  have := x.isLt
  rw [Nat.mod_eq_of_lt (by omega), Nat.mul_comm (x.toNat % 2 ^ 8), or_tag _ _ 8 (by omega)]
  omega

theorem swab_swab (x : UTF16) : utf16Swab (utf16Swab x) = x := by
  apply BitVec.eq_of_toNat_eq
  rw [swab_toNat, swab_toNat]
  unfold swapBytes
  have := x.isLt
  omega

@[simp] theorem sw_sw (s : Bool) (x : UTF16) : utf16Sw s (utf16Sw s x) = x := by
  cases s <;> simp [utf16Sw, swab_swab]

theorem high_payload : ∀ v : Fin 1024, ((BitVec.ofNat 32 (0xD800 + v)) &&& ~~~0xD800#32).toNat = v := by decide +kernel
theorem low_payload : ∀ v : Fin 1024, ((BitVec.ofNat 32 (0xDC00 + v)) &&& ~~~0xDC00#32).toNat = v := by decide +kernel

theorem high_payload' (c : UTF16) (h : 0xD800 ≤ c.toNat ∧ c.toNat < 0xDC00) :
    (c.zeroExtend 32 &&& ~~~0xD800#32).toNat = c.toNat - 0xD800 := by
  have := high_payload ⟨c.toNat - 0xD800, by omega⟩
  have e : c.zeroExtend 32 = BitVec.ofNat 32 (0xD800 + (c.toNat - 0xD800)) := by
    apply BitVec.eq_of_toNat_eq; simp; omega
  rw [e]; exact this

theorem low_payload' (c : UTF16) (h : 0xDC00 ≤ c.toNat ∧ c.toNat < 0xE000) :
    (c.zeroExtend 32 &&& ~~~0xDC00#32).toNat = c.toNat - 0xDC00 := by
  have := low_payload ⟨c.toNat - 0xDC00, by omega⟩
  have e : c.zeroExtend 32 = BitVec.ofNat 32 (0xDC00 + (c.toNat - 0xDC00)) := by
    apply BitVec.eq_of_toNat_eq; simp; omega
  rw [e]; exact this

theorem high_toNat (ch : UCS4) (h1 : 0x10000 ≤ ch.toNat) (h2 : ch.toNat < 0x110000) :
    (ucs4HighSurrogate ch).toNat = 0xD800 + (ch.toNat - 0x10000) / 0x400 := by
  unfold ucs4HighSurrogate
  simp only [BitVec.toNat_add, BitVec.truncate_eq_setWidth, BitVec.toNat_setWidth, BitVec.toNat_ushiftRight,
    Nat.shiftRight_eq_div_pow, BitVec.toNat_sub]
  have a : (0xD800#16).toNat = 0xD800 := rfl
  have b : (0x10000#32).toNat = 0x10000 := rfl
  rw [a, b]; omega

theorem low_toNat (ch : UCS4) (h1 : 0x10000 ≤ ch.toNat) :
    (ucs4LowSurrogate ch).toNat = 0xDC00 + (ch.toNat - 0x10000) % 0x400 := by
  unfold ucs4LowSurrogate
  have e2 : (0x3FF#32).toNat = 2 ^ 10 - 1 := rfl
  simp only [BitVec.toNat_add, BitVec.truncate_eq_setWidth, BitVec.toNat_setWidth, BitVec.toNat_and]
  rw [e2, Nat.and_two_pow_sub_one_eq_mod]
  have a : (0xDC00#16).toNat = 0xDC00 := rfl
  rw [a]; omega

end Strpp
