import Verif.Proof.Utf16
/-! Properties C08-C09: UTF-16 (include/char_encoding.h). -/
namespace Strpp
open Spec

/-- C08. `UTF16Put` writes the standard's units (byte-swapped when asked). -/
theorem C08_utf16_units (ch : UCS4) (swap : Bool) (h : ch.toNat < 0x110000) :
    ∃ us, utf16Put ch swap = .ok us ∧
      us.map (fun u => if swap then swapBytes u.toNat else u.toNat) = utf16Units ch.toNat := by
  have hs : ∀ u : UTF16, (if swap then swapBytes (utf16Sw swap u).toNat else (utf16Sw swap u).toNat) = u.toNat := by
    intro u
    cases swap
    · simp [utf16Sw]
    · simp only [utf16Sw, if_true, ← swab_toNat, swab_swab]
  unfold utf16Put utf16Units
  by_cases h1 : ch.toNat ≤ 0xFFFF
  · rw [if_pos h1, if_pos (by omega)]
    refine ⟨_, rfl, ?_⟩
    simp only [List.map_cons, List.map_nil, hs, BitVec.truncate_eq_setWidth, BitVec.toNat_setWidth]
    rw [Nat.mod_eq_of_lt (by omega)]
  · rw [if_neg h1, if_neg (show ¬ ch.toNat < 0x10000 by omega)]
    have hu : ucs4IsUnicode ch = true := by unfold ucs4IsUnicode; simpa using h
    simp only [hu, assert, if_true, res_bind_ok]
    refine ⟨_, rfl, ?_⟩
    simp only [List.map_cons, List.map_nil, hs, high_toNat ch (by omega) h, low_toNat ch (by omega)]

/-- C08. Reading back what was written, whatever precedes and follows, returns the character and consumes exactly the
units written, whose number is `UTF16Len` of the character and of the first unit. -/
theorem C08_utf16_round_trip (pre rest : List UTF16) (ch : UCS4) (swap : Bool) (h : Scalar ch) :
    ∃ us, utf16Put ch swap = .ok us ∧
      utf16Get (pre ++ us ++ rest) pre.length swap = .ok (ch, pre.length + us.length) ∧
      utf16LenCh ch = .ok us.length ∧ utf16LenAt (pre ++ us ++ rest) pre.length swap = .ok us.length := by
  obtain ⟨h1, h2⟩ := h
  have hu : ucs4IsUnicode ch = true := by unfold ucs4IsUnicode; simpa using h1
  unfold utf16Put utf16LenCh
  by_cases hb : ch.toNat ≤ 0xFFFF
  · rw [if_pos hb]
    refine ⟨_, rfl, ?_, ?_, ?_⟩
    · have hr : rd (pre ++ [utf16Sw swap (ch.truncate 16)] ++ rest) pre.length = .ok (utf16Sw swap (ch.truncate 16)) := by
        simp
      unfold utf16Get
      rw [hr]
      simp only [res_bind_ok, sw_sw]
      have ht : (ch.truncate 16).toNat = ch.toNat := by simp; omega
      have hns : utf16IsSurrogate (ch.truncate 16) = false := by
        cases hX : utf16IsSurrogate (ch.truncate 16) with
        | false => rfl
        | true => rw [isSurrogate_iff, ht] at hX; omega
      rw [hns]
      simp only [Bool.not_false, if_true, Except.ok.injEq, Prod.mk.injEq, List.length_cons, List.length_nil]
      refine ⟨?_, trivial⟩
      apply BitVec.eq_of_toNat_eq
      simp; omega
    · simp only [hu, assert, if_true, res_bind_ok]
      rw [if_neg (by omega)]; rfl
    · have hr : rd (pre ++ [utf16Sw swap (ch.truncate 16)] ++ rest) pre.length = .ok (utf16Sw swap (ch.truncate 16)) := by
        simp
      unfold utf16LenAt
      rw [hr]
      simp only [res_bind_ok, sw_sw]
      rw [if_neg]
      · rfl
      · rw [is1st16_iff]
        have ht : (ch.truncate 16).toNat = ch.toNat := by simp; omega
        rw [ht]; omega
  · rw [if_neg hb]
    simp only [hu, assert, if_true, res_bind_ok]
    have hh := high_toNat ch (by omega) h1
    have hl := low_toNat ch (by omega)
    generalize ucs4HighSurrogate ch = H at *
    generalize ucs4LowSurrogate ch = L at *
    refine ⟨_, rfl, ?_, ?_, ?_⟩
    · have hr1 : rd (pre ++ [utf16Sw swap H, utf16Sw swap L] ++ rest) pre.length = .ok (utf16Sw swap H) := by simp
      have hr2 : rd (pre ++ [utf16Sw swap H, utf16Sw swap L] ++ rest) (pre.length + 1) = .ok (utf16Sw swap L) := by
        simp
      have s1 : utf16IsSurrogate H = true := by rw [isSurrogate_iff]; omega
      have s2 : utf16Is1st H = true := by rw [is1st16_iff]; omega
      have s3 : utf16Is2nd L = true := by rw [is2nd16_iff]; omega
      unfold utf16Get
      rw [hr1, hr2]
      simp only [res_bind_ok, sw_sw, s1, s2, s3, assert, if_true, Bool.not_true, Bool.false_eq_true, if_false,
        Except.ok.injEq, Prod.mk.injEq, List.length_cons, List.length_nil, and_true]
      apply BitVec.eq_of_toNat_eq
      rw [BitVec.toNat_add, BitVec.toNat_add, BitVec.toNat_shiftLeft, high_payload' H (by omega),
        low_payload' L (by omega), Nat.shiftLeft_eq]
      have b : (0x10000#32).toNat = 0x10000 := rfl
      rw [b]; omega
    · rw [if_pos (by omega)]; rfl
    · have hr1 : rd (pre ++ [utf16Sw swap H, utf16Sw swap L] ++ rest) pre.length = .ok (utf16Sw swap H) := by simp
      unfold utf16LenAt
      rw [hr1]
      have s2 : utf16Is1st H = true := by rw [is1st16_iff]; omega
      simp [s2]

example : Scalar 0x1F600#32 := by unfold Scalar; decide
example : utf16Put 0x1F600#32 = .ok [0xD83D#16, 0xDE00#16] := by decide

/-- C09 (partial). On any two units, `UTF16Get` either returns the character that a non-surrogate unit or a proper
surrogate pair denotes in the standard (consuming 1 or 2 units), or fails an assertion. Missing: it does not return the
documented replacement character, see `C09_refuted_lone_surrogate`. -/
theorem C09_utf16_get_partial (m : List UTF16) (p : Nat) (u1 u2 : UTF16) (h1 : m[p]? = some u1)
    (h2 : m[p + 1]? = some u2) :
    utf16Get m p =
      if ¬ HighSurrogate u1.toNat ∧ ¬ LowSurrogate u1.toNat then .ok (BitVec.ofNat 32 u1.toNat, p + 1)
      else if HighSurrogate u1.toNat ∧ LowSurrogate u2.toNat then
        .ok (BitVec.ofNat 32 (0x10000 + (u1.toNat - 0xD800) * 0x400 + (u2.toNat - 0xDC00)), p + 2)
      else .error .assertion := by
  have r1 : rd m p = .ok u1 := by simpa using h1
  have r2 : rd m (p + 1) = .ok u2 := by simpa using h2
  have s1 := isSurrogate_iff u1
  have s2 := is1st16_iff u1
  have s3 := is2nd16_iff u2
  have l1 := u1.isLt
  unfold utf16Get HighSurrogate LowSurrogate
  rw [r1, r2]
  have sw : ∀ x, utf16Sw false x = x := fun x => rfl
  simp only [res_bind_ok, sw]
  cases e1 : utf16IsSurrogate u1 with
  | false =>
    rw [e1] at s1
    simp only [Bool.false_eq_true, false_iff] at s1
    simp only [Bool.not_false, if_true]
    rw [if_pos (by omega)]
    simp only [Except.ok.injEq, Prod.mk.injEq, and_true]
    apply BitVec.eq_of_toNat_eq; simp
  | true =>
    rw [e1] at s1
    simp only [true_iff] at s1
    rw [if_neg (show ¬ (¬(0xD800 ≤ u1.toNat ∧ u1.toNat < 0xDC00) ∧ ¬(0xDC00 ≤ u1.toNat ∧ u1.toNat < 0xE000)) by omega)]
    simp only [Bool.not_true, Bool.false_eq_true, if_false]
    cases e2 : utf16Is1st u1 with
    | false =>
      rw [e2] at s2
      simp only [Bool.false_eq_true, false_iff] at s2
      simp only [assert, Bool.false_eq_true, if_false, res_bind_err]
      rw [if_neg (by omega)]
    | true =>
      rw [e2] at s2
      simp only [true_iff] at s2
      cases e3 : utf16Is2nd u2 with
      | false =>
        rw [e3] at s3
        simp only [Bool.false_eq_true, false_iff] at s3
        simp only [assert, Bool.false_eq_true, if_false, if_true, res_bind_ok, res_bind_err]
        rw [if_neg (by omega)]
      | true =>
        rw [e3] at s3
        simp only [true_iff] at s3
        simp only [assert, if_true, res_bind_ok]
        rw [if_pos ⟨s2, s3⟩]
        simp only [Except.ok.injEq, Prod.mk.injEq, and_true]
        apply BitVec.eq_of_toNat_eq
        rw [BitVec.toNat_add, BitVec.toNat_add, BitVec.toNat_shiftLeft, high_payload' u1 s2,
          low_payload' u2 s3, Nat.shiftLeft_eq, BitVec.toNat_ofNat, BitVec.toNat_ofNat]
        omega

/-- C09 at full strength is false: with assertions on, a lone surrogate aborts the program instead of yielding the
replacement character. -/
theorem C09_refuted_lone_surrogate : utf16Get [0xDC00#16, 0x41#16] 0 = .error .assertion := by decide

end Strpp
