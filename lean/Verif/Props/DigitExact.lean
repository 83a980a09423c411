import Verif.Props.CharClass
/-! Property C89: what `UCS4Digit`, `UCS4HexDigit` and `ASCIIDigit` return, for every 32 bit code, from any number of threads. -/
namespace Strpp
open Spec

/-- C89. Any number of threads call `UCS4Digit`, from program start, in any interleaving of their reads and writes of the memo:
every completed call returned the value of its argument in the listed blocks of digits, and -1 just when it is in none of them. -/
theorem C89_any_threads (evs : List MemoEvent) :
    ∀ e ∈ (evs.foldl (MemoState.step ucs4Digit) MemoState.init).log,
      ∃ d : Int, e.2 = .ok d ∧ (∀ v : Nat, d = v ↔ IsDigit e.1.toNat v) ∧ (d = -1 ↔ ∀ v, ¬ IsDigit e.1.toNat v) := by
  intro e he
  have h := memo_run ucs4Digit (fun ch => digitOf ch.toNat) (fun m => 0 ≤ m ∧ m < 20) (by omega)
    (fun m ch hm => digit_spec m hm.1 hm.2 ch) evs e he
  refine ⟨_, h, digitOf_iff _, ?_⟩
  constructor
  · intro h v hv
    have := (digitOf_iff _ v).mpr hv
    omega
  · intro hno
    rcases digitOf_range e.1.toNat with h | ⟨v, -, h⟩
    · exact h
    · exact absurd ((digitOf_iff _ v).mp h) (hno v)

/-- three calls overlap: an Arabic digit, a Gujarati one (the block there has no zero), and a letter -/
example : ([MemoEvent.call 1 0x663#32, .call 2 0xAE7#32, .finish 2, .call 2 0x41#32, .finish 1, .finish 2].foldl
    (MemoState.step ucs4Digit) MemoState.init).log = [(0xAE7#32, .ok 1), (0x663#32, .ok 3), (0x41#32, .ok (-1))] := by
  decide +kernel

/-- C89. The value does not depend on the block: codes that are digits of value `v` all give `v`, and a digit has one value. -/
theorem C89_one_value (ch v w : Nat) (h : IsDigit ch v) (h' : IsDigit ch w) : v = w := by
  have a := (digitOf_iff ch v).mpr h
  have b := (digitOf_iff ch w).mpr h'
  omega

example : IsDigit 0xFF15 5 := ⟨(0xFF10, 0), by decide, by decide, by decide, by decide⟩

/-- C89. No digits: the ideographic zero, the Hangzhou numerals, everything after U+FF19 (so all of the other planes, the
replacements of illegal bytes and UCS4_NONE), the Gujarati and Ethiopic blocks' places of zero. -/
theorem C89_not_digits (memo : Int) (h0 : 0 ≤ memo) (h : memo < ucs4DigitRanges.length) (ch : UCS4)
    (hc : ch.toNat = 0x3007 ∨ (0x3021 ≤ ch.toNat ∧ ch.toNat ≤ 0x3029) ∨ 0xFF19 < ch.toNat ∨ ch.toNat = 0xAE6 ∨ ch.toNat = 0x1368) :
    ∃ w, ucs4Digit memo ch = .ok (-1, w) := by
  obtain ⟨w, e, -⟩ := digit_spec memo h0 h ch
  refine ⟨w, ?_⟩
  rw [e]
  rcases digitOf_range ch.toNat with h | ⟨v, -, h⟩
  · rw [h]
  · exfalso
    obtain ⟨b, hb, h1, h2, h3⟩ := (digitOf_iff _ v).mp h
    have hall : ∀ b ∈ digitBlocks, b.2 ≤ 1 ∧ b.1 + 9 - b.2 ≤ 0xFF19 ∧ (b.1 + 9 - b.2 < 0x3007 ∨ 0x3029 < b.1) ∧
        (b.1 + 9 - b.2 < 0xAE6 ∨ 0xAE6 < b.1) ∧ (b.1 + 9 - b.2 < 0x1368 ∨ 0x1368 < b.1) := by decide +kernel
    have := hall b hb
    omega

example : (0x3021#32).toNat = 0x3007 ∨ (0x3021 ≤ (0x3021#32).toNat ∧ (0x3021#32).toNat ≤ 0x3029) ∨ 0xFF19 < (0x3021#32).toNat ∨
    (0x3021#32).toNat = 0xAE6 ∨ (0x3021#32).toNat = 0x1368 := by decide

/-- C89. `UCS4HexDigit`: a digit's value, else that of a letter a-f or A-F, else -1. -/
theorem C89_hex (memo : Int) (h0 : 0 ≤ memo) (h : memo < ucs4DigitRanges.length) (ch : UCS4) :
    ∃ d, ucs4HexDigit memo ch = .ok d ∧
      (∀ v : Nat, d = v ↔ (IsDigit ch.toNat v ∨ (10 ≤ v ∧ v ≤ 15 ∧ (ch.toNat = 0x41 + (v - 10) ∨ ch.toNat = 0x61 + (v - 10))))) ∧
      (d = -1 ↔ ∀ v, ¬ IsDigit ch.toNat v ∧ ¬ (10 ≤ v ∧ v ≤ 15 ∧ (ch.toNat = 0x41 + (v - 10) ∨ ch.toNat = 0x61 + (v - 10)))) := by
  obtain ⟨d, e, hr, hv⟩ := C13_hex_digit memo h0 h ch
  refine ⟨d, e, hv, fun hd v => ?_, fun hno => ?_⟩
  · exact not_or.mp (fun hx => by have := (hv v).mpr hx; omega)
  · rcases hr with hr | hr
    · exact hr
    · have := (hv d.toNat).mp (by omega)
      exact absurd this (not_or.mpr (hno d.toNat))

/-- C89. `ASCIIDigit` is `UCS4Digit` below 128 and -1 from there on. -/
theorem C89_ascii (memo : Int) (h0 : 0 ≤ memo) (h : memo < ucs4DigitRanges.length) (ch : UCS4) :
    (ch.toNat < 128 → ∃ w, ucs4Digit memo ch = .ok (asciiDigit ch, w)) ∧ (128 ≤ ch.toNat → asciiDigit ch = -1) := by
  constructor
  · intro hc
    obtain ⟨w, e, -⟩ := digit_spec memo h0 h ch
    refine ⟨w, ?_⟩
    rw [e]
    have hb : ∀ n : Fin 128, digitOf n.1 = if n.1 < 0x30 || n.1 > 0x39 then -1 else (n.1 : Int) - 0x30 := by decide +kernel
    rw [hb ⟨ch.toNat, hc⟩]
    rfl
  · intro hc
    unfold asciiDigit
    rw [if_pos (by simp; omega)]

example : asciiDigit 0x37#32 = 7 ∧ asciiDigit 0x667#32 = -1 := by decide

end Strpp
