import Verif.Proof.CharClass
/-! Properties C10-C13: character classes and case conversion (src/char_encoding.cpp, src/case_conversions.c). -/
namespace Strpp
open Spec

/-- C10. Any number of threads call `UCS4ToUpper` in any interleaving of their memo reads and memo writes, from program
start: every completed call returned the table's conversion of its own argument (and none faulted). -/
theorem C10_upper_memo_independent (evs : List MemoEvent) :
    ∀ e ∈ (evs.foldl (MemoState.step ucs4ToUpper) MemoState.init).log, e.2 = .ok (convert unicodeToUpper e.1) :=
  memo_run ucs4ToUpper (convert unicodeToUpper) (fun m => 0 ≤ m ∧ m < 406) (by omega)
    (fun m ch hm => toUpper_spec m hm.1 hm.2 ch) evs

/-- C10 for `UCS4ToLower`. -/
theorem C10_lower_memo_independent (evs : List MemoEvent) :
    ∀ e ∈ (evs.foldl (MemoState.step ucs4ToLower) MemoState.init).log, e.2 = .ok (convert unicodeToLower e.1) :=
  memo_run ucs4ToLower (convert unicodeToLower) (fun m => 0 ≤ m ∧ m < 396) (by omega)
    (fun m ch hm => toLower_spec m hm.1 hm.2 ch) evs

/-- C10 for `UCS4Digit`: two completed calls with the same argument, in any interleaving, agree. -/
theorem C10_digit_memo_independent (evs : List MemoEvent) :
    ∀ e ∈ (evs.foldl (MemoState.step ucs4Digit) MemoState.init).log,
      ∀ e' ∈ (evs.foldl (MemoState.step ucs4Digit) MemoState.init).log, e.1 = e'.1 → e.2 = e'.2 ∧ ∃ v, e.2 = .ok v := by
  intro e he e' he' h
  have run := memo_run ucs4Digit (fun ch => digitOf ch.toNat) (fun m => 0 ≤ m ∧ m < 20) (by omega)
    (fun m ch hm => digit_spec m hm.1 hm.2 ch) evs
  have h1 := run e he
  have h2 := run e' he'
  rw [h1, h2, h]
  exact ⟨rfl, _, rfl⟩

/-- the machine does something: two threads, an Arabic digit then a Latin one, overlapping -/
example : ([MemoEvent.call 1 0x661#32, .call 2 0x35#32, .finish 1, .call 1 0x35#32, .finish 2, .finish 1].foldl
    (MemoState.step ucs4Digit) MemoState.init).log = [(0x661#32, .ok 1), (0x35#32, .ok 5), (0x35#32, .ok 5)] := by
  decide +kernel

/-- C11. For every character and every memo value a call may find (any valid index), the result is what the published
table says, by linear lookup, and the value stored in the memo (if any) is again a valid index. -/
theorem C11_upper_is_table (memo : Int) (h0 : 0 ≤ memo) (h : memo < unicodeToUpper.length) (ch : UCS4) :
    ∃ w, ucs4ToUpper memo ch = .ok (convert unicodeToUpper ch, w) ∧
      ∀ m', w = some m' → 0 ≤ m' ∧ m' < unicodeToUpper.length := by
  rw [upper_length] at *; exact toUpper_spec memo h0 h ch

theorem C11_lower_is_table (memo : Int) (h0 : 0 ≤ memo) (h : memo < unicodeToLower.length) (ch : UCS4) :
    ∃ w, ucs4ToLower memo ch = .ok (convert unicodeToLower ch, w) ∧
      ∀ m', w = some m' → 0 ≤ m' ∧ m' < unicodeToLower.length := by
  rw [lower_length] at *; exact toLower_spec memo h0 h ch

theorem table_below_10000 : (∀ r ∈ unicodeToUpper, r.last < 0x10000) ∧ (∀ r ∈ unicodeToLower, r.last < 0x10000) := by
  decide +kernel

/-- C11. Above U+FFFF nothing is converted (also illegal-byte stand-ins and UCS4_NONE). -/
theorem C11_above_bmp (memo : Int) (h0 : 0 ≤ memo) (h : memo < unicodeToLower.length) (ch : UCS4)
    (hc : 0x10000 ≤ ch.toNat) :
    (∃ w, ucs4ToUpper memo ch = .ok (ch, w)) ∧ (∃ w, ucs4ToLower memo ch = .ok (ch, w)) := by
  have hu : convert unicodeToUpper ch = ch := convert_none _ _ (fun i r hr hin => by
    have := table_below_10000.1 r (List.mem_of_getElem? hr); omega)
  have hl : convert unicodeToLower ch = ch := convert_none _ _ (fun i r hr hin => by
    have := table_below_10000.2 r (List.mem_of_getElem? hr); omega)
  rw [lower_length] at h
  obtain ⟨w, e, -⟩ := toUpper_spec memo h0 (by omega) ch
  obtain ⟨w', e', -⟩ := toLower_spec memo h0 h ch
  exact ⟨⟨w, by rw [e, hu]⟩, ⟨w', by rw [e', hl]⟩⟩

/-- All conversion targets are outside of every range of the same table. -/
def targetsOutside (tbl : List CaseRange) : Bool :=
  tbl.all fun r =>
    0 ≤ (r.first : Int) + r.delta && (r.last : Int) + r.delta < 0x10000 &&
    (let a := ((r.first : Int) + r.delta).toNat
     let b := ((r.last : Int) + r.delta).toNat
     tbl.all fun r' => Nat.blt b r'.first || Nat.blt r'.last a)

theorem upper_targets : targetsOutside unicodeToUpper = true := by decide +kernel
theorem lower_targets : targetsOutside unicodeToLower = true := by decide +kernel

theorem addDelta_toNat (ch : UCS4) (d : Int) (h0 : 0 ≤ (ch.toNat : Int) + d) (h1 : (ch.toNat : Int) + d < 2 ^ 32) :
    ((ch + BitVec.ofInt 32 d).toNat : Int) = ch.toNat + d := by
  rw [BitVec.toNat_add, BitVec.toNat_ofInt]
  have := ch.isLt
  omega

theorem convert_idem (tbl : List CaseRange) (hs : rangesSorted tbl = true) (ht : targetsOutside tbl = true) (ch : UCS4) :
    convert tbl (convert tbl ch) = convert tbl ch := by
  by_cases h : ∃ (i : Nat) (r : CaseRange), tbl[i]? = some r ∧ r.first ≤ ch.toNat ∧ ch.toNat ≤ r.last
  · obtain ⟨i, r, hr, h1, h2⟩ := h
    rw [convert_of_mem tbl hs ch i r hr h1 h2]
    simp only [targetsOutside, List.all_eq_true, Bool.and_eq_true, decide_eq_true_eq, Bool.or_eq_true,
      Nat.blt_eq] at ht
    obtain ⟨⟨ha, hb⟩, hall⟩ := ht r (List.mem_of_getElem? hr)
    have hn := addDelta_toNat ch r.delta (by omega) (by omega)
    apply convert_none
    intro j r' hj hin
    have := hall r' (List.mem_of_getElem? hj)
    omega
  · have : convert tbl ch = ch := convert_none tbl ch (fun i r hr hin => h ⟨i, r, hr, hin⟩)
    rw [this, this]

/-- C12. Converting twice is the same as once, whatever the memos are at each call. -/
theorem C12_upper_idempotent (m m' : Int) (h0 : 0 ≤ m) (h : m < unicodeToUpper.length) (h0' : 0 ≤ m')
    (h' : m' < unicodeToUpper.length) (ch u : UCS4) (w : Option Int) (hu : ucs4ToUpper m ch = .ok (u, w)) :
    ∃ w', ucs4ToUpper m' u = .ok (u, w') := by
  obtain ⟨w1, e1, -⟩ := C11_upper_is_table m h0 h ch
  rw [e1] at hu
  simp only [Except.ok.injEq, Prod.mk.injEq] at hu
  obtain ⟨w2, e2, -⟩ := C11_upper_is_table m' h0' h' u
  refine ⟨w2, ?_⟩
  rw [e2, ← hu.1, convert_idem _ upper_sorted upper_targets]

theorem C12_lower_idempotent (m m' : Int) (h0 : 0 ≤ m) (h : m < unicodeToLower.length) (h0' : 0 ≤ m')
    (h' : m' < unicodeToLower.length) (ch u : UCS4) (w : Option Int) (hu : ucs4ToLower m ch = .ok (u, w)) :
    ∃ w', ucs4ToLower m' u = .ok (u, w') := by
  obtain ⟨w1, e1, -⟩ := C11_lower_is_table m h0 h ch
  rw [e1] at hu
  simp only [Except.ok.injEq, Prod.mk.injEq] at hu
  obtain ⟨w2, e2, -⟩ := C11_lower_is_table m' h0' h' u
  refine ⟨w2, ?_⟩
  rw [e2, ← hu.1, convert_idem _ lower_sorted lower_targets]

theorem ascii_tables : ∀ n : Fin 128,
    (convert unicodeToUpper (BitVec.ofNat 32 n)).toNat = (if 97 ≤ n.1 ∧ n.1 ≤ 122 then n.1 - 32 else n.1) ∧
    (convert unicodeToLower (BitVec.ofNat 32 n)).toNat = (if 65 ≤ n.1 ∧ n.1 ≤ 90 then n.1 + 32 else n.1) := by
  decide +kernel

/-- C12. ASCII characters convert as in ASCII. -/
theorem C12_ascii (m : Int) (h0 : 0 ≤ m) (h : m < unicodeToLower.length) (ch : UCS4) (hc : ch.toNat < 128) :
    (∃ u w, ucs4ToUpper m ch = .ok (u, w) ∧ u.toNat = if 97 ≤ ch.toNat ∧ ch.toNat ≤ 122 then ch.toNat - 32 else ch.toNat) ∧
    (∃ u w, ucs4ToLower m ch = .ok (u, w) ∧ u.toNat = if 65 ≤ ch.toNat ∧ ch.toNat ≤ 90 then ch.toNat + 32 else ch.toNat) := by
  rw [lower_length] at h
  obtain ⟨w, e, -⟩ := toUpper_spec m h0 (by omega) ch
  obtain ⟨w', e', -⟩ := toLower_spec m h0 h ch
  have ht := ascii_tables ⟨ch.toNat, hc⟩
  have hch : BitVec.ofNat 32 ch.toNat = ch := by simp
  simp only [hch] at ht
  exact ⟨⟨_, w, e, ht.1⟩, ⟨_, w', e', ht.2⟩⟩

/-- C12. `UCS4ToTitle` is the listed digraph when the character is listed, upper case otherwise. -/
theorem C12_title (m : Int) (h0 : 0 ≤ m) (h : m < unicodeToUpper.length) (ch : UCS4) :
    ucs4ToTitle m ch =
      if ch = 0x01C4#32 ∨ ch = 0x01C6#32 then .ok 0x01C5#32
      else if ch = 0x01C7#32 ∨ ch = 0x01C9#32 then .ok 0x01C8#32
      else if ch = 0x01CA#32 ∨ ch = 0x01CC#32 then .ok 0x01CB#32
      else if ch = 0x01F1#32 ∨ ch = 0x01F3#32 then .ok 0x01F2#32
      else .ok (convert unicodeToUpper ch) := by
  obtain ⟨w, e, -⟩ := C11_upper_is_table m h0 h ch
  by_cases hin : ch = 0x01C4#32 ∨ ch = 0x01C6#32 ∨ ch = 0x01C7#32 ∨ ch = 0x01C9#32 ∨ ch = 0x01CA#32 ∨ ch = 0x01CC#32
      ∨ ch = 0x01F1#32 ∨ ch = 0x01F3#32
  · rcases hin with rfl | rfl | rfl | rfl | rfl | rfl | rfl | rfl <;> rfl
  · simp only [not_or] at hin
    obtain ⟨a1, a2, a3, a4, a5, a6, a7, a8⟩ := hin
    rw [if_neg (by simp [*]), if_neg (by simp [*]), if_neg (by simp [*]), if_neg (by simp [*])]
    have hf : unicodeToTitle.find? (fun e => ch.toNat == e.1) = none := by
      rw [List.find?_eq_none]
      intro x hx hc
      simp only [beq_iff_eq] at hc
      simp only [unicodeToTitle, List.mem_cons, List.not_mem_nil, or_false] at hx
      rw [← BitVec.toNat_inj] at a1 a2 a3 a4 a5 a6 a7 a8
      simp only [BitVec.toNat_ofNat] at a1 a2 a3 a4 a5 a6 a7 a8
      rcases hx with rfl | rfl | rfl | rfl | rfl | rfl | rfl | rfl <;> simp at * <;> omega
    unfold ucs4ToTitle
    rw [hf, e]; rfl

/-- Besides: title case, unlike the others, is not idempotent. -/
theorem title_not_idempotent (m : Int) (h0 : 0 ≤ m) (h : m < unicodeToUpper.length) :
    ucs4ToTitle m 0x01C4#32 = .ok 0x01C5#32 ∧ ucs4ToTitle m 0x01C5#32 = .ok 0x01C4#32 := by
  rw [C12_title m h0 h, C12_title m h0 h]
  have hc : convert unicodeToUpper 0x01C5#32 = 0x01C4#32 := by decide +kernel
  rw [hc]
  decide

theorem nocase_sorted : unicodeNoCaseConvLetters.Pairwise (· < ·) := by decide +kernel

/-- C12. A character is alphabetic exactly when one of the conversions changes it or it is in the caseless list. -/
theorem C12_alphabetic (mu ml : Int) (h0 : 0 ≤ mu) (h : mu < unicodeToUpper.length) (h0' : 0 ≤ ml)
    (h' : ml < unicodeToLower.length) (ch : UCS4) :
    ucs4IsAlphabetic mu ml ch = .ok (decide (convert unicodeToUpper ch ≠ ch ∨ convert unicodeToLower ch ≠ ch ∨
      ch.toNat ∈ unicodeNoCaseConvLetters)) := by
  obtain ⟨w, e, -⟩ := C11_upper_is_table mu h0 h ch
  obtain ⟨w', e', -⟩ := C11_lower_is_table ml h0' h' ch
  unfold ucs4IsAlphabetic
  rw [e, e']
  simp only [res_bind_ok]
  by_cases hu : convert unicodeToUpper ch = ch
  · rw [if_neg (by simp [hu])]
    by_cases hl : convert unicodeToLower ch = ch
    · rw [if_neg (by simp [hl])]
      have hb := bsLoop_spec unicodeNoCaseConvLetters ch.toNat 0 ((unicodeNoCaseConvLetters.length : Int) - 1)
        (by omega) (by omega) (by omega) (by intro i h; omega)
        (by
          intro i hi k hk
          have : i < unicodeNoCaseConvLetters.length := by
            rcases Nat.lt_or_ge i unicodeNoCaseConvLetters.length with h | h
            · exact h
            · rw [List.getElem?_eq_none h] at hk; cases hk
          omega)
        (by
          intro i j a b hij ha hb
          have hj : j < unicodeNoCaseConvLetters.length := by
            rcases Nat.lt_or_ge j unicodeNoCaseConvLetters.length with h | h
            · exact h
            · rw [List.getElem?_eq_none h] at hb; cases hb
          have hp := List.pairwise_iff_getElem.mp nocase_sorted i j (by omega) hj hij
          rw [List.getElem?_eq_getElem (by omega)] at ha hb
          cases ha; cases hb; exact hp)
      rcases hb with ⟨i, hbl, hk⟩ | ⟨i, hbl, h1, h2, h3, h4⟩
      · rw [hbl]
        have := List.mem_of_getElem? hk
        simp [this]
      · rw [hbl]
        have : ¬ ch.toNat ∈ unicodeNoCaseConvLetters := by
          intro hm
          obtain ⟨j, hj⟩ := List.mem_iff_getElem?.mp hm
          rcases Int.lt_or_le i (j : Int) with h | h
          · exact Nat.lt_irrefl _ (h4 j h _ hj)
          · exact Nat.lt_irrefl _ (h3 j h _ hj)
        simp [hu, hl, this]
    · rw [if_pos (by simp [hl])]; simp [hl]
  · rw [if_pos (by simp [hu])]; simp [hu]

/-- C13 (partial). `UCS4Digit` returns -1 or 0..9, and returns `v` exactly for the digits of value `v` in the listed
blocks, whatever the memo. Missing: the documented special cases, which are never reached, see `C13_refuted_special`. -/
theorem C13_digit_partial (memo : Int) (h0 : 0 ≤ memo) (h : memo < ucs4DigitRanges.length) (ch : UCS4) :
    ∃ d w, ucs4Digit memo ch = .ok (d, w) ∧ (d = -1 ∨ (0 ≤ d ∧ d ≤ 9)) ∧
      (∀ v : Nat, d = v ↔ IsDigit ch.toNat v) := by
  obtain ⟨w, e, -⟩ := digit_spec memo h0 h ch
  refine ⟨_, w, e, ?_, digitOf_iff ch.toNat⟩
  rcases digitOf_range ch.toNat with h | ⟨v, h1, h2⟩
  · left; exact h
  · right; omega

example : IsDigit 0x0AE8 2 := ⟨(0x0AE7, 1), by decide, by decide, by decide, by decide⟩

/-- C13. The special cases for U+3007 and the Hangzhou numerals (src/char_encoding.cpp:125-129) are dead code: the loop
returns -1 first, because the last range (U+FF10) is beyond them. So these are reported as not digits. -/
theorem C13_refuted_special (memo : Int) (h0 : 0 ≤ memo) (h : memo < ucs4DigitRanges.length) :
    (∃ w, ucs4Digit memo 0x3007#32 = .ok (-1, w)) ∧ (∃ w, ucs4Digit memo 0x3021#32 = .ok (-1, w)) := by
  obtain ⟨w, e, -⟩ := digit_spec memo h0 h 0x3007#32
  obtain ⟨w', e', -⟩ := digit_spec memo h0 h 0x3021#32
  exact ⟨⟨w, by rw [e]; rfl⟩, ⟨w', by rw [e']; rfl⟩⟩

/-- C13. `UCS4HexDigit` adds exactly a-f and A-F. -/
theorem C13_hex_digit (memo : Int) (h0 : 0 ≤ memo) (h : memo < ucs4DigitRanges.length) (ch : UCS4) :
    ∃ d, ucs4HexDigit memo ch = .ok d ∧ (d = -1 ∨ (0 ≤ d ∧ d ≤ 15)) ∧
      ∀ v : Nat, d = v ↔ (IsDigit ch.toNat v ∨ (10 ≤ v ∧ v ≤ 15 ∧ (ch.toNat = 0x41 + (v - 10) ∨ ch.toNat = 0x61 + (v - 10)))) := by
  obtain ⟨d, w, e, hr, hv⟩ := C13_digit_partial memo h0 h ch
  unfold ucs4HexDigit
  rw [e]
  simp only [res_bind_ok]
  have noblk : ∀ n : Fin 200, 0x3A ≤ n.1 → ∀ b ∈ digitBlocks, n.1 < b.1 ∨ b.1 + 9 < n.1 := by decide +kernel
  have nodigit : ∀ v, IsDigit ch.toNat v → ¬ (0x3A ≤ ch.toNat ∧ ch.toNat < 200) := by
    rintro v ⟨b, hb, h1, h2, h3⟩ ⟨h4, h5⟩
    have := noblk ⟨ch.toNat, h5⟩ h4 b hb
    simp only at this
    omega
  by_cases hd : d ≥ 0
  · rw [if_pos hd]
    refine ⟨d, rfl, by omega, ?_⟩
    intro v
    rw [hv v]
    constructor
    · exact Or.inl
    · rintro (h | ⟨a, b, c⟩)
      · exact h
      · exfalso
        obtain ⟨v', hv'⟩ : ∃ v' : Nat, d = v' := ⟨d.toNat, by omega⟩
        exact nodigit v' ((hv v').mp hv') (by omega)
  · rw [if_neg hd]
    have hno : ∀ v, ¬ IsDigit ch.toNat v := fun v hx => by have := (hv v).mpr hx; omega
    by_cases hA : 0x41 ≤ ch.toNat ∧ ch.toNat ≤ 0x46
    · rw [if_pos (by simp [hA])]
      refine ⟨_, rfl, by omega, ?_⟩
      intro v
      constructor
      · intro h; right; omega
      · rintro (h | h)
        · exact absurd h (hno v)
        · omega
    · rw [if_neg (by simp; omega)]
      by_cases ha : 0x61 ≤ ch.toNat ∧ ch.toNat ≤ 0x66
      · rw [if_pos (by simp [ha])]
        refine ⟨_, rfl, by omega, ?_⟩
        intro v
        constructor
        · intro h; right; omega
        · rintro (h | h)
          · exact absurd h (hno v)
          · omega
      · rw [if_neg (by simp; omega)]
        refine ⟨_, rfl, by omega, ?_⟩
        intro v
        constructor
        · intro h; omega
        · rintro (h | h)
          · exact absurd h (hno v)
          · omega

/-- C13. The inline `ASCIIDigit` agrees with `UCS4Digit` on ASCII and is -1 elsewhere. -/
theorem C13_ascii_digit (ch : UCS4) (v : Nat) : asciiDigit ch = v ↔ (v ≤ 9 ∧ ch.toNat = 0x30 + v) := by
  unfold asciiDigit
  by_cases h : ch.toNat < 0x30 ∨ 0x39 < ch.toNat
  · rw [if_pos (by simpa using h)]; omega
  · rw [if_neg (by simpa using h)]; omega

/-- C13. `UCS4IsWhite` accepts exactly the listed white-space characters. -/
theorem C13_white (ch : UCS4) : ucs4IsWhite ch = true ↔ ch.toNat ∈ whites := by
  have e : ∀ n : Nat, n < 2 ^ 32 → (ch = BitVec.ofNat 32 n ↔ ch.toNat = n) := by
    intro n hn
    rw [← BitVec.toNat_inj, BitVec.toNat_ofNat, Nat.mod_eq_of_lt hn]
  simp only [ucs4IsWhite, whites, Bool.or_eq_true, beq_iff_eq, Bool.and_eq_true, decide_eq_true_eq,
    e 0x20 (by omega), e 0x09 (by omega), e 0x0A (by omega), e 0x0D (by omega), e 0xA0 (by omega), e 0x3000 (by omega),
    List.mem_cons, List.not_mem_nil, or_false]
  omega

example : ucs4IsWhite 0x2003#32 = true ∧ ucs4IsWhite 0x200C#32 = false := by decide

end Strpp
