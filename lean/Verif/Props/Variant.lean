import Verif.Proof.Variant
import Verif.Props.StrInt
/-!
C33, C34: `Variant`. Vocabulary: Verif/Spec/Variant.lean (`number`, `denote`), Verif/Spec/JsonText.lean (`jsonText` decodes a JSON
text), Verif/Spec/StrInt.lean (numerals). `junk` is whatever bits the pointer in the union had; `memo` is the state of the
digit lookup (C12).
-/
namespace Strpp.Var
open Spec SV

/-! ### C33: numbers -/

theorem setInt_same (w : BitVec 64) : setInt w (loInt w) = w := by
  unfold setInt loInt
  rw [BitVec.ofInt_toInt]
  apply BitVec.eq_of_getLsbD_eq
  intro i hi
  simp only [BitVec.getLsbD_setWidth, BitVec.getLsbD_append, BitVec.getLsbD_ushiftRight]
  by_cases h : i < 32
  · simp [h, hi]
  · simp only [h, decide_false, cond_false]
    have : 32 + (i - 32) = i := by omega
    simp [this, hi]

theorem loInt_setInt (w : BitVec 64) (x : Int) (h1 : -2 ^ 31 ≤ x) (h2 : x < 2 ^ 31) : loInt (setInt w x) = x := by
  unfold loInt setInt
  have e : ((w >>> 32 ++ BitVec.ofInt 32 x).setWidth 64).setWidth 32 = BitVec.ofInt 32 x := by
    apply BitVec.eq_of_getLsbD_eq
    intro i hi
    simp only [BitVec.getLsbD_setWidth, BitVec.getLsbD_append]
    simp [hi, show i < 64 by omega]
  rw [e, BitVec.toInt_ofInt]
  unfold Int.bmod
  simp only [Nat.reducePow]
  split <;> omega

theorem toInt_ofInt64 (x : Int) (h1 : -2 ^ 63 ≤ x) (h2 : x < 2 ^ 63) : (BitVec.ofInt 64 x).toInt = x := by
  rw [BitVec.toInt_ofInt]
  unfold Int.bmod
  simp only [Nat.reducePow]
  split <;> omega

theorem loInt_range32 (w : BitVec 64) : -2 ^ 31 ≤ loInt w ∧ loInt w < 2 ^ 31 := by
  unfold loInt
  have h1 := BitVec.le_toInt (w.setWidth 32)
  have h2 := BitVec.toInt_lt (x := w.setWidth 32)
  constructor <;> omega

theorem loInt_ofInt64 (x : Int) (h1 : -2 ^ 31 ≤ x) (h2 : x < 2 ^ 31) : loInt (BitVec.ofInt 64 x) = x := by
  unfold loInt
  have e : (BitVec.ofInt 64 x).setWidth 32 = BitVec.ofInt 32 x := by
    apply BitVec.eq_of_toNat_eq
    rw [BitVec.toNat_setWidth, BitVec.toNat_ofInt, BitVec.toNat_ofInt]
    omega
  rw [e, BitVec.toInt_ofInt]
  unfold Int.bmod
  simp only [Nat.reducePow]
  split <;> omega

theorem loInt_of_fits (w : BitVec 64) (h1 : -2 ^ 31 ≤ w.toInt) (h2 : w.toInt < 2 ^ 31) : loInt w = w.toInt := by
  have := loInt_ofInt64 w.toInt h1 h2
  rwa [BitVec.ofInt_toInt] at this

/-- C33. Constructors: the number given is the number held, and the type is the constructor's. -/
theorem C33_construct (x : Int) : (-2 ^ 31 ≤ x → x < 2 ^ 31 → number (ofInt x) = some x ∧ (ofInt x).type = .integer) ∧
    (-2 ^ 63 ≤ x → x < 2 ^ 63 → number (ofLong x) = some x ∧ (ofLong x).type = .long ∧ number (ofLongLong x) = some x ∧ (ofLongLong x).type = .longLong) := by
  refine ⟨fun h1 h2 => ⟨?_, rfl⟩, fun h1 h2 => ⟨?_, rfl, ?_, rfl⟩⟩
  · exact congrArg some (loInt_setInt 0#64 x h1 h2)
  · exact congrArg some (toInt_ofInt64 x h1 h2)
  · exact congrArg some (toInt_ofInt64 x h1 h2)

/-- C33. `as_int()`, on a Variant that holds the number `x`: `x` if it fits an `int`, else an assertion failure. The Variant still
holds `x`, with the type it had. -/
theorem C33_as_int (memo : Int) (junk : BitVec 64) (v : Variant) (x : Int) (hx : number v = some x) :
    (-2 ^ 31 ≤ x → x < 2 ^ 31 → ∃ v', asInt memo junk v = .ok (v', x) ∧ number v' = some x ∧ v'.type = v.type) ∧
    (x < -2 ^ 31 ∨ 2 ^ 31 ≤ x → asInt memo junk v = .error .assertion) := by
  cases v with
  | none | string _ | strArray _ | varArray _ | strVarMap _ => simp [number] at hx
  | integer w =>
    simp only [number, Option.some.injEq] at hx
    subst hx
    have := loInt_range32 w
    exact ⟨fun _ _ => ⟨.integer w, rfl, rfl, rfl⟩, fun h => by omega⟩
  | long w =>
    simp only [number, Option.some.injEq] at hx
    subst hx
    have hr := loInt_range32 w
    refine ⟨fun h1 h2 => ⟨.long w, ?_, rfl, rfl⟩, fun h => ?_⟩
    · have e := loInt_of_fits w h1 h2
      unfold asInt coerce coerceInteger
      simp only
      rw [if_neg (by rw [e]; simp), setInt_same, res_bind_ok]
      simp only [word, res_bind_ok, e]
    · unfold asInt coerce coerceInteger
      simp only
      rw [if_pos (by omega)]
      rfl
  | longLong w =>
    simp only [number, Option.some.injEq] at hx
    subst hx
    have hr := loInt_range32 w
    refine ⟨fun h1 h2 => ⟨.longLong w, ?_, rfl, rfl⟩, fun h => ?_⟩
    · have e := loInt_of_fits w h1 h2
      unfold asInt coerce coerceInteger
      simp only
      rw [if_neg (by rw [e]; simp), setInt_same, res_bind_ok]
      simp only [word, res_bind_ok, e]
    · unfold asInt coerce coerceInteger
      simp only
      rw [if_pos (by omega)]
      rfl

/-- C33. `as_long()` and `as_longlong()`, on a Variant that holds the number `x`: `x`. The Variant still holds `x`, with the type
it had. -/
theorem C33_as_long (memo : Int) (junk : BitVec 64) (v : Variant) (x : Int) (hx : number v = some x) :
    (∃ v', asLong memo junk v = .ok (v', x) ∧ number v' = some x ∧ v'.type = v.type) ∧
    (∃ v', asLongLong memo junk v = .ok (v', x) ∧ number v' = some x ∧ v'.type = v.type) := by
  cases v with
  | none | string _ | strArray _ | varArray _ | strVarMap _ => simp [number] at hx
  | integer w =>
    simp only [number, Option.some.injEq] at hx
    subst hx
    have h := loInt_range32 w
    have e1 := toInt_ofInt64 (loInt w) (by omega) (by omega)
    have e2 := loInt_ofInt64 (loInt w) h.1 h.2
    refine ⟨⟨.integer (BitVec.ofInt 64 (loInt w)), ?_, congrArg some e2, rfl⟩, ⟨.integer (BitVec.ofInt 64 (loInt w)), ?_, congrArg some e2, rfl⟩⟩
    · simp only [asLong, coerce, coerceLong, word, res_bind_ok, e1]
    · simp only [asLongLong, coerce, coerceLongLong, word, res_bind_ok, e1]
  | long w =>
    simp only [number, Option.some.injEq] at hx
    subst hx
    exact ⟨⟨.long w, rfl, rfl, rfl⟩, ⟨.long w, rfl, rfl, rfl⟩⟩
  | longLong w =>
    simp only [number, Option.some.injEq] at hx
    subst hx
    exact ⟨⟨.longLong w, rfl, rfl, rfl⟩, ⟨.longLong w, rfl, rfl, rfl⟩⟩

/-- C33 fails: after `as_int()` a Long is still a Long. (Converting a number never changes `type()`: C33_as_int, C33_as_long.) -/
theorem C33_refuted_type : ∃ v', asInt 0 0#64 (ofLong 5) = .ok (v', 5) ∧ v'.type = .long ∧ v'.type ≠ .integer := by
  obtain ⟨v', e, -, ht⟩ := (C33_as_int 0 0#64 (ofLong 5) 5 (((C33_construct 5).2 (by decide) (by decide)).1)).1 (by decide) (by decide)
  exact ⟨v', e, ht, by rw [ht]; decide⟩

/-- the number a Variant holds is a 64-bit one -/
theorem number_range {v : Variant} {x : Int} (hx : number v = some x) : -2 ^ 63 ≤ x ∧ x < 2 ^ 63 := by
  cases v with
  | none | string _ | strArray _ | varArray _ | strVarMap _ => simp [number] at hx
  | integer w => simp only [number, Option.some.injEq] at hx; subst hx; exact loInt_range w
  | long w => simp only [number, Option.some.injEq] at hx; subst hx; exact toInt_range w
  | longLong w => simp only [number, Option.some.injEq] at hx; subst hx; exact toInt_range w

theorem number_string {v : Variant} {x : Int} (hx : number v = some x) (memo : Int) (junk : BitVec 64) :
    asStrval memo junk v = .ok (.string (snprintf 24 x), snprintf 24 x) := by
  cases v with
  | none | string _ | strArray _ | varArray _ | strVarMap _ => simp [number] at hx
  | integer w => simp only [number, Option.some.injEq] at hx; subst hx; rfl
  | long w => simp only [number, Option.some.injEq] at hx; subst hx; rfl
  | longLong w => simp only [number, Option.some.injEq] at hx; subst hx; rfl

theorem reads_text {j : List UCS4} {v : JVal} (h : Reads j v) : jsonText (points j) = some v := by
  have := h.2 (2 * (points j).length + 1) [] [] (by intro c hc; simp at hc) (by intro c r e; cases e) (by simp)
  unfold jsonText
  rw [List.append_nil, List.nil_append] at this
  rw [this]
  rfl

/-- C33. `as_strval()` of a number: the Variant becomes a String, its decimal numeral (no digits are lost). -/
theorem C33_number_to_string (memo : Int) (junk : BitVec 64) (v : Variant) (x : Int) (hx : number v = some x) :
    ∃ t, asStrval memo junk v = .ok (.string t, t) ∧ jsonText (points t) = some (.num x) :=
  ⟨_, number_string hx memo junk, reads_text (reads_number 24 (by decide) x (number_range hx))⟩

/-! ### C33: strings -/

/-- a string the library handles: no reserved characters, below 1 GiB -/
def Fits (t : List UCS4) : Prop := (∀ c ∈ t, ¬ Reserved c) ∧ (encodeAll t).length < 2 ^ 30

theorem ofText_den {t : List UCS4} (h : Fits t) : Den (ofText t) [] t [] := by
  have hl : (t.flatMap utf8Put).length < 2 ^ 30 := h.2
  refine ⟨⟨⟨by simp [ofText], fun _ => by simp [ofText], by simp [ofText], by simp only [ofText]; omega⟩, ?_, by simpa using h.1, ?_, Or.inl rfl⟩,
    rfl, rfl, Or.inl ⟨by simp [ofText], by simp [ofText]⟩, Or.inl (by simp [ofText])⟩
  · simp only [ofText, Arr.Body.elems, List.nil_append, List.append_nil]
    rw [List.take_of_length_le (by simp)]
    rfl
  · simp only [ofText]; omega

/-- The text is a numeral (white space, sign, radix prefix, digits, white space) for `x`, followed by `rest`. -/
def Numeral (t : List UCS4) (x : Int) (rest : List UCS4) : Prop :=
  ∃ neg r ds w vs, Start 0 t neg r (ds ++ (w ++ rest)) ∧ ds ≠ [] ∧ Digits r ds vs ∧ NoDigit r (w ++ rest) ∧ (∀ y ∈ w, White y) ∧
    NoWhite rest ∧ x = denotes neg (numeral r vs)

theorem numeral_read {t : List UCS4} (hf : Fits t) {x : Int} {rest : List UCS4} (hn : Numeral t x rest) (h1 : -2 ^ 31 ≤ x) (h2 : x < 2 ^ 31)
    (memo : Int) (h0 : 0 ≤ memo) (hm : memo < 20) :
    (ofText t).asInt32 memo 0 = .ok ⟨x, if rest = [] then 0#32 else code 1#32, t.length - rest.length⟩ := by
  obtain ⟨neg, r, ds, w, vs, a1, a2, a3, a4, a5, a6, rfl⟩ := hn
  exact den_value_int32 (ofText_den hf) memo h0 hm 0 (by omega) neg r ds w rest vs a1 a2 a3 a4 a5 a6 h1 h2

/-- C33. `as_longlong()` of a String which is a numeral for a 32-bit number: the Variant becomes a LongLong of that number. -/
theorem C33_string_longlong {t : List UCS4} (hf : Fits t) {x : Int} (hn : Numeral t x []) (h1 : -2 ^ 31 ≤ x) (h2 : x < 2 ^ 31)
    (memo : Int) (h0 : 0 ≤ memo) (hm : memo < 20) (junk : BitVec 64) :
    ∃ v', asLongLong memo junk (.string t) = .ok (v', x) ∧ number v' = some x ∧ v'.type = .longLong := by
  have e := toInt_ofInt64 x (by omega) (by omega)
  refine ⟨ofLongLong x, ?_, congrArg some e, rfl⟩
  simp only [asLongLong, coerce, coerceLongLong, numeral_read hf hn h1 h2 memo h0 hm, res_bind_ok, if_true]
  rw [if_neg (by simp), res_bind_ok]
  simp only [word, res_bind_ok, e]
  rfl

/-- C33. When `as_longlong()` of a String returns, the text was a numeral, and the number agrees with it in the low 32 bits (which
is all `asInt32` guarantees, C31). -/
theorem C33_string_longlong_only {t : List UCS4} (hf : Fits t) (memo : Int) (h0 : 0 ≤ memo) (hm : memo < 20) (junk : BitVec 64)
    (v' : Variant) (x : Int) (h : asLongLong memo junk (.string t) = .ok (v', x)) :
    ∃ y, Numeral t y [] ∧ (-2 ^ 31 ≤ x ∧ x < 2 ^ 31) ∧ (∃ q : Int, y = x + q * 2 ^ 32) ∧ number v' = some x ∧ v'.type = .longLong := by
  simp only [asLongLong, coerce, coerceLongLong] at h
  obtain ⟨v1, g1, g2⟩ := hbind h
  obtain ⟨r, g3, g4⟩ := hbind g1
  by_cases he : r.err = 0#32
  · rw [if_neg (by simp [he])] at g4
    cases g4
    simp only [word, res_bind_ok, Except.ok.injEq, Prod.mk.injEq] at g2
    obtain ⟨rfl, g2⟩ := g2
    have hr : r = ⟨r.val, 0#32, r.scanned⟩ := by rw [← he]
    rw [hr] at g3
    obtain ⟨neg, rad, ds, vs, w, b1, b2, b3, b4, -, b6, b7, b8⟩ := den_success_partial (ofText_den hf) memo h0 hm 0 (by omega) _ _ g3
    have e := toInt_ofInt64 r.val (by omega) (by omega)
    rw [e] at g2
    subst g2
    have hnd : NoDigit rad w := by
      cases w with
      | nil => trivial
      | cons c w =>
        intro v hv
        have hw := b4 c (by simp)
        unfold White at hw
        have hx : ∀ n ∈ whites, ∀ b ∈ digitBlocks, n < b.1 ∨ b.1 + 9 < n := by decide +kernel
        have hy : ∀ n ∈ whites, n < 0x41 ∨ 0x7A < n := by decide +kernel
        rcases hv.1 with ⟨b, hb, c1, c2, c3⟩ | ⟨c0, c1, c2, c3⟩
        · have := hx _ hw b hb; omega
        · have := hy _ hw; omega
    exact ⟨_, ⟨neg, rad, ds, w, vs, by simpa using b1, b2, b3, by simpa using hnd, b4, trivial, rfl⟩, ⟨b6, b7⟩, b8, congrArg some e, rfl⟩
  · rw [if_pos (by simpa using he)] at g4
    cases g4

/-- C33 fails for `as_int()` and `as_long()` of a String (the test for an error is inverted): each well-formed numeral aborts. -/
theorem C33_refuted_string {t : List UCS4} (hf : Fits t) {x : Int} (hn : Numeral t x []) (h1 : -2 ^ 31 ≤ x) (h2 : x < 2 ^ 31)
    (memo : Int) (h0 : 0 ≤ memo) (hm : memo < 20) (junk : BitVec 64) :
    asInt memo junk (.string t) = .error .assertion ∧ asLong memo junk (.string t) = .error .assertion := by
  simp only [asInt, asLong, coerce, coerceInteger, coerceLong, numeral_read hf hn h1 h2 memo h0 hm, res_bind_ok, if_true]
  exact ⟨rfl, rfl⟩

/-- C33 fails: only a numeral with other text after it is converted by `as_int()` and `as_long()`. -/
theorem C33_refuted_trailing {t : List UCS4} (hf : Fits t) {x : Int} {rest : List UCS4} (hr : rest ≠ []) (hn : Numeral t x rest)
    (h1 : -2 ^ 31 ≤ x) (h2 : x < 2 ^ 31) (memo : Int) (h0 : 0 ≤ memo) (hm : memo < 20) (junk : BitVec 64) :
    (∃ v', asInt memo junk (.string t) = .ok (v', x)) ∧ ∃ v', asLong memo junk (.string t) = .ok (v', x) := by
  have e1 := loInt_setInt junk x h1 h2
  have e2 := toInt_ofInt64 x (by omega) (by omega)
  have hc : code 1#32 ≠ 0#32 := by decide
  refine ⟨⟨.integer (setInt junk x), ?_⟩, ⟨.long (BitVec.ofInt 64 x), ?_⟩⟩
  · simp only [asInt, coerce, coerceInteger, numeral_read hf hn h1 h2 memo h0 hm, res_bind_ok]
    rw [if_neg hr, if_neg hc, res_bind_ok]
    simp only [word, res_bind_ok, e1]
  · simp only [asLong, coerce, coerceLong, numeral_read hf hn h1 h2 memo h0 hm, res_bind_ok]
    rw [if_neg hr, if_neg hc, res_bind_ok]
    simp only [word, res_bind_ok, e2]

/-! ### C33: a number written and read back -/

theorem digit_char (d : Nat) (h : d < 10) : HasDigit 10 (BitVec.ofNat 32 (0x30 + d)) d := by
  refine ⟨Or.inl ⟨(0x30, 0), by decide, by omega, by omega, ?_⟩, Or.inl h⟩
  rw [BitVec.toNat_ofNat]; omega

theorem digits_append {r : Nat} : ∀ {a : List UCS4} {va : List Nat} {b : List UCS4} {vb : List Nat}, Digits r a va → Digits r b vb →
    Digits r (a ++ b) (va ++ vb) := by
  intro a
  induction a with
  | nil => intro va b vb h1 h2; cases va with
    | nil => exact h2
    | cons _ _ => exact absurd h1 (by simp [Digits])
  | cons c a ih => intro va b vb h1 h2; cases va with
    | nil => exact absurd h1 (by simp [Digits])
    | cons v va => exact ⟨h1.1, ih h1.2 h2⟩

theorem decimal_numeral (n : Nat) : ∃ vs, Digits 10 (decimalNat n) vs ∧ numeral 10 vs = n := by
  induction n using decimalNat.induct with
  | case1 n h =>
    rw [decimalNat, if_pos h]
    exact ⟨[n], ⟨digit_char n h, trivial⟩, by simp [numeral]⟩
  | case2 n h ih =>
    rw [decimalNat, if_neg h]
    obtain ⟨vs, h1, h2⟩ := ih
    refine ⟨vs ++ [n % 10], digits_append h1 ⟨digit_char _ (by omega), trivial⟩, ?_⟩
    unfold numeral at h2 ⊢
    rw [List.foldl_append, h2]
    simp only [List.foldl_cons, List.foldl_nil]
    omega

theorem decimal_radix (n : Nat) : Radix 0 (decimalNat n) 10 (decimalNat n) := by
  by_cases h : n = 0
  · subst h
    rw [decimalNat, if_pos (by decide)]
    exact .single _ ⟨(0x30, 0), by decide, by omega, by omega, by decide⟩
  · obtain ⟨h1, h2⟩ := decimal_head n
    have h3 := decimal_digits n
    cases e : decimalNat n with
    | nil => exact absurd e h1
    | cons a l =>
      rw [e] at h2 h3
      have ha := h3 a.toNat (by simp)
      have hz := h2 (by omega)
      simp only [points_cons, List.head?_cons, ne_eq, Option.some.injEq] at hz
      unfold isJsonDigit at ha
      simp only [Bool.and_eq_true, decide_eq_true_eq] at ha
      refine .decimal a l ?_
      rintro ⟨b, hb, c1, c2, c3⟩
      have hx : ∀ b ∈ digitBlocks, b.1 = 0x30 ∨ 0x39 < b.1 := by decide +kernel
      have := hx b hb
      omega

theorem decimal_white (n : Nat) : NoWhite (decimalNat n) ∧ (decimalNat n).head? ≠ some 0x2B#32 ∧ (decimalNat n).head? ≠ some 0x2D#32 := by
  have h3 := decimal_digits n
  cases e : decimalNat n with
  | nil => exact ⟨trivial, by simp, by simp⟩
  | cons a l =>
    rw [e] at h3
    have ha := h3 a.toNat (by simp)
    unfold isJsonDigit at ha
    simp only [Bool.and_eq_true, decide_eq_true_eq] at ha
    refine ⟨?_, ?_, ?_⟩
    · intro hw
      unfold White at hw
      have hx : ∀ n ∈ whites, n < 0x30 ∨ 0x39 < n := by decide +kernel
      have := hx _ hw
      omega
    · simp only [List.head?_cons, ne_eq, Option.some.injEq]; rintro rfl; revert ha; decide
    · simp only [List.head?_cons, ne_eq, Option.some.injEq]; rintro rfl; revert ha; decide

theorem snprintf_numeral (size : Nat) (hs : 21 ≤ size) (x : Int) (h1 : -2 ^ 63 ≤ x) (h2 : x < 2 ^ 63) : Numeral (snprintf size x) x [] := by
  rw [snprintf_all size hs x h1 h2]
  obtain ⟨vs, d1, d2⟩ := decimal_numeral x.natAbs
  obtain ⟨w1, w2, w3⟩ := decimal_white x.natAbs
  by_cases hx : x < 0
  · rw [if_pos hx]
    refine ⟨true, 10, decimalNat x.natAbs, [], vs, ⟨[], [0x2D#32], [], decimalNat x.natAbs, rfl, by simp, .minus, by simp, w1, by simp, sign_not_white.2, ?_⟩,
      (decimal_head _).1, d1, trivial, by simp, trivial, ?_⟩
    · simpa using decimal_radix x.natAbs
    · rw [d2]; unfold denotes; rw [if_pos rfl]; omega
  · rw [if_neg hx]
    refine ⟨false, 10, decimalNat x.natAbs, [], vs, ⟨[], [], [], decimalNat x.natAbs, rfl, by simp, .none, by simp, w1, fun _ => ⟨rfl, w2, w3⟩, w1, ?_⟩,
      (decimal_head _).1, d1, trivial, by simp, trivial, ?_⟩
    · simpa using decimal_radix x.natAbs
    · rw [d2]; unfold denotes; rw [if_neg (by simp)]; omega

theorem ascii_fits {t : List UCS4} (h : ∀ c ∈ t, c.toNat < 128) (hl : t.length < 2 ^ 30) : Fits t := by
  refine ⟨fun c hc => small_ok (by have := h c hc; omega), ?_⟩
  have := ascii_encode t h
  omega

theorem snprintf_fits (size : Nat) (hs : 21 ≤ size) (x : Int) (h1 : -2 ^ 63 ≤ x) (h2 : x < 2 ^ 63) : Fits (snprintf size x) := by
  have hd : ∀ c ∈ decimalNat x.natAbs, c.toNat < 128 := by
    intro c hc
    have := decimal_digits x.natAbs c.toNat (List.mem_map_of_mem hc)
    unfold isJsonDigit at this
    simp only [Bool.and_eq_true, decide_eq_true_eq] at this
    omega
  have hl := decimal_length 18 x.natAbs (by have : (10 : Nat) ^ (18 + 1) = 10000000000000000000 := by decide
                                            rw [this]; omega)
  rw [snprintf_all size hs x h1 h2]
  apply ascii_fits
  · split
    · intro c hc
      rcases List.mem_cons.mp hc with rfl | hc
      · decide
      · exact hd c hc
    · exact hd
  · split
    · simp; omega
    · omega

/-- C33. A 32-bit number made a String and then a LongLong is the same number. -/
theorem C33_round_trip (memo : Int) (h0 : 0 ≤ memo) (hm : memo < 20) (junk : BitVec 64) (v : Variant) (x : Int) (hx : number v = some x)
    (h1 : -2 ^ 31 ≤ x) (h2 : x < 2 ^ 31) :
    ∃ v1 t v2, asStrval memo junk v = .ok (v1, t) ∧ asLongLong memo junk v1 = .ok (v2, x) ∧ number v2 = some x := by
  have e := number_string hx memo junk
  obtain ⟨v2, g1, g2, -⟩ := C33_string_longlong (snprintf_fits 24 (by decide) x (by omega) (by omega))
    (snprintf_numeral 24 (by decide) x (by omega) (by omega)) h1 h2 memo h0 hm junk
  exact ⟨_, _, v2, e, g1, g2⟩

/-! ### C33: the rest -/

/-- C33. What is stored comes back, and stays: strings, arrays and maps. -/
theorem C33_stored (memo : Int) (junk : BitVec 64) (t : List UCS4) (a : List (List UCS4)) (b : List Variant) (m : List (List UCS4 × Variant)) :
    asStrval memo junk (.string t) = .ok (.string t, t) ∧ asStringArray memo junk (.strArray a) = .ok (.strArray a, a) ∧
    asVariantArray memo junk (.varArray b) = .ok (.varArray b, b) ∧ asVariantMap memo junk (.strVarMap m) = .ok (.strVarMap m, m) :=
  ⟨rfl, rfl, rfl, rfl⟩

/-- C33. A conversion that is not between numbers and strings, and not to the same type, is reported: it aborts. -/
theorem C33_impossible (memo : Int) (junk : BitVec 64) (v : Variant) (ty : Ty) (h1 : v.type ≠ ty) (h2 : ty ≠ .none)
    (h3 : number v = none ∧ v.type ≠ .string ∨ ty = .strArray ∨ ty = .varArray ∨ ty = .strVarMap) :
    coerce memo junk v ty = .error .assertion := by
  cases v <;> cases ty <;> simp_all [Variant.type, number] <;>
    simp [coerce, coerceInteger, coerceLong, coerceLongLong, coerceString, mustBe, Variant.type]

/-- C33 (partial). Whenever a conversion other than between number types returns, the Variant has the type asked for. Missing: the
number types (C33_refuted_type), and which strings convert (C33_refuted_string). -/
theorem C33_type_partial (memo : Int) (junk : BitVec 64) (v v' : Variant) (ty : Ty) (hn : number v = none ∨ ty = .string ∨ ty = .none)
    (h : coerce memo junk v ty = .ok v') : v'.type = ty := by
  have mb : ∀ (v : Variant) (t : Ty), mustBe v t = .ok v' → v'.type = t := by
    intro v t hh
    unfold mustBe at hh
    split at hh
    · cases hh; assumption
    · cases hh
  cases ty with
  | none => cases h; rfl
  | strArray => exact mb _ _ h
  | varArray => exact mb _ _ h
  | strVarMap => exact mb _ _ h
  | string =>
    simp only [coerce, coerceString] at h
    split at h <;> first | (cases h; rfl) | exact mb _ _ h
  | integer =>
    simp only [coerce, coerceInteger] at h
    split at h
    · cases h; rfl
    · simp [number] at hn
    · simp [number] at hn
    · obtain ⟨r, -, g⟩ := hbind h
      split at g
      · exact mb _ _ g
      · cases g; rfl
    · exact mb _ _ h
  | long =>
    simp only [coerce, coerceLong] at h
    split at h
    · simp [number] at hn
    · cases h; rfl
    · simp [number] at hn
    · obtain ⟨r, -, g⟩ := hbind h
      split at g
      · exact mb _ _ g
      · cases g; rfl
    · exact mb _ _ h
  | longLong =>
    simp only [coerce, coerceLongLong] at h
    split at h
    · simp [number] at hn
    · simp [number] at hn
    · cases h; rfl
    · obtain ⟨r, -, g⟩ := hbind h
      split at g
      · exact mb _ _ g
      · cases g; rfl
    · exact mb _ _ h

/-! ### C34 -/

/-- C34 (partial). `as_json`, with any indent, of any nesting of numbers, strings, arrays and maps whose strings are plain: a JSON
text that denotes it. Missing: other strings (`C34_refuted`). -/
theorem C34_json_partial (indent : Int) (v : Variant) (h : AllPlain v) :
    ∃ j, asJson indent v = .ok j ∧ jsonText (points j) = some (denote v) := by
  obtain ⟨j, e, hj⟩ := json_reads indent v h
  exact ⟨j, e, reads_text hj⟩

/-- C34 fails for a string with an astral character (see C32), and `as_json` of a string with U+10FFFF aborts. -/
theorem C34_refuted : (∃ j, asJson (-1) (.string [0x1F600#32]) = .ok j ∧ jsonString ((points j).drop 1 |>.dropLast) = some [0x2F600]) ∧
    asJson (-1) (.string [0x10FFFF#32]) = .error .assertion :=
  ⟨⟨_, rfl, by decide +kernel⟩, rfl⟩

/-- number of characters that are white space in JSON -/
def wsCount (t : List UCS4) : Nat := (t.filter fun c => isJsonWs c.toNat).length

/-- number of blanks in a string -/
def blanks (t : List UCS4) : Nat := (t.filter fun c => c == 0x20#32).length

mutual
/-- number of blanks in the strings of a Variant -/
def allBlanks : Variant → Nat
  | .string t => blanks t
  | .strArray a => (a.map blanks).sum
  | .varArray a => allBlanksL a
  | .strVarMap m => allBlanksM m
  | _ => 0

def allBlanksL : List Variant → Nat
  | [] => 0
  | v :: vs => allBlanks v + allBlanksL vs

def allBlanksM : List (List UCS4 × Variant) → Nat
  | [] => 0
  | (k, v) :: ms => blanks k + allBlanks v + allBlanksM ms
end

@[simp] theorem wsCount_append (a b : List UCS4) : wsCount (a ++ b) = wsCount a + wsCount b := by simp [wsCount]
@[simp] theorem wsCount_nil : wsCount [] = 0 := rfl

theorem wsCount_u4 (n : Nat) : wsCount (u4Chars n) = 0 := by
  unfold wsCount u4Chars
  have g : ∀ m, isJsonWs (BitVec.ofNat 32 (if m % 16 < 10 then 0x30 + m % 16 else 0x37 + m % 16)).toNat = false := by
    intro m
    unfold isJsonWs
    rw [BitVec.toNat_ofNat]
    split <;> simp <;> omega
  simp only [List.map_cons, List.map_nil, List.cons_append, List.nil_append, List.filter_cons, g, List.filter_nil]
  rfl

theorem wsCount_esc (c : UCS4) : wsCount (esc c) = if c == 0x20#32 then 1 else 0 := by
  rcases esc_cases c with ⟨rfl, e⟩ | ⟨y, h1, h2, h3, e⟩ | ⟨h1, h2, h3, h4, e⟩ | ⟨h1, e⟩ | ⟨h1, e⟩ <;> rw [e]
  · rfl
  · have hc : c ≠ 0x20#32 := by
      rintro rfl
      unfold jsonSimple at h1
      repeat' split at h1
      all_goals simp at h1
    have hy : isJsonWs y.toNat = false := by
      unfold jsonSimple at h1
      unfold isJsonWs
      repeat' split at h1
      all_goals first | (simp; omega) | simp at h1
    rw [if_neg (by simpa using hc)]
    unfold wsCount
    rw [List.filter_cons, List.filter_cons, hy]
    rfl
  · unfold wsCount
    by_cases hc : c = 0x20#32
    · subst hc; rfl
    · rw [if_neg (by simpa using hc)]
      have : c.toNat ≠ 0x20 := fun h => hc (BitVec.eq_of_toNat_eq h)
      have hw : isJsonWs c.toNat = false := by unfold isJsonWs; simp; omega
      simp [hw]
  · rw [wsCount_u4]
    split
    · rename_i hc
      exfalso
      have hc : c = 0x20#32 := by simpa using hc
      subst hc
      revert e; decide
    · rfl
  · rw [wsCount_append, wsCount_u4, wsCount_u4]
    split
    · rename_i hc
      exfalso
      have hc : c = 0x20#32 := by simpa using hc
      subst hc
      revert h1; decide
    · rfl

theorem wsCount_quoted (t : List UCS4) : wsCount ([0x22#32] ++ t.flatMap esc ++ [0x22#32]) = blanks t := by
  rw [wsCount_append, wsCount_append]
  have : wsCount (t.flatMap esc) = blanks t := by
    induction t with
    | nil => rfl
    | cons c t ih =>
      rw [List.flatMap_cons, wsCount_append, wsCount_esc, ih]
      unfold blanks
      rw [List.filter_cons]
      split <;> simp <;> omega
  rw [this, show wsCount [0x22#32] = 0 from rfl]
  omega

theorem wsCount_number (size : Nat) (x : Int) : wsCount (snprintf size x) = 0 := by
  have hd : ∀ c ∈ decimalNat x.natAbs, isJsonWs c.toNat = false := by
    intro c hc
    have := decimal_digits x.natAbs c.toNat (List.mem_map_of_mem hc)
    unfold isJsonDigit at this
    simp only [Bool.and_eq_true, decide_eq_true_eq] at this
    unfold isJsonWs; simp; omega
  unfold wsCount
  rw [List.length_eq_zero_iff, List.filter_eq_nil_iff]
  intro c hc
  unfold snprintf at hc
  have hc := List.mem_of_mem_take hc
  split at hc
  · rcases List.mem_cons.mp hc with rfl | hc
    · decide
    · simp [hd c hc]
  · simp [hd c hc]

theorem strings_tight : ∀ (a : List (List UCS4)) (i : Nat), (∀ t ∈ a, Plain t) →
    ∃ j, stringItems [0x2C#32] i a = .ok j ∧ wsCount j = (a.map blanks).sum := by
  intro a
  induction a with
  | nil => intro i _; exact ⟨[], rfl, rfl⟩
  | cons t a ih =>
    intro i h
    obtain ⟨j, e, hj⟩ := ih (i + 1) (fun x hx => h x (List.mem_cons_of_mem _ hx))
    refine ⟨_, by rw [stringItems, quoted_ok (h t (by simp)), res_bind_ok, e, res_bind_ok], ?_⟩
    rw [wsCount_append, wsCount_append, wsCount_quoted, hj]
    have : wsCount (if i > 0 then [0x2C#32] else []) = 0 := by split <;> rfl
    rw [this]
    simp

mutual
theorem json_tight : ∀ (v : Variant), AllPlain v → ∃ j, asJson (-2) v = .ok j ∧ wsCount j = allBlanks v
  | .none, _ => ⟨_, rfl, rfl⟩
  | .integer w, _ => ⟨_, rfl, wsCount_number _ _⟩
  | .long w, _ => ⟨_, rfl, wsCount_number _ _⟩
  | .longLong w, _ => ⟨_, rfl, wsCount_number _ _⟩
  | .string t, h => ⟨_, by rw [asJson, quoted_ok (by simpa [AllPlain] using h)], by rw [wsCount_quoted, allBlanks]⟩
  | .strArray a, h => by
      rw [AllPlain] at h
      obtain ⟨j, e, hj⟩ := strings_tight a 0 h
      refine ⟨[0x5B#32] ++ substr1 [0x2C#32] ++ j ++ shorter (substr1 [0x2C#32]) 2 ++ [0x5D#32], ?_, ?_⟩
      · rw [asJson, show separator (-2) = ([0x2C#32], -2) from rfl]
        simp only [e, res_bind_ok]
      · rw [allBlanks, ← hj]
        simp only [wsCount_append]
        rw [show wsCount [0x5B#32] = 0 from rfl, show wsCount (substr1 [0x2C#32]) = 0 from rfl, show wsCount (shorter (substr1 [0x2C#32]) 2) = 0 from rfl,
          show wsCount [0x5D#32] = 0 from rfl]
        omega
  | .varArray a, h => by
      rw [AllPlain] at h
      obtain ⟨j, e, hj⟩ := items_tight 0 a h
      refine ⟨[0x5B#32] ++ substr1 [0x2C#32] ++ j ++ shorter (substr1 [0x2C#32]) 2 ++ [0x5D#32], ?_, ?_⟩
      · rw [asJson, show separator (-2) = ([0x2C#32], -2) from rfl]
        simp only [e, res_bind_ok]
      · rw [allBlanks, ← hj]
        simp only [wsCount_append]
        rw [show wsCount [0x5B#32] = 0 from rfl, show wsCount (substr1 [0x2C#32]) = 0 from rfl, show wsCount (shorter (substr1 [0x2C#32]) 2) = 0 from rfl,
          show wsCount [0x5D#32] = 0 from rfl]
        omega
  | .strVarMap m, h => by
      rw [AllPlain] at h
      obtain ⟨j, e, hj⟩ := members_tight 0 m h
      refine ⟨[0x7B#32] ++ substr1 [0x2C#32] ++ j ++ shorter (substr1 [0x2C#32]) 2 ++ [0x7D#32], ?_, ?_⟩
      · rw [asJson, show separator (-2) = ([0x2C#32], -2) from rfl]
        simp only [e, res_bind_ok, if_true]
      · rw [allBlanks, ← hj]
        simp only [wsCount_append]
        rw [show wsCount [0x7B#32] = 0 from rfl, show wsCount (substr1 [0x2C#32]) = 0 from rfl, show wsCount (shorter (substr1 [0x2C#32]) 2) = 0 from rfl,
          show wsCount [0x7D#32] = 0 from rfl]
        omega

theorem items_tight (i : Nat) : ∀ (vs : List Variant), AllPlainL vs → ∃ j, jsonItems [0x2C#32] (-2) i vs = .ok j ∧ wsCount j = allBlanksL vs
  | [], _ => ⟨[], by rw [jsonItems], by rw [allBlanksL, wsCount_nil]⟩
  | v :: vs, h => by
      rw [AllPlainL] at h
      obtain ⟨j, e, hj⟩ := json_tight v h.1
      obtain ⟨j', e', hj'⟩ := items_tight (i + 1) vs h.2
      refine ⟨_, by rw [jsonItems, e, res_bind_ok, e', res_bind_ok], ?_⟩
      have : wsCount (if i > 0 then [0x2C#32] else []) = 0 := by split <;> rfl
      rw [wsCount_append, wsCount_append, this, hj, hj', allBlanksL]
      omega

theorem members_tight (i : Nat) : ∀ (ms : List (List UCS4 × Variant)), AllPlainM ms →
    ∃ j, jsonMembers [0x2C#32] [0x3A#32] (-2) i ms = .ok j ∧ wsCount j = allBlanksM ms
  | [], _ => ⟨[], by rw [jsonMembers], by rw [allBlanksM, wsCount_nil]⟩
  | (k, v) :: ms, h => by
      rw [AllPlainM] at h
      obtain ⟨j, e, hj⟩ := json_tight v h.2.1
      obtain ⟨j', e', hj'⟩ := members_tight (i + 1) ms h.2.2
      refine ⟨_, by rw [jsonMembers, quoted_ok h.1, res_bind_ok, e, res_bind_ok, e', res_bind_ok], ?_⟩
      have : wsCount (if i > 0 then [0x2C#32] else []) = 0 := by split <;> rfl
      rw [wsCount_append, wsCount_append, wsCount_append, wsCount_append, this, wsCount_quoted, hj, hj', allBlanksM,
        show wsCount [0x3A#32] = 0 from rfl]
      omega
end

/-- C34. `as_json(-2)` has no white space outside of the strings. -/
theorem C34_tight (v : Variant) (h : AllPlain v) : ∃ j, asJson (-2) v = .ok j ∧ wsCount j = allBlanks v := json_tight v h

/-! ### Non-vacuity -/

/-- {"k é": [null, -12, ["\""], {}]} -/
def sampleVariant : Variant :=
  .strVarMap [([0x6B#32, 0x20#32, 0xE9#32], .varArray [.none, ofLong (-12), .strArray [[0x22#32]], .strVarMap []])]

theorem sample_plain : AllPlain sampleVariant := by
  unfold sampleVariant ofLong
  simp only [AllPlain, AllPlainM, AllPlainL, true_and, and_true, Plain, List.mem_cons, List.not_mem_nil, or_false, forall_eq_or_imp, forall_eq]
  decide

/-- `{ "k é": [ null, -12, [ "\"" ], {  } ] }` -/
example : asJson (-1) sampleVariant = .ok ([0x7B, 0x20, 0x22, 0x6B, 0x20, 0xE9, 0x22, 0x3A, 0x20, 0x5B, 0x20, 0x6E, 0x75, 0x6C, 0x6C, 0x2C, 0x20, 0x2D, 0x31, 0x32,
    0x2C, 0x20, 0x5B, 0x20, 0x22, 0x5C, 0x22, 0x22, 0x20, 0x5D, 0x2C, 0x20, 0x7B, 0x20, 0x20, 0x7D, 0x20, 0x5D, 0x20, 0x7D].map (BitVec.ofNat 32)) := by
  decide +kernel

example : ∃ j, asJson 3 sampleVariant = .ok j ∧ jsonText (points j) =
    some (.obj [([0x6B, 0x20, 0xE9], .arr [.null, .num (-12), .arr [.str [0x22]], .obj []])]) :=
  C34_json_partial 3 sampleVariant sample_plain

/-- "12" is a numeral for 12: so as_int() of Variant("12") aborts. -/
example : asInt 0 0#64 (.string [0x31#32, 0x32#32]) = .error .assertion :=
  (C33_refuted_string (x := 12) (ascii_fits (by simp) (by decide))
    (by have := snprintf_numeral 24 (by decide) 12 (by decide) (by decide); rwa [show snprintf 24 12 = [0x31#32, 0x32#32] by decide +kernel] at this)
    (by decide) (by decide) 0 (by decide) (by decide) 0#64).1

end Strpp.Var
