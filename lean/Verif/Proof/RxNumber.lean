import Verif.Props.StrInt
import Verif.Model.RxCompile
import Verif.Spec.RxText
import Verif.Spec.Rx
/-! The numbers in a regular expression. -/
set_option linter.unusedSimpArgs false
set_option linter.unusedVariables false
namespace Strpp.Rx
open Spec SV

/-- Numerals of few digits are small -/
theorem numeral_lt (r : Nat) (hr : 2 ≤ r) : ∀ (ds : List UCS4) (vs : List Nat), Digits r ds vs → numeral r vs < r ^ ds.length := by
  have gen : ∀ (ds : List UCS4) (vs : List Nat) (a : Nat), Digits r ds vs →
      vs.foldl (fun n v => n * r + v) a < (a + 1) * r ^ ds.length := by
    intro ds
    induction ds with
    | nil => intro vs a h; cases vs with
      | nil => simp
      | cons _ _ => cases h
    | cons c ds ih => intro vs a h; cases vs with
      | nil => cases h
      | cons v vs =>
        obtain ⟨⟨-, hv⟩, h⟩ := h
        have := ih vs (a * r + v) h
        simp only [List.foldl_cons, List.length_cons]
        refine Nat.lt_of_lt_of_le this ?_
        rw [Nat.pow_succ, show (a + 1) * (r ^ ds.length * r) = ((a + 1) * r) * r ^ ds.length by
          rw [Nat.mul_comm (r ^ ds.length) r, Nat.mul_assoc]]
        exact Nat.mul_le_mul_right _ (by rw [Nat.add_mul]; omega)
  intro ds vs h
  have := gen ds vs 0 h
  simpa [numeral] using this

/-- The digits of a number are part of the text -/
theorem start_length {radix r : Nat} {t c : List UCS4} {neg : Bool} (h0 : radix ≠ 0) (h : Start radix t neg r c) :
    r = radix ∧ c.length ≤ t.length := by
  obtain ⟨w1, sg, w2, b, ht, -, -, -, -, -, -, hr⟩ := h
  cases hr with
  | given => exact ⟨rfl, by rw [ht]; simp; omega⟩
  | _ => exact absurd rfl h0

theorem encodeAll_le (s : List UCS4) : (encodeAll s).length ≤ 6 * s.length := by
  induction s with
  | nil => simp [encodeAll]
  | cons c s ih =>
    have : (utf8Put c).length ≤ 6 := by
      exact put_length c ▸ (C02_utf8_len c).2.2
    simp only [encodeAll, List.flatMap_cons, List.length_append, List.length_cons] at *
    omega

theorem number_cases (s : List UCS4) (hs : Fits s) (radix : Nat) (h0 : radix ≠ 0) (h36 : radix ≤ 36) :
    (∃ n, number s radix = .ok n) ∨ (number s radix = .error .ub ∧
      ∃ ds rest vs, Start radix s true radix (ds ++ rest) ∧ Digits radix ds vs ∧ NoDigit radix rest ∧ numeral radix vs = 2 ^ 63) := by
  obtain ⟨b', e1, e2, e3, e4⟩ := ofBody_spec (staticBody_spec s hs.1 (by have := encodeAll_le s; have := hs.2; omega))
  have hden := Den.whole e2
  have hnum : number s radix = (⟨b', 0, s.length, ⟨0, 0⟩⟩ : Str).asInt32 0 radix := by
    unfold number
    rw [show s.flatMap utf8Put = encodeAll s from rfl, e1, res_bind_ok]
  rw [hnum]
  obtain ⟨neg, r, ds, vs, w, rest, hst, hd, hn, hw, hr⟩ := C31_total radix s
  have hrad := (start_length h0 hst).1
  subst hrad
  cases ds with
  | nil =>
    by_cases hc : w ++ rest = []
    · rw [hc] at hst
      exact .inl ⟨_, den_no_digits hden 0 (by omega) (by omega) r h36 neg r hst⟩
    · exact .inl ⟨_, den_not_number hden 0 (by omega) (by omega) r h36 neg r _ hst hc hn⟩
  | cons d ds =>
    by_cases hbig : 2 ^ 64 ≤ numeral r vs
    · obtain ⟨k, -, -, -, e'⟩ := den_overflow hden 0 (by omega) (by omega) r h36 neg r _ _ vs hst hd hn hbig
      exact .inl ⟨_, e'⟩
    · by_cases hu : neg = true ∧ numeral r vs = 2 ^ 63
      · cases vs with
        | nil => simp [Digits] at hd
        | cons y vs =>
        right
        obtain ⟨a, ha, e2⟩ := (start_spec hden 0 (by omega) (by omega) r h36 neg r _ hst).2 d rfl
        obtain ⟨b1, b2⟩ := start_bound h36 hst
        have hsg : signed neg (numeral r (y :: vs)) = .error .ub := by rw [hu.1, hu.2]; rfl
        rw [e2, convert_value hden 0 (by omega) (by omega) r b1 b2 neg a ds w rest d y vs (by rw [ha]; simp) hd hn hw hr (by omega), hsg]
        refine ⟨rfl, d :: ds, w ++ rest, y :: vs, ?_, hd, hn, hu.2⟩
        rw [← hu.1]; exact hst
      · obtain ⟨x', e', -⟩ := den_value_partial hden 0 (by omega) (by omega) r h36 neg r _ w rest vs hst (by simp) hd hn hw hr (by omega) hu
        exact .inl ⟨_, e'⟩


theorem block_ascii : ∀ b ∈ digitBlocks, b = (0x30, 0) ∨ 128 ≤ b.1 := by decide

theorem ascii_digit {radix v : Nat} {c : UCS4} (h : HasDigit radix c v) (hc : c.toNat < 128) :
    (c.toNat = 0x30 + v ∧ v ≤ 9) ∨ (0x41 ≤ c.toNat) := by
  rcases h.1 with ⟨b, hb, h1, h2, h3⟩ | ⟨-, -, -, h4⟩
  · rcases block_ascii b hb with rfl | h
    · left; simp at h3; omega
    · omega
  · right; omega

theorem digit_start {radix v : Nat} {c : UCS4} (h : HasDigit radix c v) (hc : c.toNat < 128) (t : List UCS4) :
    NoWhite (c :: t) ∧ c ≠ 0x2B#32 ∧ c ≠ 0x2D#32 := by
  have := ascii_digit h hc
  refine ⟨?_, ?_, ?_⟩
  · intro hw
    have hw : c.toNat ∈ whites := hw
    simp only [whites, List.mem_cons, List.not_mem_nil, or_false] at hw
    omega
  · rintro rfl; simp at this; omega
  · rintro rfl; simp at this; omega

/-- A number of ASCII digits -/
theorem number_value (radix : Nat) (h2 : 2 ≤ radix) (h36 : radix ≤ 36) (ds : List UCS4) (vs : List Nat) (hne : ds ≠ [])
    (ha : ∀ d ∈ ds, d.toNat < 128) (hd : Digits radix ds vs) (hl : ds.length < 2 ^ 27) (hs : numeral radix vs < 2 ^ 31) :
    number ds radix = .ok ⟨numeral radix vs, 0#32, ds.length⟩ := by
  have hres : ∀ c ∈ ds, ¬ Reserved c := fun c hc => by
    have := ha c hc
    rintro (h | h)
    · omega
    · rw [h] at this; simp at this
  obtain ⟨b', e1, e2, e3, e4⟩ := ofBody_spec (staticBody_spec ds hres (by have := encodeAll_le ds; omega))
  have hden := Den.whole e2
  have hnum : number ds radix = (⟨b', 0, ds.length, ⟨0, 0⟩⟩ : Str).asInt32 0 radix := by
    unfold number
    rw [show ds.flatMap utf8Put = encodeAll ds from rfl, e1, res_bind_ok]
  rw [hnum]
  have hstart : Start radix ds false radix (ds ++ ([] ++ [])) := by
    cases ds with
    | nil => exact absurd rfl hne
    | cons c t =>
      cases vs with
      | nil => simp [Digits] at hd
      | cons v vs =>
        obtain ⟨h1, h3, h4⟩ := digit_start hd.1 (ha c (by simp)) t
        refine ⟨[], [], [], c :: t, rfl, nofun, .none, nofun, h1, fun _ => ⟨rfl, ?_, ?_⟩, h1, ?_⟩
        · simpa using h3
        · simpa using h4
        · simp only [List.append_nil]; exact .given _ _ (by omega)
  have := den_value_int32 hden 0 (by omega) (by omega) radix h36 false radix ds [] [] vs hstart hne hd trivial nofun trivial
    (by unfold denotes; simp) (by unfold denotes; simp; omega)
  rw [this]
  simp [denotes]

end Strpp.Rx
