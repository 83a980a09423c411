import Verif.Proof.StrInt
import Verif.Props.StrVal
/-!
C31: `asInt32`. Vocabulary: Verif/Spec/StrInt.lean. The results are what the caller gets from a variable showing `t` in a
reached state: the value returned, `*err_return` and `*scanned`. `memo` is any value the digit memo can have (C12).
-/
namespace Strpp.SV
open Spec Arr

/-- Reading an integer from the variable `v` of state `s` -/
def readInt (s : State) (v : Nat) (memo radix : Int) : Res NumRes := do
  let σ ← getStr s v
  σ.asInt32 memo radix

/-- Error `n` of the string error set (include/strval.h:41-45) -/
def code (n : BitVec 32) : BitVec 32 := ErrNum.mk 1#32 n

theorem strErr_code : strErr 1#32 = code 1#32 ∧ strErr 2#32 = code 2#32 ∧ strErr 3#32 = code 3#32 ∧ strErr 4#32 = code 4#32 ∧
    strErr 5#32 = code 5#32 := by decide

/-- C31. The five errors are different from success, and carry the number documented (so differ from each other). -/
theorem C31_codes : ∀ n : Nat, n ∈ [1, 2, 3, 4, 5] → code (BitVec.ofNat 32 n) ≠ 0#32 ∧
    ErrNum.msg (code (BitVec.ofNat 32 n)) = BitVec.ofNat 32 n := by
  decide +kernel

theorem readInt_eq {s : State} {v : Nat} {σ : Str} (e : getStr s v = .ok σ) (memo radix : Int) :
    readInt s v memo radix = σ.asInt32 memo radix := by
  unfold readInt; rw [e, res_bind_ok]

/-- C31. A radix below 0 or above 36 is refused: error 5, nothing scanned. -/
theorem C31_illegal_radix {s : State} (h : Reached s) {v : Nat} {t : List UCS4} (hv : view s v = some t) (memo radix : Int)
    (hr : radix < 0 ∨ 36 < radix) : readInt s v memo radix = .ok ⟨0, code 5#32, 0⟩ := by
  obtain ⟨σ, pre, post, e, -, -⟩ := h.str hv
  rw [readInt_eq e]
  unfold Str.asInt32
  rw [if_pos (by simpa using hr)]
  rfl

theorem den_no_digits {σ : Str} {pre t post : List UCS4} (hden : Den σ pre t post) (memo : Int) (h0 : 0 ≤ memo)
    (hm : memo < 20) (radix : Nat) (h36 : radix ≤ 36) (neg : Bool) (r : Nat) (hs : Start radix t neg r []) :
    σ.asInt32 memo radix = .ok ⟨0, code 2#32, t.length⟩ := by
  exact (start_spec hden memo h0 hm radix h36 neg r [] hs).1 rfl

/-- C31. Nothing but white space, a sign and a radix prefix: error 2, all scanned. -/
theorem C31_no_digits {s : State} (h : Reached s) {v : Nat} {t : List UCS4} (hv : view s v = some t) (memo : Int) (h0 : 0 ≤ memo)
    (hm : memo < 20) (radix : Nat) (h36 : radix ≤ 36) (neg : Bool) (r : Nat) (hs : Start radix t neg r []) :
    readInt s v memo radix = .ok ⟨0, code 2#32, t.length⟩ := by
  obtain ⟨σ, pre, post, e', hden, -⟩ := h.str hv
  rw [readInt_eq e']
  exact den_no_digits hden memo h0 hm radix h36 neg r hs

theorem den_not_number {σ : Str} {pre t post : List UCS4} (hden : Den σ pre t post) (memo : Int) (h0 : 0 ≤ memo)
    (hm : memo < 20) (radix : Nat) (h36 : radix ≤ 36) (neg : Bool) (r : Nat) (c : List UCS4) (hs : Start radix t neg r c)
    (hc : c ≠ []) (hn : NoDigit r c) : σ.asInt32 memo radix = .ok ⟨0, code 4#32, t.length - c.length⟩ := by
  cases c with
  | nil => exact absurd rfl hc
  | cons x c =>
    obtain ⟨a, ha, e2⟩ := (start_spec hden memo h0 hm radix h36 neg r (x :: c) hs).2 x rfl
    rw [e2, convert_none_digit hden memo h0 hm r neg a.length x hn]
    have : t.length - (x :: c).length = a.length := by rw [ha]; simp
    rw [this]
    rfl

/-- C31. Where the digits should be there is something else: error 4, scanned up to there. -/
theorem C31_not_number {s : State} (h : Reached s) {v : Nat} {t : List UCS4} (hv : view s v = some t) (memo : Int) (h0 : 0 ≤ memo)
    (hm : memo < 20) (radix : Nat) (h36 : radix ≤ 36) (neg : Bool) (r : Nat) (c : List UCS4) (hs : Start radix t neg r c)
    (hc : c ≠ []) (hn : NoDigit r c) : readInt s v memo radix = .ok ⟨0, code 4#32, t.length - c.length⟩ := by
  obtain ⟨σ, pre, post, e', hden, -⟩ := h.str hv
  rw [readInt_eq e']
  exact den_not_number hden memo h0 hm radix h36 neg r c hs hc hn

theorem radix_bound {radix r : Nat} {b c : List UCS4} (h36 : radix ≤ 36) (h : Radix radix b r c) : 1 ≤ r ∧ r ≤ 36 := by
  cases h <;> omega

theorem start_bound {radix r : Nat} {t c : List UCS4} {neg : Bool} (h36 : radix ≤ 36) (h : Start radix t neg r c) : 1 ≤ r ∧ r ≤ 36 := by
  obtain ⟨_, _, _, _, _, _, _, _, _, _, _, hr⟩ := h
  exact radix_bound h36 hr

theorem den_overflow {σ : Str} {pre t post : List UCS4} (hden : Den σ pre t post) (memo : Int) (h0 : 0 ≤ memo)
    (hm : memo < 20) (radix : Nat) (h36 : radix ≤ 36) (neg : Bool) (r : Nat) (ds rest : List UCS4) (vs : List Nat)
    (hs : Start radix t neg r (ds ++ rest)) (hd : Digits r ds vs) (hn : NoDigit r rest) (hbig : 2 ^ 64 ≤ numeral r vs) :
    ∃ k, k < vs.length ∧ numeral r (vs.take k) < 2 ^ 64 ∧ 2 ^ 64 ≤ numeral r (vs.take (k + 1)) ∧
      σ.asInt32 memo radix = .ok ⟨0, code 3#32, t.length - (ds ++ rest).length + (k + 1)⟩ := by
  cases ds with
  | nil =>
    cases vs with
    | nil => simp [numeral] at hbig
    | cons _ _ => simp [Digits] at hd
  | cons x ds =>
    cases vs with
    | nil => simp [Digits] at hd
    | cons y vs =>
    obtain ⟨a, ha, e2⟩ := (start_spec hden memo h0 hm radix h36 neg r _ hs).2 x rfl
    obtain ⟨b1, b2⟩ := start_bound h36 hs
    obtain ⟨k, k1, k2, k3, k4⟩ := convert_overflow hden memo h0 hm r b1 b2 neg a ds rest x y vs (by rw [ha]; simp) hd hn hbig
    refine ⟨k, by simp; omega, k2, k3, ?_⟩
    rw [e2, k4]
    have : t.length - (x :: ds ++ rest).length = a.length := by rw [ha]; simp
    rw [this]
    rfl

/-- C31. A numeral of 2^64 or more: error 3; scanned up to and including the digit that makes it so. -/
theorem C31_overflow {s : State} (h : Reached s) {v : Nat} {t : List UCS4} (hv : view s v = some t) (memo : Int) (h0 : 0 ≤ memo)
    (hm : memo < 20) (radix : Nat) (h36 : radix ≤ 36) (neg : Bool) (r : Nat) (ds rest : List UCS4) (vs : List Nat)
    (hs : Start radix t neg r (ds ++ rest)) (hd : Digits r ds vs) (hn : NoDigit r rest) (hbig : 2 ^ 64 ≤ numeral r vs) :
    ∃ k, k < vs.length ∧ numeral r (vs.take k) < 2 ^ 64 ∧ 2 ^ 64 ≤ numeral r (vs.take (k + 1)) ∧
      readInt s v memo radix = .ok ⟨0, code 3#32, t.length - (ds ++ rest).length + (k + 1)⟩ := by
  obtain ⟨σ, pre, post, e', hden, -⟩ := h.str hv
  rw [readInt_eq e']
  exact den_overflow hden memo h0 hm radix h36 neg r ds rest vs hs hd hn hbig

/-- The integer the sign and numeral denote -/
def denotes (neg : Bool) (n : Nat) : Int := if neg then -(n : Int) else n

theorem signed_ok (neg : Bool) (n : Nat) (hn : n < 2 ^ 64) (hu : ¬ (neg = true ∧ n = 2 ^ 63)) :
    ∃ x, signed neg n = .ok x ∧ -2147483648 ≤ x ∧ x < 2147483648 ∧ ∃ q : Int, denotes neg n = x + q * 4294967296 := by
  unfold signed denotes
  cases neg with
  | false =>
    rw [if_neg (by simp), if_neg (by simp)]
    refine ⟨_, rfl, ?_⟩
    unfold toInt32 toLong
    split
    · refine ⟨by omega, by omega, ((n : Int) + 2147483648) / 4294967296, by omega⟩
    · refine ⟨by omega, by omega, ((n : Int) + 2147483648) / 4294967296, by omega⟩
  | true =>
    rw [if_pos rfl, if_pos rfl]
    have hne : ¬ (toLong n == -9223372036854775808) = true := by
      unfold toLong
      simp only [true_and] at hu
      split <;> simp <;> omega
    rw [if_neg hne]
    refine ⟨_, rfl, ?_⟩
    unfold toInt32 toLong
    split
    · refine ⟨by omega, by omega, (-(n : Int) + 2147483648) / 4294967296, by omega⟩
    · refine ⟨by omega, by omega, (-(n : Int) + 2147483648) / 4294967296, by omega⟩

theorem den_value_partial {σ : Str} {pre t post : List UCS4} (hden : Den σ pre t post) (memo : Int) (h0 : 0 ≤ memo)
    (hm : memo < 20) (radix : Nat) (h36 : radix ≤ 36) (neg : Bool) (r : Nat) (ds w rest : List UCS4) (vs : List Nat)
    (hs : Start radix t neg r (ds ++ (w ++ rest))) (hne : ds ≠ []) (hd : Digits r ds vs) (hn : NoDigit r (w ++ rest)) (hw : ∀ x ∈ w, White x)
    (hr : NoWhite rest) (hlt : numeral r vs < 2 ^ 64) (hu : ¬ (neg = true ∧ numeral r vs = 2 ^ 63)) :
    ∃ x, σ.asInt32 memo radix = .ok ⟨x, if numeral r vs > 2 ^ 63 - 1 + (if neg then 1 else 0) then code 3#32
        else if rest ≠ [] then code 1#32 else 0#32, t.length - rest.length⟩ ∧
      -2 ^ 31 ≤ x ∧ x < 2 ^ 31 ∧ ∃ q : Int, denotes neg (numeral r vs) = x + q * 2 ^ 32 := by
  cases ds with
  | nil => exact absurd rfl hne
  | cons c ds =>
    cases vs with
    | nil => simp [Digits] at hd
    | cons y vs =>
    obtain ⟨a, ha, e2⟩ := (start_spec hden memo h0 hm radix h36 neg r _ hs).2 c rfl
    obtain ⟨b1, b2⟩ := start_bound h36 hs
    obtain ⟨x, x1, x2, x3, x4⟩ := signed_ok neg _ hlt hu
    refine ⟨x, ?_, x2, x3, x4⟩
    rw [e2, convert_value hden memo h0 hm r b1 b2 neg a ds w rest c y vs (by rw [ha]; simp) hd hn hw hr hlt, x1]
    rfl

/-- C31 (partial). A numeral below 2^64 followed by white space and other text: the value returned is the number reduced to
32 bits; error 3 if it does not fit a 64-bit `long`, else error 1 if other text follows, else none; scanned up to the other text.
Missing: the value itself when it does not fit 32 bits (it is cut off, without error: `C31_refuted_truncation`), and -2^63
(`C31_refuted_long_min`). -/
theorem C31_value_partial {s : State} (h : Reached s) {v : Nat} {t : List UCS4} (hv : view s v = some t) (memo : Int) (h0 : 0 ≤ memo)
    (hm : memo < 20) (radix : Nat) (h36 : radix ≤ 36) (neg : Bool) (r : Nat) (ds w rest : List UCS4) (vs : List Nat)
    (hs : Start radix t neg r (ds ++ (w ++ rest))) (hne : ds ≠ []) (hd : Digits r ds vs) (hn : NoDigit r (w ++ rest)) (hw : ∀ x ∈ w, White x)
    (hr : NoWhite rest) (hlt : numeral r vs < 2 ^ 64) (hu : ¬ (neg = true ∧ numeral r vs = 2 ^ 63)) :
    ∃ x, readInt s v memo radix = .ok ⟨x, if numeral r vs > 2 ^ 63 - 1 + (if neg then 1 else 0) then code 3#32
        else if rest ≠ [] then code 1#32 else 0#32, t.length - rest.length⟩ ∧
      -2 ^ 31 ≤ x ∧ x < 2 ^ 31 ∧ ∃ q : Int, denotes neg (numeral r vs) = x + q * 2 ^ 32 := by
  obtain ⟨σ, pre, post, e', hden, -⟩ := h.str hv
  rw [readInt_eq e']
  exact den_value_partial hden memo h0 hm radix h36 neg r ds w rest vs hs hne hd hn hw hr hlt hu

theorem den_value_int32 {σ : Str} {pre t post : List UCS4} (hden : Den σ pre t post) (memo : Int) (h0 : 0 ≤ memo)
    (hm : memo < 20) (radix : Nat) (h36 : radix ≤ 36) (neg : Bool) (r : Nat) (ds w rest : List UCS4) (vs : List Nat)
    (hs : Start radix t neg r (ds ++ (w ++ rest))) (hne : ds ≠ []) (hd : Digits r ds vs) (hn : NoDigit r (w ++ rest)) (hw : ∀ x ∈ w, White x)
    (hr : NoWhite rest) (hlo : -2 ^ 31 ≤ denotes neg (numeral r vs)) (hhi : denotes neg (numeral r vs) < 2 ^ 31) :
    σ.asInt32 memo radix = .ok ⟨denotes neg (numeral r vs), if rest = [] then 0#32 else code 1#32, t.length - rest.length⟩ := by
  have hb : numeral r vs ≤ 2 ^ 31 := by unfold denotes at hlo hhi; split at hlo <;> simp_all <;> omega
  obtain ⟨x, e, x1, x2, q, hq⟩ := den_value_partial hden memo h0 hm radix h36 neg r ds w rest vs hs hne hd hn hw hr (by omega) (by omega)
  have hx : x = denotes neg (numeral r vs) := by omega
  subst hx
  rw [e, if_neg (by split <;> omega)]
  cases rest <;> rfl

/-- C31. A number that fits 32 bits is returned exactly, without an error if nothing but white space follows. -/
theorem C31_value_int32 {s : State} (h : Reached s) {v : Nat} {t : List UCS4} (hv : view s v = some t) (memo : Int) (h0 : 0 ≤ memo)
    (hm : memo < 20) (radix : Nat) (h36 : radix ≤ 36) (neg : Bool) (r : Nat) (ds w rest : List UCS4) (vs : List Nat)
    (hs : Start radix t neg r (ds ++ (w ++ rest))) (hne : ds ≠ []) (hd : Digits r ds vs) (hn : NoDigit r (w ++ rest)) (hw : ∀ x ∈ w, White x)
    (hr : NoWhite rest) (hlo : -2 ^ 31 ≤ denotes neg (numeral r vs)) (hhi : denotes neg (numeral r vs) < 2 ^ 31) :
    readInt s v memo radix = .ok ⟨denotes neg (numeral r vs), if rest = [] then 0#32 else code 1#32, t.length - rest.length⟩ := by
  obtain ⟨σ, pre, post, e', hden, -⟩ := h.str hv
  rw [readInt_eq e']
  exact den_value_int32 hden memo h0 hm radix h36 neg r ds w rest vs hs hne hd hn hw hr hlo hhi

/-! ### Every text falls under exactly one of the cases -/

theorem split_white (t : List UCS4) : ∃ w b, t = w ++ b ∧ (∀ x ∈ w, White x) ∧ NoWhite b := by
  induction t with
  | nil => exact ⟨[], [], rfl, by simp, trivial⟩
  | cons c t ih =>
    by_cases hc : White c
    · obtain ⟨w, b, h1, h2, h3⟩ := ih
      refine ⟨c :: w, b, by rw [h1]; rfl, ?_, h3⟩
      intro x hx
      rcases List.mem_cons.mp hx with rfl | hx
      · exact hc
      · exact h2 x hx
    · exact ⟨[], c :: t, rfl, by simp, hc⟩

theorem split_digits (r : Nat) (t : List UCS4) : ∃ ds vs b, t = ds ++ b ∧ Digits r ds vs ∧ NoDigit r b := by
  induction t with
  | nil => exact ⟨[], [], [], rfl, trivial, trivial⟩
  | cons c t ih =>
    by_cases hc : ∃ v, HasDigit r c v
    · obtain ⟨v, hc⟩ := hc
      obtain ⟨ds, vs, b, h1, h2, h3⟩ := ih
      exact ⟨c :: ds, v :: vs, b, by rw [h1]; rfl, ⟨hc, h2⟩, h3⟩
    · exact ⟨[], [], c :: t, rfl, trivial, fun v hv => hc ⟨v, hv⟩⟩

theorem radix_total (radix : Nat) (b : List UCS4) : ∃ r c, Radix radix b r c := by
  by_cases hr : radix = 0
  · subst hr
    cases b with
    | nil => exact ⟨_, _, .empty⟩
    | cons z b =>
      by_cases hz : IsDigit z.toNat 0
      · cases b with
        | nil => exact ⟨_, _, .single z hz⟩
        | cons k b =>
          by_cases h1 : k = 0x62#32 ∨ k = 0x42#32
          · exact ⟨_, _, .binary z k b hz h1⟩
          · by_cases h2 : k = 0x78#32 ∨ k = 0x58#32
            · exact ⟨_, _, .hex z k b hz h2⟩
            · exact ⟨_, _, .octal z k b hz (fun h => h1 (Or.inl h)) (fun h => h1 (Or.inr h)) (fun h => h2 (Or.inl h)) (fun h => h2 (Or.inr h))⟩
      · exact ⟨_, _, .decimal z b hz⟩
  · exact ⟨_, _, .given radix b hr⟩

theorem sign_not_white : ¬ White 0x2B#32 ∧ ¬ White 0x2D#32 := by
  constructor <;> (intro h; revert h; unfold White; decide)

/-- C31. Every text has a beginning in the sense of `Start`, with a remainder of the form digits, white space, rest. -/
theorem C31_total (radix : Nat) (t : List UCS4) : ∃ neg r ds vs w rest, Start radix t neg r (ds ++ (w ++ rest)) ∧ Digits r ds vs ∧
    NoDigit r (w ++ rest) ∧ (∀ x ∈ w, White x) ∧ NoWhite rest := by
  have fin : ∀ neg r c, Start radix t neg r c → ∃ neg r ds vs w rest, Start radix t neg r (ds ++ (w ++ rest)) ∧ Digits r ds vs ∧
      NoDigit r (w ++ rest) ∧ (∀ x ∈ w, White x) ∧ NoWhite rest := by
    intro neg r c hs
    obtain ⟨ds, vs, b, h1, h2, h3⟩ := split_digits r c
    obtain ⟨w, rest, g1, g2, g3⟩ := split_white b
    refine ⟨neg, r, ds, vs, w, rest, ?_, h2, ?_, g2, g3⟩
    · rw [← g1, ← h1]; exact hs
    · rw [← g1]; exact h3
  obtain ⟨w1, b1, ht, hw1, hb1⟩ := split_white t
  by_cases hp : b1.head? = some 0x2B#32 ∨ b1.head? = some 0x2D#32
  · cases b1 with
    | nil => simp at hp
    | cons c b1 =>
      simp only [List.head?_cons, Option.some.injEq] at hp
      obtain ⟨w2, b, e2, hw2, hb⟩ := split_white b1
      obtain ⟨r, c', hr⟩ := radix_total radix b
      rcases hp with rfl | rfl
      · exact fin false r c' ⟨w1, [_], w2, b, by rw [ht, e2]; simp, hw1, .plus, hw2, hb, by simp, sign_not_white.1, hr⟩
      · exact fin true r c' ⟨w1, [_], w2, b, by rw [ht, e2]; simp, hw1, .minus, hw2, hb, by simp, sign_not_white.2, hr⟩
  · obtain ⟨r, c', hr⟩ := radix_total radix b1
    exact fin false r c' ⟨w1, [], [], b1, by rw [ht]; simp, hw1, .none, by simp, hb1,
      fun _ => ⟨rfl, fun x => hp (Or.inl x), fun x => hp (Or.inr x)⟩, hb1, hr⟩

theorem den_success_partial {σ : Str} {pre t post : List UCS4} (hden : Den σ pre t post) (memo : Int) (h0 : 0 ≤ memo)
    (hm : memo < 20) (radix : Nat) (h36 : radix ≤ 36) (x : Int) (n : Nat) (e : σ.asInt32 memo radix = .ok ⟨x, 0#32, n⟩) :
    ∃ neg r ds vs w, Start radix t neg r (ds ++ w) ∧ ds ≠ [] ∧ Digits r ds vs ∧ (∀ y ∈ w, White y) ∧ n = t.length ∧
      -2 ^ 31 ≤ x ∧ x < 2 ^ 31 ∧ ∃ q : Int, denotes neg (numeral r vs) = x + q * 2 ^ 32 := by
  have c2 : code 2#32 ≠ 0#32 := by decide
  have c4 : code 4#32 ≠ 0#32 := by decide
  have c3 : code 3#32 ≠ 0#32 := by decide
  have c1 : code 1#32 ≠ 0#32 := by decide
  obtain ⟨neg, r, ds, vs, w, rest, hs, hd, hn, hw, hr⟩ := C31_total radix t
  cases ds with
  | nil =>
    exfalso
    by_cases hc : w ++ rest = []
    · rw [hc] at hs
      rw [den_no_digits hden memo h0 hm radix h36 neg r hs] at e
      simp only [Except.ok.injEq, NumRes.mk.injEq] at e
      exact c2 e.2.1
    · rw [den_not_number hden memo h0 hm radix h36 neg r _ hs hc hn] at e
      simp only [Except.ok.injEq, NumRes.mk.injEq] at e
      exact c4 e.2.1
  | cons d ds =>
    by_cases hbig : 2 ^ 64 ≤ numeral r vs
    · exfalso
      obtain ⟨k, -, -, -, e'⟩ := den_overflow hden memo h0 hm radix h36 neg r _ _ vs hs hd hn hbig
      rw [e'] at e
      simp only [Except.ok.injEq, NumRes.mk.injEq] at e
      exact c3 e.2.1
    · by_cases hu : neg = true ∧ numeral r vs = 2 ^ 63
      · exfalso
        cases vs with
        | nil => simp [Digits] at hd
        | cons y vs =>
        obtain ⟨a, ha, e2⟩ := (start_spec hden memo h0 hm radix h36 neg r _ hs).2 d rfl
        obtain ⟨b1, b2⟩ := start_bound h36 hs
        have hsg : signed neg (numeral r (y :: vs)) = .error .ub := by rw [hu.1, hu.2]; rfl
        rw [e2, convert_value hden memo h0 hm r b1 b2 neg a ds w rest d y vs (by rw [ha]; simp) hd hn hw hr (by omega), hsg] at e
        cases e
      · obtain ⟨x', e', x1, x2, x3⟩ := den_value_partial hden memo h0 hm radix h36 neg r _ w rest vs hs (by simp) hd hn hw hr (by omega) hu
        rw [e'] at e
        simp only [Except.ok.injEq, NumRes.mk.injEq] at e
        obtain ⟨rfl, e3, e4⟩ := e
        by_cases hgt : numeral r vs > 2 ^ 63 - 1 + (if neg then 1 else 0)
        · rw [if_pos hgt] at e3
          exact absurd e3 c3
        · rw [if_neg hgt] at e3
          by_cases hrest : rest = []
          · subst hrest
            refine ⟨neg, r, d :: ds, vs, w, by simpa using hs, by simp, hd, hw, by simp at e4; omega, x1, x2, x3⟩
          · rw [if_pos hrest] at e3
            exact absurd e3 c1

/-- C31 (partial). When no error is reported the text is white space, a sign, a radix prefix, digits and white space only, all of it
has been scanned, and the value returned is the number it denotes reduced to 32 bits. -/
theorem C31_success_partial {s : State} (h : Reached s) {v : Nat} {t : List UCS4} (hv : view s v = some t) (memo : Int) (h0 : 0 ≤ memo)
    (hm : memo < 20) (radix : Nat) (h36 : radix ≤ 36) (x : Int) (n : Nat) (e : readInt s v memo radix = .ok ⟨x, 0#32, n⟩) :
    ∃ neg r ds vs w, Start radix t neg r (ds ++ w) ∧ ds ≠ [] ∧ Digits r ds vs ∧ (∀ y ∈ w, White y) ∧ n = t.length ∧
      -2 ^ 31 ≤ x ∧ x < 2 ^ 31 ∧ ∃ q : Int, denotes neg (numeral r vs) = x + q * 2 ^ 32 := by
  obtain ⟨σ, pre, post, e', hden, -⟩ := h.str hv
  rw [readInt_eq e'] at e
  exact den_success_partial hden memo h0 hm radix h36 x n e

/-- The characters of an ASCII text -/
def asc (l : List Nat) : List UCS4 := l.map (BitVec.ofNat 32)

/-- reading the ASCII string literal with the given bytes -/
def readLiteral (l : List Byte) (radix : Int) : Res NumRes := do
  let s ← execAll (S := Unit) State.init [.ofC (l ++ [0#8])]
  readInt s 0 0 radix

/-- C31. A wrong value without an error: "4294967297" (2^32 + 1) is read as 1, success. -/
theorem C31_refuted_truncation :
    readLiteral [0x34#8, 0x32#8, 0x39#8, 0x34#8, 0x39#8, 0x36#8, 0x37#8, 0x32#8, 0x39#8, 0x37#8] 10 = .ok ⟨1, 0#32, 10⟩ := by decide +kernel

/-- C31. "-9223372036854775808" negates LONG_MIN: undefined behaviour. -/
theorem C31_refuted_long_min :
    readLiteral [0x2D#8, 0x39#8, 0x32#8, 0x32#8, 0x33#8, 0x33#8, 0x37#8, 0x32#8, 0x30#8, 0x33#8, 0x36#8, 0x38#8, 0x35#8, 0x34#8, 0x37#8,
      0x37#8, 0x35#8, 0x38#8, 0x30#8, 0x38#8] 10 = .error .ub := by decide +kernel

/-- C31. With radix 16 given, "0x1F" is not read (the code that would skip the prefix is inside the branch for radix 0): 0 and
"trailing text". -/
theorem C31_refuted_prefix : readLiteral [0x30#8, 0x78#8, 0x31#8, 0x46#8] 16 = .ok ⟨0, code 1#32, 1⟩ ∧
    readLiteral [0x30#8, 0x78#8, 0x31#8, 0x46#8] 0 = .ok ⟨31, 0#32, 4⟩ := by decide +kernel

/-! ### Non-vacuity: " -0x1F z" read with radix 0 -/

def intSample : List (Op Unit) := [.ofC [0x20#8, 0x2D#8, 0x30#8, 0x78#8, 0x31#8, 0x46#8, 0x20#8, 0x7A#8, 0#8]]
def intSampleState : State := ⟨[nullBody, ⟨⟨[0x20#8, 0x2D#8, 0x30#8, 0x78#8, 0x31#8, 0x46#8, 0x20#8, 0x7A#8, 0#8, 0#8, 0#8, 0#8, 0#8, 0#8, 0#8, 0#8], 9, 16, false⟩, 8⟩],
  [some ⟨1, 0, 8, ⟨0, 0⟩⟩]⟩

theorem intSample_run : execAll State.init intSample = .ok intSampleState := by decide +kernel

theorem intSample_reached : Reached intSampleState :=
  ⟨Unit, noMeaning, intSample, .cons (s1 := intSampleState) (by decide +kernel)
    ⟨[0x20#32, 0x2D#32, 0x30#32, 0x78#32, 0x31#32, 0x46#32, 0x20#32, 0x7A#32], [], by decide +kernel, small_good _ (by simp), by simp, by decide +kernel⟩ trivial, intSample_run⟩

example : readInt intSampleState 0 0 0 = .ok ⟨-31, code 1#32, 7⟩ := by
  have hz : IsDigit (0x30#32 : UCS4).toNat 0 := ⟨(0x30, 0), by decide, by decide, by decide, by decide⟩
  have d1 : HasDigit 16 0x31#32 1 := ⟨Or.inl ⟨(0x30, 0), by decide, by decide, by decide, by decide⟩, by decide⟩
  have d2 : HasDigit 16 0x46#32 15 := ⟨Or.inr ⟨by decide, by decide, by decide, by decide⟩, by decide⟩
  have hw : ∀ x ∈ ([0x20#32] : List UCS4), White x := by
    intro x hx; simp only [List.mem_singleton] at hx; subst hx; unfold White; decide
  have := C31_value_int32 intSample_reached (v := 0) (t := [0x20#32, 0x2D#32, 0x30#32, 0x78#32, 0x31#32, 0x46#32, 0x20#32, 0x7A#32])
    (by decide +kernel) 0 (by omega) (by omega) 0 (by omega) true 16 [0x31#32, 0x46#32] [0x20#32] [0x7A#32] [1, 15]
    ⟨[0x20#32], [0x2D#32], [], [0x30#32, 0x78#32, 0x31#32, 0x46#32, 0x20#32, 0x7A#32], rfl, hw, .minus, by simp,
      (by intro h; revert h; unfold White; decide), by simp, sign_not_white.2, .hex _ _ _ hz (Or.inl rfl)⟩
    (by simp) ⟨d1, d2, trivial⟩
    (by
      intro v hv
      obtain ⟨d, e, -, h2⟩ := digit_iff 0 (by omega) (by omega) 0x20#32 16
      have e' : digit 0 0x20#32 16 = .ok (-1) := by decide +kernel
      rw [show ((16 : Nat) : Int) = 16 from rfl, e'] at e
      cases e
      have := (h2 v).mpr hv
      omega)
    hw (by intro h; revert h; unfold White; decide) (by decide) (by decide)
  exact this

end Strpp.SV
