import Verif.Model.StrInt
import Verif.Spec.StrInt
import Verif.Proof.StrBody
import Verif.Props.CharClass
import Mathlib.Tactic.IntervalCases
namespace Strpp.SV
open Spec Arr

theorem hexAlpha_iff (ch : UCS4) : (hexAlpha ch = -1 ∨ (10 ≤ hexAlpha ch ∧ hexAlpha ch < 36)) ∧
    ∀ v : Nat, hexAlpha ch = v ↔ (10 ≤ v ∧ v < 36 ∧ (ch.toNat = 0x61 + (v - 10) ∨ ch.toNat = 0x41 + (v - 10))) := by
  unfold hexAlpha
  by_cases h : (0x61 ≤ ch.toNat ∧ ch.toNat ≤ 0x7A) ∨ (0x41 ≤ ch.toNat ∧ ch.toNat ≤ 0x5A)
  · rw [if_pos (by simpa using h)]
    have key : ∀ n : Fin 128, (0x61 ≤ n.1 ∧ n.1 ≤ 0x7A) → (BitVec.ofNat 32 n.1 &&& ~~~0x20#32).toNat = n.1 - 0x20 := by decide +kernel
    have key2 : ∀ n : Fin 128, (0x41 ≤ n.1 ∧ n.1 ≤ 0x5A) → (BitVec.ofNat 32 n.1 &&& ~~~0x20#32).toNat = n.1 := by decide +kernel
    have e : BitVec.ofNat 32 ch.toNat = ch := by simp
    rcases h with h | h
    · have := key ⟨ch.toNat, by omega⟩ h
      simp only [e] at this
      rw [this]
      refine ⟨by omega, fun v => by omega⟩
    · have := key2 ⟨ch.toNat, by omega⟩ h
      simp only [e] at this
      rw [this]
      refine ⟨by omega, fun v => by omega⟩
  · rw [if_neg (by simpa using h)]
    refine ⟨by omega, fun v => by omega⟩

theorem no_letter_digit (ch : Nat) (v : Nat) (h : IsDigit ch v) : ¬ (0x3A ≤ ch ∧ ch < 200) := by
  have noblk : ∀ n : Fin 200, 0x3A ≤ n.1 → ∀ b ∈ digitBlocks, n.1 < b.1 ∨ b.1 + 9 < n.1 := by decide +kernel
  obtain ⟨b, hb, h1, h2, h3⟩ := h
  rintro ⟨h4, h5⟩
  have := noblk ⟨ch, h5⟩ h4 b hb
  simp only at this
  omega

theorem digit_iff (memo : Int) (h0 : 0 ≤ memo) (h : memo < 20) (ch : UCS4) (r : Nat) :
    ∃ d, digit memo ch r = .ok d ∧ (d = -1 ∨ 0 ≤ d) ∧ ∀ v : Nat, d = v ↔ HasDigit r ch v := by
  obtain ⟨w, e, -⟩ := digit_spec memo h0 h ch
  have hv := digitOf_iff ch.toNat
  have hr := digitOf_range ch.toNat
  generalize digitOf ch.toNat = d at e hv hr
  have fits : ∀ (d : Int), (d = -1 ∨ 0 ≤ d) → (digitFits d r = -1 ∨ 0 ≤ digitFits d r) ∧
      ∀ v : Nat, digitFits d r = v ↔ (d = v ∧ (v < r ∨ (v = 1 ∧ r = 1))) := by
    intro d hd
    unfold digitFits
    by_cases hc : d < r ∨ (d = 1 ∧ (r : Int) = 1)
    · rw [if_pos (by simpa using hc)]
      exact ⟨hd, fun v => by omega⟩
    · rw [if_neg (by simpa using hc)]
      exact ⟨by omega, fun v => by omega⟩
  unfold digit
  rw [e, res_bind_ok]
  simp only
  by_cases hd : d < 0
  · have hno : ∀ v, ¬ IsDigit ch.toNat v := fun v hx => by have := (hv v).mpr hx; omega
    rw [if_pos hd]
    by_cases h10 : 10 < r
    · rw [if_pos (by omega)]
      obtain ⟨a1, a2⟩ := hexAlpha_iff ch
      by_cases hA : hexAlpha ch < 0
      · rw [if_pos hA]
        refine ⟨_, rfl, by omega, fun v => ⟨fun x => by omega, ?_⟩⟩
        rintro ⟨hx | ⟨b1, b2, b3, b4⟩, -⟩
        · exact absurd hx (hno v)
        · have := (a2 v).mpr ⟨b2, b3, b4⟩; omega
      · rw [if_neg hA]
        obtain ⟨f1, f2⟩ := fits (hexAlpha ch) (by omega)
        refine ⟨_, rfl, f1, fun v => ?_⟩
        rw [f2, a2]
        unfold HasDigit
        constructor
        · rintro ⟨⟨b1, b2, b3⟩, b4⟩; exact ⟨Or.inr ⟨h10, b1, b2, b3⟩, b4⟩
        · rintro ⟨hx | ⟨_, b1, b2, b3⟩, b4⟩
          · exact absurd hx (hno v)
          · exact ⟨⟨b1, b2, b3⟩, b4⟩
    · rw [if_neg (by omega)]
      obtain ⟨f1, f2⟩ := fits d (by omega)
      refine ⟨_, rfl, f1, fun v => ?_⟩
      rw [f2, hv]
      unfold HasDigit
      constructor
      · rintro ⟨hx, _⟩; exact absurd hx (hno v)
      · rintro ⟨hx | ⟨hx, _⟩, _⟩
        · exact absurd hx (hno v)
        · exact absurd hx h10
  · rw [if_neg hd]
    obtain ⟨f1, f2⟩ := fits d (by omega)
    refine ⟨_, rfl, f1, fun v => ?_⟩
    rw [f2, hv]
    unfold HasDigit
    obtain ⟨v', hv'⟩ : ∃ v' : Nat, d = v' := ⟨d.toNat, by omega⟩
    have hl := no_letter_digit _ _ ((hv v').mp hv')
    constructor
    · rintro ⟨x, y⟩; exact ⟨Or.inl x, y⟩
    · rintro ⟨x | x, y⟩
      · exact ⟨x, y⟩
      · exfalso; omega

theorem hasDigit_bound {r : Nat} {c : UCS4} {v : Nat} (h : HasDigit r c v) : v < r ∨ (v = 1 ∧ r = 1) := h.2

section
variable {σ : Str} {pre t post : List UCS4}

theorem Den.at (h : Den σ pre t post) {i : Nat} {c : UCS4} (hi : t[i]? = some c) : σ.get i = .ok c := by
  have hl : i < t.length := by
    rcases Nat.lt_or_ge i t.length with h | h
    · exact h
    · rw [List.getElem?_eq_none h] at hi; cases hi
  have hc := h.cap
  have hw : wrap (i : Int) = i := by unfold wrap; omega
  rw [h.get, hw, if_neg (by omega), hi]
  rfl

theorem skipWhite_spec (h : Den σ pre t post) : ∀ (w a b : List UCS4) (ch : UCS4) (fuel : Nat), t = a ++ w ++ b →
    (∀ x ∈ w, White x) → NoWhite b → w.length < fuel →
    ∃ c', σ.skipWhite fuel a.length ch = .ok (a.length + w.length, c') ∧ ∀ x, b.head? = some x → c' = x := by
  intro w
  induction w with
  | nil =>
    intro a b ch fuel ht _ hb hf
    obtain ⟨fuel, rfl⟩ : ∃ k, fuel = k + 1 := ⟨fuel - 1, by simp at hf; omega⟩
    rw [Str.skipWhite, h.num]
    cases b with
    | nil =>
      subst ht
      rw [if_neg (by simp)]
      exact ⟨ch, rfl, by simp⟩
    | cons c b =>
      subst ht
      rw [if_pos (by simp), h.at (c := c) (by simp), res_bind_ok]
      have hn : ucs4IsWhite c = false := by
        cases hx : ucs4IsWhite c with
        | false => rfl
        | true => exact absurd ((C13_white c).mp hx) hb
      rw [hn]
      exact ⟨c, rfl, by simp⟩
  | cons c w ih =>
    intro a b ch fuel ht hw hb hf
    obtain ⟨fuel, rfl⟩ : ∃ k, fuel = k + 1 := ⟨fuel - 1, by simp at hf; omega⟩
    rw [Str.skipWhite, h.num, if_pos (by subst ht; simp), h.at (c := c) (by subst ht; simp), res_bind_ok,
      (C13_white c).mpr (hw c (by simp))]
    obtain ⟨c', e, hc⟩ := ih (a ++ [c]) b c fuel (by rw [ht]; simp) (fun x hx => hw x (by simp [hx])) hb
      (by simp at hf; omega)
    refine ⟨c', ?_, hc⟩
    simp only [List.length_append, List.length_cons, List.length_nil, Nat.zero_add] at e
    simp only [if_true, e, List.length_cons]
    congr 2; omega

/-- The number after further digits. -/
def more (r l : Nat) (vs : List Nat) : Nat := vs.foldl (fun n v => n * r + v) l

theorem more_ge (r : Nat) (hr : 1 ≤ r) : ∀ (vs : List Nat) (l : Nat), l ≤ more r l vs := by
  intro vs
  induction vs with
  | nil => intro l; exact Nat.le_refl _
  | cons v vs ih =>
    intro l
    have h1 := ih (l * r + v)
    have h2 : l * 1 ≤ l * r := Nat.mul_le_mul_left l hr
    unfold more at h1 ⊢
    rw [List.foldl_cons]
    omega

/-- The two tests detect exactly that the next number does not fit in 64 bits. -/
theorem overflow_exact (r l v : Nat) (h1 : 1 ≤ r) (h36 : r ≤ 36) (hl : l < 18446744073709551616) (hv : v < r ∨ (v = 1 ∧ r = 1)) :
    (l > 18446744073709551614 / r + 1 ∨ (l * r + v) % 18446744073709551616 < l) ↔ 18446744073709551616 ≤ l * r + v := by
  interval_cases r <;> omega

theorem digits_spec (h : Den σ pre t post) (memo : Int) (h0 : 0 ≤ memo) (hm : memo < 20) (r : Nat) (h1 : 1 ≤ r) (h36 : r ≤ 36) :
    ∀ (ds : List UCS4) (vs : List Nat) (a b : List UCS4) (c : UCS4) (v l fuel : Nat), t = a ++ (c :: ds) ++ b →
    Digits r (c :: ds) (v :: vs) → NoDigit r b → l < 18446744073709551616 → ds.length < fuel →
    (more r l (v :: vs) < 18446744073709551616 ∧
      σ.digits memo r (18446744073709551614 / (r : Int).toNat + 1) fuel a.length l v = .ok (a.length + (ds.length + 1), some (more r l (v :: vs)))) ∨
    (∃ k, k ≤ vs.length ∧ more r l ((v :: vs).take k) < 18446744073709551616 ∧ 18446744073709551616 ≤ more r l ((v :: vs).take (k + 1)) ∧
      σ.digits memo r (18446744073709551614 / (r : Int).toNat + 1) fuel a.length l v = .ok (a.length + (k + 1), none)) := by
  intro ds
  induction ds with
  | nil =>
    intro vs a b c v l fuel ht hd hb hl hf
    obtain ⟨fuel, rfl⟩ : ∃ k, fuel = k + 1 := ⟨fuel - 1, by simp at hf; omega⟩
    obtain ⟨hd, hds⟩ := hd
    cases vs with
    | cons _ _ => exact absurd hds (by simp [Digits])
    | nil =>
    have ho := overflow_exact r l v h1 h36 hl hd.2
    have er : (r : Int).toNat = r := by omega
    have ev : (v : Int).toNat = v := by omega
    rw [Str.digits, er, ev]
    by_cases hov : 18446744073709551616 ≤ l * r + v
    · right
      refine ⟨0, by omega, by simpa [more] using hl, by simpa [more] using hov, ?_⟩
      rw [if_pos (by simpa using ho.mpr hov)]
    · left
      refine ⟨by simpa [more] using hov, ?_⟩
      rw [if_neg (by have := mt ho.mp hov; simpa using this), Nat.mod_eq_of_lt (by omega), h.num]
      cases b with
      | nil =>
        rw [if_neg (by subst ht; simp)]
        rfl
      | cons x b =>
        rw [if_pos (by subst ht; simp), h.at (c := x) (by subst ht; simp), res_bind_ok]
        obtain ⟨d, e, hd1, hd2⟩ := digit_iff memo h0 hm x r
        rw [e, res_bind_ok, if_neg]
        · rfl
        · intro hge
          exact hb d.toNat ((hd2 d.toNat).mp (by omega))
  | cons c' ds ih =>
    intro vs a b c v l fuel ht hd hb hl hf
    obtain ⟨fuel, rfl⟩ : ∃ k, fuel = k + 1 := ⟨fuel - 1, by simp at hf; omega⟩
    obtain ⟨hd, hds⟩ := hd
    cases vs with
    | nil => exact absurd hds (by simp [Digits])
    | cons v' vs =>
    have ho := overflow_exact r l v h1 h36 hl hd.2
    have er : (r : Int).toNat = r := by omega
    have ev : (v : Int).toNat = v := by omega
    rw [Str.digits, er, ev]
    by_cases hov : 18446744073709551616 ≤ l * r + v
    · right
      refine ⟨0, by omega, by simpa [more] using hl, by simpa [more] using hov, ?_⟩
      rw [if_pos (by simpa using ho.mpr hov)]
    · rw [if_neg (by have := mt ho.mp hov; simpa using this), Nat.mod_eq_of_lt (by omega), h.num]
      rw [if_pos (by subst ht; simp), h.at (c := c') (by subst ht; simp), res_bind_ok]
      obtain ⟨d, e, hd1, hd2⟩ := digit_iff memo h0 hm c' r
      rw [e, res_bind_ok]
      have hdv : d = v' := (hd2 v').mpr hds.1
      subst hdv
      rw [if_pos (by omega)]
      have ih' := ih vs (a ++ [c]) b c' v' (l * r + v) fuel (by rw [ht]; simp) hds hb (by omega) (by simp at hf; omega)
      rw [er] at ih'
      simp only [List.length_append, List.length_cons, List.length_nil, Nat.zero_add] at ih'
      have em : ∀ ws, more r l (v :: ws) = more r (l * r + v) ws := fun ws => by unfold more; rw [List.foldl_cons]
      rcases ih' with ⟨i1, i2⟩ | ⟨k, i1, i2, i3, i4⟩
      · left
        rw [em]
        refine ⟨i1, ?_⟩
        rw [i2]; simp only [List.length_cons]; congr 2; omega
      · right
        refine ⟨k + 1, by simp; omega, ?_, ?_, ?_⟩
        · rw [List.take_succ_cons, em]; exact i2
        · rw [List.take_succ_cons, em]; exact i3
        · rw [i4]; congr 2; omega

theorem numeral_eq (r : Nat) (vs : List Nat) : numeral r vs = more r 0 vs := rfl

theorem convert_none_digit (h : Den σ pre t post) (memo : Int) (h0 : 0 ≤ memo) (hm : memo < 20) (r : Nat) (neg : Bool) (i : Nat)
    (c : UCS4) (hc : ∀ v, ¬ HasDigit r c v) : σ.convertInt memo r neg i c = .ok ⟨0, strErr 4#32, i⟩ := by
  obtain ⟨d, e, hd1, hd2⟩ := digit_iff memo h0 hm c r
  unfold Str.convertInt
  rw [e, res_bind_ok, if_pos]
  rcases hd1 with h | h
  · omega
  · exact absurd ((hd2 d.toNat).mp (by omega)) (hc _)

theorem digits_length {r : Nat} : ∀ {ds : List UCS4} {vs : List Nat}, Digits r ds vs → ds.length = vs.length := by
  intro ds
  induction ds with
  | nil => intro vs h; cases vs with
    | nil => rfl
    | cons _ _ => simp [Digits] at h
  | cons c ds ih => intro vs h; cases vs with
    | nil => simp [Digits] at h
    | cons v vs => simp only [List.length_cons]; rw [ih h.2]

theorem convert_overflow (h : Den σ pre t post) (memo : Int) (h0 : 0 ≤ memo) (hm : memo < 20) (r : Nat) (h1 : 1 ≤ r) (h36 : r ≤ 36)
    (neg : Bool) (a ds b : List UCS4) (c : UCS4) (v : Nat) (vs : List Nat) (ht : t = a ++ (c :: ds) ++ b)
    (hd : Digits r (c :: ds) (v :: vs)) (hb : NoDigit r b) (hov : 18446744073709551616 ≤ numeral r (v :: vs)) :
    ∃ k, k ≤ vs.length ∧ numeral r ((v :: vs).take k) < 18446744073709551616 ∧ 18446744073709551616 ≤ numeral r ((v :: vs).take (k + 1)) ∧
      σ.convertInt memo r neg a.length c = .ok ⟨0, strErr 3#32, a.length + (k + 1)⟩ := by
  obtain ⟨d, e, hd1, hd2⟩ := digit_iff memo h0 hm c r
  have hdv : d = v := (hd2 v).mpr hd.1
  subst hdv
  unfold Str.convertInt
  rw [e, res_bind_ok, if_neg (by omega)]
  have hl : ds.length < t.length := by rw [ht]; simp; omega
  rcases digits_spec h memo h0 hm r h1 h36 ds vs a b c v 0 (σ.num + 1) ht hd hb (by omega) (by rw [h.num]; omega) with ⟨x, -⟩ | ⟨k, k1, k2, k3, k4⟩
  · rw [numeral_eq] at hov; omega
  · refine ⟨k, k1, k2, k3, ?_⟩
    rw [k4, res_bind_ok]

theorem convert_value (h : Den σ pre t post) (memo : Int) (h0 : 0 ≤ memo) (hm : memo < 20) (r : Nat) (h1 : 1 ≤ r) (h36 : r ≤ 36)
    (neg : Bool) (a ds w rest : List UCS4) (c : UCS4) (v : Nat) (vs : List Nat) (ht : t = a ++ (c :: ds) ++ (w ++ rest))
    (hd : Digits r (c :: ds) (v :: vs)) (hb : NoDigit r (w ++ rest)) (hw : ∀ x ∈ w, White x) (hr : NoWhite rest)
    (hlt : numeral r (v :: vs) < 18446744073709551616) :
    σ.convertInt memo r neg a.length c = (signed neg (numeral r (v :: vs))).map (fun x =>
      ⟨x, if numeral r (v :: vs) > 9223372036854775807 + (if neg then 1 else 0) then strErr 3#32
          else if rest ≠ [] then strErr 1#32 else 0#32, t.length - rest.length⟩) := by
  obtain ⟨d, e, hd1, hd2⟩ := digit_iff memo h0 hm c r
  have hdv : d = v := (hd2 v).mpr hd.1
  subst hdv
  unfold Str.convertInt
  rw [e, res_bind_ok, if_neg (by omega)]
  have hl : ds.length < t.length := by rw [ht]; simp; omega
  rcases digits_spec h memo h0 hm r h1 h36 ds vs a (w ++ rest) c v 0 (σ.num + 1) ht hd hb (by omega) (by rw [h.num]; omega) with ⟨x, k4⟩ | ⟨k, k1, k2, k3, k4⟩
  · rw [k4, res_bind_ok]
    simp only
    obtain ⟨c', e', -⟩ := skipWhite_spec h w (a ++ (c :: ds)) rest c (σ.num + 1) (by rw [ht]; simp) hw hr
      (by rw [h.num, ht]; simp; omega)
    simp only [List.length_append, List.length_cons] at e'
    rw [e', res_bind_ok, ← numeral_eq]
    have hlen : t.length = a.length + (ds.length + 1) + w.length + rest.length := by rw [ht]; simp; omega
    have ep : a.length + (ds.length + 1) + w.length = t.length - rest.length := by omega
    have ec : (t.length - rest.length != σ.num) = decide (rest ≠ []) := by
      rw [h.num]
      cases rest with
      | nil => simp
      | cons x rest => simp only [List.length_cons] at hlen; simp; omega
    simp only [ep, ec]
    cases signed neg (numeral r (v :: vs)) with
    | error _ => rfl
    | ok x => rw [res_bind_ok]; simp [Except.map]
  · exfalso
    have : numeral r (v :: vs) = more r (more r 0 ((v :: vs).take (k + 1))) ((v :: vs).drop (k + 1)) := by
      unfold more numeral
      rw [← List.foldl_append, List.take_append_drop]
    have := more_ge r h1 ((v :: vs).drop (k + 1)) (more r 0 ((v :: vs).take (k + 1)))
    omega

theorem isZero_iff (memo : Int) (h0 : 0 ≤ memo) (hm : memo < 20) (ch : UCS4) :
    ∃ d w, ucs4Digit memo ch = .ok (d, w) ∧ (d = 0 ↔ IsDigit ch.toNat 0) := by
  obtain ⟨w, e, -⟩ := digit_spec memo h0 hm ch
  exact ⟨_, w, e, by have := digitOf_iff ch.toNat 0; simpa using this⟩

theorem Den.get_end (h : Den σ pre t post) : σ.get t.length = .ok 0#32 := by
  have hc := h.cap
  have hw : wrap (t.length : Int) = t.length := by unfold wrap; omega
  rw [h.get, hw, if_pos rfl]

theorem after_sign (h : Den σ pre t post) (memo : Int) (h0 : 0 ≤ memo) (hm : memo < 20) (radix : Nat) (neg : Bool)
    (a b : List UCS4) (ht : t = a ++ b) (ch : UCS4) (hch : ∀ x, b.head? = some x → ch = x) (r : Nat) (c : List UCS4)
    (hr : Radix radix b r c) :
    (c = [] → σ.afterSign memo radix neg a.length ch = .ok ⟨0, strErr 2#32, t.length⟩) ∧
    (∀ x, c.head? = some x → ∃ a', t = a' ++ c ∧ σ.afterSign memo radix neg a.length ch = σ.convertInt memo r neg a'.length x) := by
  have hcap := h.cap
  unfold Str.afterSign
  rw [h.num]
  cases b with
  | nil =>
    have : c = [] := by cases hr <;> rfl
    subst this
    subst ht
    simp
  | cons z b =>
    have hz : ch = z := hch z rfl
    subst hz
    have hne : ¬ (a.length == t.length) = true := by subst ht; simp
    rw [if_neg hne]
    obtain ⟨d, w, e, hd⟩ := isZero_iff memo h0 hm ch
    cases hr with
    | given _ _ hr0 =>
      rw [if_neg (by simpa using hr0)]
      refine ⟨by simp, ?_⟩
      intro x hx
      simp only [List.head?_cons, Option.some.injEq] at hx
      subst hx
      exact ⟨a, ht, rfl⟩
    | binary _ k c hz hk =>
      rw [if_pos (by rfl)]
      unfold Str.detectRadix
      rw [e, res_bind_ok]
      have hlen : t.length = a.length + (c.length + 2) := by rw [ht]; simp
      have g1 : σ.get ((a.length : Int) + 1) = .ok k := by
        have := h.at (i := a.length + 1) (c := k) (by subst ht; simp)
        push_cast at this; exact this
      have hd0 := hd.mpr hz
      subst hd0
      simp only [h.num]
      rw [if_pos (by simp; omega), g1, res_bind_ok, if_pos (by simpa using hk)]
      cases c with
      | nil =>
        have g2 : σ.get ((a.length : Int) + 2) = .ok 0#32 := by
          have := h.get_end
          rw [hlen] at this
          push_cast at this; simpa using this
        rw [g2, res_bind_ok, res_bind_ok]
        simp [hlen]
      | cons x c =>
        have g2 : σ.get ((a.length : Int) + 2) = .ok x := by
          have := h.at (i := a.length + 2) (c := x) (by subst ht; simp)
          push_cast at this; exact this
        rw [g2, res_bind_ok, res_bind_ok]
        refine ⟨by simp, ?_⟩
        intro y hy
        simp only [List.head?_cons, Option.some.injEq] at hy
        subst hy
        refine ⟨a ++ [ch, k], by rw [ht]; simp, ?_⟩
        simp only [List.length_cons] at hlen
        rw [if_neg (by simp; omega)]
        simp
    | hex _ k c hz hk =>
      rw [if_pos (by rfl)]
      unfold Str.detectRadix
      rw [e, res_bind_ok]
      have hlen : t.length = a.length + (c.length + 2) := by rw [ht]; simp
      have g1 : σ.get ((a.length : Int) + 1) = .ok k := by
        have := h.at (i := a.length + 1) (c := k) (by subst ht; simp)
        push_cast at this; exact this
      have hd0 := hd.mpr hz
      subst hd0
      have hnk : ¬ ((k == 0x62#32 || k == 0x42#32) = true) := by rcases hk with rfl | rfl <;> decide
      simp only [h.num]
      rw [if_pos (by simp; omega), g1, res_bind_ok, if_neg hnk, if_pos (by simpa using hk)]
      cases c with
      | nil =>
        have g2 : σ.get ((a.length : Int) + 2) = .ok 0#32 := by
          have := h.get_end
          rw [hlen] at this
          push_cast at this; simpa using this
        rw [g2, res_bind_ok, res_bind_ok]
        simp [hlen]
      | cons x c =>
        have g2 : σ.get ((a.length : Int) + 2) = .ok x := by
          have := h.at (i := a.length + 2) (c := x) (by subst ht; simp)
          push_cast at this; exact this
        rw [g2, res_bind_ok, res_bind_ok]
        refine ⟨by simp, ?_⟩
        intro y hy
        simp only [List.head?_cons, Option.some.injEq] at hy
        subst hy
        refine ⟨a ++ [ch, k], by rw [ht]; simp, ?_⟩
        simp only [List.length_cons] at hlen
        rw [if_neg (by simp; omega)]
        simp
    | octal _ k c hz k1 k2 k3 k4 =>
      rw [if_pos (by rfl)]
      unfold Str.detectRadix
      rw [e, res_bind_ok]
      have hlen : t.length = a.length + (c.length + 2) := by rw [ht]; simp
      have g1 : σ.get ((a.length : Int) + 1) = .ok k := by
        have := h.at (i := a.length + 1) (c := k) (by subst ht; simp)
        push_cast at this; exact this
      have hd0 := hd.mpr hz
      subst hd0
      simp only [h.num]
      rw [if_pos (by simp; omega), g1, res_bind_ok, if_neg (by simp [k1, k2]), if_neg (by simp [k3, k4]), res_bind_ok]
      refine ⟨by simp, ?_⟩
      intro y hy
      simp only [List.head?_cons, Option.some.injEq] at hy
      subst hy
      refine ⟨a, ht, ?_⟩
      rw [if_neg hne]
      rfl
    | single _ hz =>
      rw [if_pos (by rfl)]
      unfold Str.detectRadix
      rw [e, res_bind_ok]
      simp only [h.num]
      have hlen : t.length = a.length + 1 := by rw [ht]; simp
      rw [if_neg (by simp; omega), res_bind_ok]
      refine ⟨by simp, ?_⟩
      intro y hy
      simp only [List.head?_cons, Option.some.injEq] at hy
      subst hy
      refine ⟨a, ht, ?_⟩
      rw [if_neg hne]
      rfl
    | decimal _ _ hz =>
      rw [if_pos (by rfl)]
      unfold Str.detectRadix
      rw [e, res_bind_ok]
      have hd0 : ¬ d = 0 := mt hd.mp hz
      rw [if_neg (by simp [hd0]), res_bind_ok]
      refine ⟨by simp, ?_⟩
      intro y hy
      simp only [List.head?_cons, Option.some.injEq] at hy
      subst hy
      refine ⟨a, ht, ?_⟩
      rw [if_neg hne]
      rfl

theorem start_spec (h : Den σ pre t post) (memo : Int) (h0 : 0 ≤ memo) (hm : memo < 20) (radix : Nat) (h36 : radix ≤ 36) (neg : Bool)
    (r : Nat) (c : List UCS4) (hs : Start radix t neg r c) :
    (c = [] → σ.asInt32 memo radix = .ok ⟨0, strErr 2#32, t.length⟩) ∧
    (∀ x, c.head? = some x → ∃ a, t = a ++ c ∧ σ.asInt32 memo radix = σ.convertInt memo r neg a.length x) := by
  obtain ⟨w1, sg, w2, b, ht, hw1, hsg, hw2, hb, hns, hnw, hrad⟩ := hs
  have key : ∃ a ch, t = a ++ b ∧ (∀ x, b.head? = some x → ch = x) ∧ σ.asInt32 memo radix = σ.afterSign memo radix neg a.length ch := by
    unfold Str.asInt32
    rw [if_neg (by simp; omega), h.num]
    obtain ⟨c1, e1, hc1⟩ := skipWhite_spec h w1 [] (sg ++ w2 ++ b) 0#32 (t.length + 1) (by rw [ht]; simp) hw1
      (by
        cases hsg with
        | none => rw [(hns rfl).1]; exact hb
        | plus => exact hnw
        | minus => exact hnw)
      (by rw [ht]; simp; omega)
    simp only [List.length_nil, Nat.zero_add] at e1
    rw [e1, res_bind_ok]
    simp only
    have signed : ∀ (sc : UCS4), sg = [sc] → (sc = 0x2B#32 ∨ sc = 0x2D#32) → neg = (sc == 0x2D#32) →
        ∃ a ch, t = a ++ b ∧ (∀ x, b.head? = some x → ch = x) ∧
          (if (w1.length == t.length) = true then Except.ok (NumRes.mk 0 (strErr 2#32) w1.length)
            else if (c1 == 0x2B#32 || c1 == 0x2D#32) = true then do
              let u ← σ.skipWhite (t.length + 1) (w1.length + 1) c1
              σ.afterSign memo radix (c1 == 0x2D#32) u.1 u.2
            else σ.afterSign memo radix false w1.length c1) = σ.afterSign memo radix neg a.length ch := by
      intro sc hsc hor hng
      have hcs : c1 = sc := hc1 sc (by rw [hsc]; simp)
      subst hcs
      obtain ⟨c2, e2, hc2⟩ := skipWhite_spec h w2 (w1 ++ [c1]) b c1 (t.length + 1) (by simp [ht, hsc]) hw2 hb (by rw [ht, hsc]; simp only [List.length_append]; omega)
      simp only [List.length_append, List.length_cons, List.length_nil, Nat.zero_add] at e2
      have hlt : t.length = w1.length + 1 + w2.length + b.length := by rw [ht, hsc]; simp; omega
      refine ⟨w1 ++ [c1] ++ w2, c2, by rw [ht, hsc], hc2, ?_⟩
      rw [if_neg (by simp; omega), if_pos (by simpa using hor), e2, res_bind_ok]
      simp only [List.length_append, List.length_cons, List.length_nil, Nat.zero_add]
      rw [← hng]
    cases hsg with
    | none =>
      obtain ⟨hw20, hp, hq⟩ := hns rfl
      subst hw20
      refine ⟨w1, c1, by rw [ht]; simp, fun x hx => hc1 x (by simpa using hx), ?_⟩
      cases b with
      | nil =>
        have hl : w1.length = t.length := by rw [ht]; simp
        rw [if_pos (by simpa using hl)]
        unfold Str.afterSign
        rw [h.num, if_pos (by simpa using hl)]
      | cons x b =>
        have hx : c1 = x := hc1 x (by simp)
        subst hx
        simp only [List.head?_cons, ne_eq, Option.some.injEq] at hp hq
        rw [if_neg (by rw [ht]; simp), if_neg (by simp [hp, hq])]
    | plus => exact signed 0x2B#32 rfl (Or.inl rfl) rfl
    | minus => exact signed 0x2D#32 rfl (Or.inr rfl) rfl
  obtain ⟨a, ch, hab, hch, e⟩ := key
  rw [e]
  exact after_sign h memo h0 hm radix neg a b hab ch hch r c hrad

end
end Strpp.SV
