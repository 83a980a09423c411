import Verif.Props.StrInt
import Verif.Spec.StrIntExact
/-! C78: what `StrVal::asInt32` returns for every text and radix. -/
set_option linter.unusedSimpArgs false
namespace Strpp.SV

open Spec

theorem foldl_ge (r : Nat) (hr : 1 ≤ r) : ∀ (vs : List Nat) (n : Nat), n ≤ vs.foldl (fun n v => n * r + v) n
  | [], n => Nat.le_refl _
  | v :: vs, n => by
    have := foldl_ge r hr vs (n * r + v)
    have := Nat.mul_le_mul_left n hr
    simp only [List.foldl_cons]; omega

theorem overAt_eq (r : Nat) (hr : 1 ≤ r) : ∀ (vs : List Nat) (n k : Nat), k < vs.length →
    (vs.take k).foldl (fun n v => n * r + v) n < 2 ^ 64 → 2 ^ 64 ≤ (vs.take (k + 1)).foldl (fun n v => n * r + v) n →
    overAt r n vs = k + 1
  | [], _, _, hk, _, _ => by simp at hk
  | v :: vs, n, k, hk, h1, h2 => by
    unfold overAt
    cases k with
    | zero =>
      simp only [List.take_succ_cons, List.take_zero, List.foldl_cons, List.foldl_nil] at h2
      rw [if_pos h2]
    | succ k =>
      simp only [List.take_succ_cons, List.foldl_cons] at h1 h2
      have := foldl_ge r hr (vs.take k) (n * r + v)
      rw [if_neg (by omega), overAt_eq r hr vs _ k (by simpa using hk) h1 h2]
      omega

/-- the error code of an error number -/
def errOf (n : Nat) : BitVec 32 := if n = 0 then 0#32 else code (BitVec.ofNat 32 n)

theorem bmod_of (x d : Int) (h1 : -2147483648 ≤ x) (h2 : x < 2147483648) (h : ∃ q : Int, d = x + q * 4294967296) :
    d.bmod (2 ^ 32) = x := by
  obtain ⟨q, rfl⟩ := h
  rw [show ((2 : Nat) ^ 32) = 4294967296 from rfl, show q * 4294967296 = ((4294967296 : Nat) : Int) * q by rw [Int.mul_comm]; rfl, Int.add_mul_bmod_self_left]
  exact Int.bmod_eq_of_le (by omega) (by omega)

theorem den_exact {σ : Str} {pre t post : List UCS4} (hden : Den σ pre t post) (memo : Int) (h0 : 0 ≤ memo)
    (hm : memo < 20) (radix : Nat) (h36 : radix ≤ 36) (neg : Bool) (r : Nat) (ds : List UCS4) (vs : List Nat) (w rest : List UCS4)
    (hr : Reads radix t neg r ds vs w rest) :
    σ.asInt32 memo radix = (match intOutcome t.length neg r vs w rest with
      | some (x, e, n) => .ok ⟨x, errOf e, n⟩
      | none => .error .ub) := by
  obtain ⟨hs, hd, hn, hw, hrw⟩ := hr
  have hl := digits_length hd
  have hb := start_bound h36 hs
  unfold intOutcome
  simp only
  cases ds with
  | nil =>
    cases vs with
    | cons _ _ => simp [Digits] at hd
    | nil =>
      rw [if_pos rfl]
      simp only [List.nil_append, List.length_nil, Nat.zero_add] at hs ⊢
      obtain ⟨w1, sg, w2, b, ht, -, -, -, -, -, -, hR⟩ := id hs
      have hle : (w ++ rest).length ≤ t.length := by
        have : (w ++ rest).length ≤ b.length := by
          have key : ∀ {k r : Nat} {b q : List UCS4}, Radix k b r q → q.length ≤ b.length := by
            intro k r b q h
            cases h <;> simp <;> omega
          exact key hR
        rw [ht]; simp only [List.length_append] at *; omega
      by_cases hc : w ++ rest = []
      · rw [hc] at hs
        have e1 : w.length + rest.length = 0 := by rw [← List.length_append, hc]; rfl
        rw [if_pos (by omega)]
        exact den_no_digits hden memo h0 hm radix h36 neg r hs
      · have : 0 < (w ++ rest).length := List.length_pos_iff.mpr hc
        rw [if_neg (by simp only [List.length_append] at *; omega)]
        have := den_not_number hden memo h0 hm radix h36 neg r _ hs hc hn
        rw [List.length_append] at this
        exact this
  | cons c ds =>
    cases vs with
    | nil => simp [Digits] at hd
    | cons y vs =>
      rw [if_neg (by simp)]
      by_cases hbig : 2 ^ 64 ≤ numeral r (y :: vs)
      · rw [if_pos hbig]
        obtain ⟨k, k1, k2, k3, e⟩ := den_overflow hden memo h0 hm radix h36 neg r _ _ _ hs hd hn hbig
        rw [overAt_eq r hb.1 _ 0 k k1 k2 k3, e]
        have e1 : (c :: ds ++ (w ++ rest)).length = (y :: vs).length + (w.length + rest.length) := by
          simp only [List.length_append, hl]
        rw [e1]
        rfl
      · rw [if_neg hbig]
        by_cases hu : neg = true ∧ numeral r (y :: vs) = 2 ^ 63
        · rw [if_pos hu]
          obtain ⟨a, ha, e2⟩ := (start_spec hden memo h0 hm radix h36 neg r _ hs).2 c rfl
          rw [e2, convert_value hden memo h0 hm r hb.1 hb.2 neg a ds w rest c y vs (by rw [ha]; simp) hd hn hw hrw (by omega)]
          rw [hu.1, hu.2]
          rfl
        · rw [if_neg hu]
          obtain ⟨x, e, x1, x2, hq⟩ := den_value_partial hden memo h0 hm radix h36 neg r _ w rest _ hs (by simp) hd hn hw hrw (by omega) hu
          have hx := bmod_of x _ (by omega) (by omega) hq
          unfold denotes at hx
          rw [e, hx]
          simp only
          congr 2
          by_cases h3 : 2 ^ 63 ≤ numeral r (y :: vs)
          · have hx3 : 2 ^ 63 - 1 + (if neg = true then 1 else 0) < numeral r (y :: vs) := by
              cases hng : neg
              · simp; omega
              · have : numeral r (y :: vs) ≠ 2 ^ 63 := fun h => hu ⟨hng, h⟩
                simp; omega
            rw [if_pos hx3, if_pos h3]; rfl
          · rw [if_neg (by split <;> omega), if_neg h3]
            by_cases hre : rest = []
            · rw [if_neg (by simpa using hre), if_pos hre]; rfl
            · rw [if_pos hre, if_neg hre]; rfl

/-- C78. `asInt32` of any string and any radix from 0 to 36: with the text taken apart, the value, the error and the count
are `intOutcome`; the call is undefined exactly for -2^63. -/
theorem C78_exact {s : State} (h : Reached s) {v : Nat} {t : List UCS4} (hv : view s v = some t) (memo : Int) (h0 : 0 ≤ memo)
    (hm : memo < 20) (radix : Nat) (h36 : radix ≤ 36) (neg : Bool) (r : Nat) (ds : List UCS4) (vs : List Nat) (w rest : List UCS4)
    (hr : Reads radix t neg r ds vs w rest) :
    readInt s v memo radix = (match intOutcome t.length neg r vs w rest with
      | some (x, e, n) => .ok ⟨x, errOf e, n⟩
      | none => .error .ub) := by
  obtain ⟨σ, pre, post, e', hden, -⟩ := h.str hv
  rw [readInt_eq e']
  exact den_exact hden memo h0 hm radix h36 neg r ds vs w rest hr

theorem hasDigit_unique {r : Nat} {c : UCS4} {v v' : Nat} (h : HasDigit r c v) (h' : HasDigit r c v') : v = v' := by
  obtain ⟨d, -, -, h2⟩ := digit_iff 0 (by omega) (by omega) c r
  have a := (h2 v).mpr h
  have b := (h2 v').mpr h'
  omega

theorem split_unique {α : Type} (P : α → Prop) : ∀ (a a' b b' : List α), a ++ b = a' ++ b' → (∀ x ∈ a, P x) → (∀ x ∈ a', P x) →
    (∀ x, b.head? = some x → ¬ P x) → (∀ x, b'.head? = some x → ¬ P x) → a = a' ∧ b = b'
  | [], [], b, b', h, _, _, _, _ => ⟨rfl, h⟩
  | [], x :: a', b, b', h, _, h2, h3, _ => by
    simp only [List.nil_append, List.cons_append] at h
    exact absurd (h2 x (by simp)) (h3 x (by rw [h]; rfl))
  | x :: a, [], b, b', h, h1, _, _, h4 => by
    simp only [List.nil_append, List.cons_append] at h
    exact absurd (h1 x (by simp)) (h4 x (by rw [← h]; rfl))
  | x :: a, y :: a', b, b', h, h1, h2, h3, h4 => by
    simp only [List.cons_append, List.cons.injEq] at h
    obtain ⟨e1, e2⟩ := split_unique P a a' b b' h.2 (fun z hz => h1 z (by simp [hz])) (fun z hz => h2 z (by simp [hz])) h3 h4
    exact ⟨by rw [h.1, e1], e2⟩

theorem noWhite_head {b : List UCS4} (h : NoWhite b) : ∀ x, b.head? = some x → ¬ White x := by
  intro x hx
  cases b with
  | nil => cases hx
  | cons c b => cases hx; exact h

theorem radix_unique {radix : Nat} {b c c' : List UCS4} {r r' : Nat} (h : Radix radix b r c) (h' : Radix radix b r' c') : r = r' ∧ c = c' := by
  cases h <;> cases h' <;> simp_all <;> rename_i a _ _ <;> rcases a with rfl | rfl <;> simp_all

theorem start_unique {radix : Nat} {t c c' : List UCS4} {neg neg' : Bool} {r r' : Nat} (h : Start radix t neg r c)
    (h' : Start radix t neg' r' c') : neg = neg' ∧ r = r' ∧ c = c' := by
  obtain ⟨w1, sg, w2, b, ht, a1, a2, a3, a4, a5, a6, a7⟩ := h
  obtain ⟨w1', sg', w2', b', ht', a1', a2', a3', a4', a5', a6', a7'⟩ := h'
  have head : ∀ {sg w2 b : List UCS4} {neg : Bool}, Sign sg neg → (sg = [] → w2 = [] ∧ b.head? ≠ some 0x2B#32 ∧ b.head? ≠ some 0x2D#32) →
      NoWhite (sg ++ b) → ∀ x, (sg ++ (w2 ++ b)).head? = some x → ¬ White x := by
    intro sg w2 b neg hs he hn x hx
    cases hs with
    | none =>
      obtain ⟨rfl, -, -⟩ := he rfl
      exact noWhite_head hn x hx
    | plus => cases hx; exact sign_not_white.1
    | minus => cases hx; exact sign_not_white.2
  have e0 : w1 ++ (sg ++ (w2 ++ b)) = w1' ++ (sg' ++ (w2' ++ b')) := by
    simp only [List.append_assoc] at ht ht'; rw [← ht, ht']
  obtain ⟨-, e1⟩ := split_unique White _ _ _ _ e0 a1 a1' (head a2 a5 a6) (head a2' a5' a6')
  have e2 : neg = neg' ∧ b = b' := by
    cases a2 with
    | none =>
      obtain ⟨rfl, p1, p2⟩ := a5 rfl
      cases a2' with
      | none => obtain ⟨rfl, -, -⟩ := a5' rfl; exact ⟨rfl, e1⟩
      | plus => simp only [List.nil_append] at e1; rw [e1] at p1; simp at p1
      | minus => simp only [List.nil_append] at e1; rw [e1] at p2; simp at p2
    | plus =>
      cases a2' with
      | none => obtain ⟨rfl, p1, p2⟩ := a5' rfl; simp only [List.nil_append] at e1; rw [← e1] at p1; simp at p1
      | plus =>
        simp only [List.cons_append, List.nil_append, List.cons.injEq, true_and] at e1
        exact ⟨rfl, (split_unique White _ _ _ _ e1 a3 a3' (noWhite_head a4) (noWhite_head a4')).2⟩
      | minus => simp at e1
    | minus =>
      cases a2' with
      | none => obtain ⟨rfl, p1, p2⟩ := a5' rfl; simp only [List.nil_append] at e1; rw [← e1] at p2; simp at p2
      | plus => simp at e1
      | minus =>
        simp only [List.cons_append, List.nil_append, List.cons.injEq, true_and] at e1
        exact ⟨rfl, (split_unique White _ _ _ _ e1 a3 a3' (noWhite_head a4) (noWhite_head a4')).2⟩
  obtain ⟨rfl, rfl⟩ := e2
  exact ⟨rfl, radix_unique a7 a7'⟩

theorem digits_all {r : Nat} : ∀ {ds : List UCS4} {vs : List Nat}, Digits r ds vs → ∀ x ∈ ds, ∃ v, HasDigit r x v
  | [], [], _, x, hx => by cases hx
  | _ :: ds, v :: vs, h, x, hx => by
    rcases List.mem_cons.mp hx with rfl | hx
    · exact ⟨v, h.1⟩
    · exact digits_all (ds := ds) (vs := vs) h.2 x hx
  | [], _ :: _, h, _, _ => by simp [Digits] at h
  | _ :: _, [], h, _, _ => by simp [Digits] at h

theorem digits_unique {r : Nat} : ∀ {ds : List UCS4} {vs vs' : List Nat}, Digits r ds vs → Digits r ds vs' → vs = vs'
  | [], [], [], _, _ => rfl
  | _ :: ds, v :: vs, v' :: vs', h, h' => by
    rw [hasDigit_unique h.1 h'.1, digits_unique (ds := ds) h.2 h'.2]
  | [], _ :: _, _, h, _ => by simp [Digits] at h
  | [], _, _ :: _, _, h => by simp [Digits] at h
  | _ :: _, [], _, h, _ => by simp [Digits] at h
  | _ :: _, _, [], _, h => by simp [Digits] at h

theorem noDigit_head {r : Nat} {b : List UCS4} (h : NoDigit r b) : ∀ x, b.head? = some x → ¬ ∃ v, HasDigit r x v := by
  rintro x hx ⟨v, hv⟩
  cases b with
  | nil => cases hx
  | cons c b => cases hx; exact h v hv

/-- C78. Every text can be taken apart, in exactly one way. -/
theorem C78_unique (radix : Nat) (t : List UCS4) :
    (∃ neg r ds vs w rest, Reads radix t neg r ds vs w rest) ∧
    ∀ neg r ds vs w rest neg' r' ds' vs' w' rest', Reads radix t neg r ds vs w rest → Reads radix t neg' r' ds' vs' w' rest' →
      (neg, r, ds, vs, w, rest) = (neg', r', ds', vs', w', rest') := by
  constructor
  · obtain ⟨neg, r, ds, vs, w, rest, h1, h2, h3, h4, h5⟩ := C31_total radix t
    exact ⟨neg, r, ds, vs, w, rest, h1, h2, h3, h4, h5⟩
  · rintro neg r ds vs w rest neg' r' ds' vs' w' rest' ⟨h1, h2, h3, h4, h5⟩ ⟨g1, g2, g3, g4, g5⟩
    obtain ⟨rfl, rfl, e⟩ := start_unique h1 g1
    obtain ⟨rfl, e'⟩ := split_unique (fun x => ∃ v, HasDigit r x v) _ _ _ _ e (digits_all h2) (digits_all g2) (noDigit_head h3) (noDigit_head g3)
    obtain ⟨rfl, rfl⟩ := split_unique White _ _ _ _ e' h4 g4 (noWhite_head h5) (noWhite_head g5)
    rw [digits_unique h2 g2]

/-- C78. Radices below 0 and above 36. -/
theorem C78_illegal_radix {s : State} (h : Reached s) {v : Nat} {t : List UCS4} (hv : view s v = some t) (memo radix : Int)
    (hr : radix < 0 ∨ 36 < radix) : readInt s v memo radix = .ok ⟨0, errOf 5, 0⟩ := C31_illegal_radix h hv memo radix hr

/-- C78. So the call succeeds exactly if the text is a complete numeral with 1 to 2^63 - 1 as its absolute value (or 0),
and the value returned is then the number reduced to 32 bits: right exactly if it fits. -/
theorem C78_success {s : State} (h : Reached s) {v : Nat} {t : List UCS4} (hv : view s v = some t) (memo : Int) (h0 : 0 ≤ memo)
    (hm : memo < 20) (radix : Nat) (h36 : radix ≤ 36) (neg : Bool) (r : Nat) (ds : List UCS4) (vs : List Nat) (w rest : List UCS4)
    (hr : Reads radix t neg r ds vs w rest) :
    ((∃ x n, readInt s v memo radix = .ok ⟨x, 0#32, n⟩) ↔ ds ≠ [] ∧ rest = [] ∧ numeral r vs < 2 ^ 63) ∧
    (∀ x n, readInt s v memo radix = .ok ⟨x, 0#32, n⟩ →
      n = t.length ∧ (x = denotes neg (numeral r vs) ↔ -2 ^ 31 ≤ denotes neg (numeral r vs) ∧ denotes neg (numeral r vs) < 2 ^ 31)) := by
  have hl := digits_length hr.digits
  have hds : ds = [] ↔ vs = [] := by rw [← List.length_eq_zero_iff, hl, List.length_eq_zero_iff]
  rw [C78_exact h hv memo h0 hm radix h36 neg r ds vs w rest hr]
  have c1 : errOf 1 ≠ 0#32 := by decide
  have c2 : errOf 2 ≠ 0#32 := by decide
  have c3 : errOf 3 ≠ 0#32 := by decide
  have c4 : errOf 4 ≠ 0#32 := by decide
  unfold intOutcome
  simp only
  by_cases hv0 : vs = []
  · rw [if_pos hv0]
    have hd0 := hds.mpr hv0
    split
    · rename_i heq
      split at heq <;> cases heq <;> simp_all
    · rename_i heq
      split at heq <;> cases heq
  · rw [if_neg hv0]
    have hd0 : ds ≠ [] := fun h => hv0 (hds.mp h)
    by_cases hb : 2 ^ 64 ≤ numeral r vs
    · rw [if_pos hb]
      simp only [Except.ok.injEq, NumRes.mk.injEq, c3, false_and, and_false, exists_false, false_iff, false_implies, implies_true, and_true, not_and]
      intro _ _; omega
    · rw [if_neg hb]
      by_cases hu : neg = true ∧ numeral r vs = 2 ^ 63
      · rw [if_pos hu]
        simp only [reduceCtorEq, exists_false, false_iff, false_implies, implies_true, and_true, not_and]
        intro _ _; omega
      · rw [if_neg hu]
        simp only [Except.ok.injEq, NumRes.mk.injEq]
        by_cases h63 : 2 ^ 63 ≤ numeral r vs
        · rw [if_pos h63]
          simp only [c3, false_and, and_false, exists_false, false_iff, false_implies, implies_true, and_true, not_and]
          intro _ _; omega
        · rw [if_neg h63]
          by_cases hre : rest = []
          · rw [if_pos hre]
            refine ⟨⟨fun _ => ⟨hd0, hre, by omega⟩, fun _ => ⟨_, _, rfl, rfl, rfl⟩⟩, ?_⟩
            rintro x n ⟨rfl, -, rfl⟩
            refine ⟨by rw [hre]; rfl, ?_⟩
            show Int.bmod (denotes neg (numeral r vs)) (2 ^ 32) = _ ↔ _
            constructor
            · intro hx
              have l1 := Int.le_bmod (x := denotes neg (numeral r vs)) (m := 2 ^ 32) (by decide)
              have l2 := Int.bmod_lt (x := denotes neg (numeral r vs)) (m := 2 ^ 32) (by decide)
              rw [hx] at l1 l2
              omega
            · rintro ⟨l1, l2⟩
              exact bmod_of _ _ (by omega) (by omega) ⟨0, by omega⟩
          · rw [if_neg hre]
            simp only [c1, false_and, and_false, exists_false, false_iff, false_implies, implies_true, and_true, not_and]
            intro _ h; exact absurd h hre

/-! ### Non-vacuity: " -0x1F z" with radix 0, as in C31, and what the outcome of others is -/

example : intOutcome 8 true 16 [1, 15] [0x20#32] [0x7A#32] = some (-31, 1, 7) := by decide
example : intOutcome 10 false 10 [4, 2, 9, 4, 9, 6, 7, 2, 9, 7] [] [] = some (1, 0, 10) := by decide
example : intOutcome 1 false 10 [] [] [0x7A#32] = some (0, 4, 0) ∧ intOutcome 1 true 10 [] [] [] = some (0, 2, 1) := by decide
example : overAt 16 0 [15, 15, 15, 15, 15, 15, 15, 15, 15, 15, 15, 15, 15, 15, 15, 15, 0, 0] = 17 := by decide

example : ∃ neg r ds vs w rest, Reads 0 [0x20#32, 0x2D#32, 0x30#32, 0x78#32, 0x31#32, 0x46#32, 0x20#32, 0x7A#32] neg r ds vs w rest ∧
    readInt intSampleState 0 0 0 = (match intOutcome 8 neg r vs w rest with
      | some (x, e, n) => .ok ⟨x, errOf e, n⟩
      | none => .error .ub) := by
  obtain ⟨neg, r, ds, vs, w, rest, hr⟩ := (C78_unique 0 [0x20#32, 0x2D#32, 0x30#32, 0x78#32, 0x31#32, 0x46#32, 0x20#32, 0x7A#32]).1
  exact ⟨neg, r, ds, vs, w, rest, hr, C78_exact intSample_reached (by decide +kernel) 0 (by omega) (by omega) 0 (by omega) _ _ _ _ _ _ hr⟩

end Strpp.SV
