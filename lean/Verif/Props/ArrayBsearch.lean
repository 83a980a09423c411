import Verif.Props.Array
import Verif.Spec.Bsearch
/-! Property C77: what binary search of an array does, exactly (include/array.h:413-430). -/
namespace Strpp.Arr
open Spec

variable {E : Type} [Inhabited E]

/-- The slice of `num` elements from `off` on is sorted for the comparator, and what is searched for is at place `t / 2`
(`t` even), or between places (`t` odd). -/
def SortedAround (cmp : E → Int) (mem : List E) (off num : Nat) (t : Int) : Prop :=
  ∀ (i : Nat), i < num → ∃ x, mem[off + i]? = some x ∧ ((2 * (i : Int) < t → cmp x < 0) ∧ (2 * (i : Int) = t → cmp x = 0) ∧ (t < 2 * (i : Int) → 0 < cmp x))

theorem mid_bounds {l r : Nat} (h : l < r) : l < midPlace l r ∧ midPlace l r ≤ r ∧ (midPlace l r = r → r = l + 1) := by
  unfold midPlace; omega

theorem looks_bounds {t : Int} {l r m : Nat} (h : Looks t l r m) : l < m ∧ m ≤ r := by
  induction h with
  | here h => have := mid_bounds h; omega
  | left h _ _ ih => have := mid_bounds h; omega
  | right h _ _ ih => have := mid_bounds h; omega

theorem looks_inv {t : Int} {l r m : Nat} (h : Looks t l r m) : l < r ∧ (m = midPlace l r ∨
    (t < 2 * midPlace l r ∧ Looks t l (midPlace l r - 1) m) ∨ (2 * midPlace l r < t ∧ Looks t (midPlace l r + 1) r m)) := by
  cases h with
  | here h => exact ⟨h, Or.inl rfl⟩
  | left h a b => exact ⟨h, Or.inr (Or.inl ⟨a, b⟩)⟩
  | right h a b => exact ⟨h, Or.inr (Or.inr ⟨a, b⟩)⟩

theorem bsearch_step (cmp : E → Int) (mem : List E) (off fuel l r : Nat) (hlr : l < r) (hr : r < 2147483648) (x : E)
    (hx : mem[off + midPlace l r]? = some x) :
    bsearchLoop cmp mem off (fuel + 1) l r =
      if cmp x = 0 then .ok (midPlace l r : Int) else if 0 < cmp x then bsearchLoop cmp mem off fuel l (midPlace l r - 1)
      else bsearchLoop cmp mem off fuel (midPlace l r + 1) r := by
  have hm := mid_bounds hlr
  have hw : wrap ((midPlace l r : Int) - 1) = midPlace l r - 1 := by unfold wrap; omega
  have hti : toInt (midPlace l r) = (midPlace l r : Int) := by unfold toInt; rw [if_pos (by omega)]
  have e : l + (r - l + 1) / 2 = midPlace l r := rfl
  simp only [bsearchLoop]
  rw [if_pos hlr, e, rd_eq_ok.mpr hx, res_bind_ok, hw, hti]
  by_cases h0 : cmp x = 0
  · rw [if_pos h0, if_pos (by simpa using h0)]
  · rw [if_neg h0, if_neg (by simpa using h0)]

theorem bsearch_end (cmp : E → Int) (mem : List E) (off fuel l r : Nat) (h : r ≤ l) :
    bsearchLoop cmp mem off (fuel + 1) l r = .ok (-1) := by
  simp only [bsearchLoop]
  rw [if_neg (by omega)]

theorem bsearch_key (cmp : E → Int) (mem : List E) (off num : Nat) (t : Int) (hn : num < 2147483648)
    (hs : SortedAround cmp mem off num t) : ∀ (fuel l r : Nat), r ≤ num → r < l + fuel ∨ r < l → 0 < fuel →
    ((¬ Looks t l r num → ∀ k : Nat, t = 2 * (k : Int) → Looks t l r k → bsearchLoop cmp mem off fuel l r = .ok (k : Int)) ∧
    (¬ Looks t l r num → (∀ k : Nat, t = 2 * (k : Int) → ¬ Looks t l r k) → bsearchLoop cmp mem off fuel l r = .ok (-1)) ∧
    (Looks t l r num → mem.length ≤ off + num → bsearchLoop cmp mem off fuel l r = .error .ub) ∧
    (Looks t l r num → ∀ y, mem[off + num]? = some y → bsearchLoop cmp mem off fuel l r = .ok (if cmp y = 0 then (num : Int) else -1))) ∨
    (t = 2 * (num : Int)) := by
  intro fuel
  induction fuel with
  | zero => intro l r _ _ h; omega
  | succ fuel ih =>
    intro l r hr hf _
    by_cases ht : t = 2 * (num : Int)
    · exact Or.inr ht
    left
    rcases Nat.lt_or_ge l r with hlr | hge
    · have hm := mid_bounds hlr
      by_cases hmn : midPlace l r = num
      · -- the place after the last
        have hrn : r = num := by omega
        have hl1 := hm.2.2 (by omega)
        have hL : Looks t l r num := by rw [← hmn]; exact .here hlr
        refine ⟨fun h => absurd hL h, fun h => absurd hL h, fun _ hlen => ?_, fun _ y hy => ?_⟩
        · simp only [bsearchLoop]
          have e : l + (r - l + 1) / 2 = midPlace l r := rfl
          rw [if_pos hlr, e, hmn]
          have : rd mem (off + num) = .error .ub := by unfold rd; rw [List.getElem?_eq_none hlen]
          rw [this]; rfl
        · rw [bsearch_step cmp mem off fuel l r hlr (by omega) y (by rw [hmn]; exact hy), hmn]
          by_cases h0 : cmp y = 0
          · rw [if_pos h0, if_pos h0]
          · rw [if_neg h0, if_neg h0]
            obtain ⟨g, rfl⟩ : ∃ g, fuel = g + 1 := ⟨fuel - 1, by omega⟩
            split
            · exact bsearch_end _ _ _ _ _ _ (by omega)
            · exact bsearch_end _ _ _ _ _ _ (by omega)
      · have hmlt : midPlace l r < num := by omega
        obtain ⟨x, hx, c1, c2, c3⟩ := hs (midPlace l r) hmlt
        have hstep := bsearch_step cmp mem off fuel l r hlr (by omega) x hx
        rcases Int.lt_trichotomy t (2 * (midPlace l r : Int)) with hlt | heq | hgt
        · -- to the left
          have hc := c3 hlt
          rw [if_neg (by omega), if_pos hc] at hstep
          have hiff : ∀ m, m ≠ midPlace l r → (Looks t l r m ↔ Looks t l (midPlace l r - 1) m) := by
            intro m hm'
            constructor
            · intro h
              rcases (looks_inv h).2 with h | ⟨-, h⟩ | ⟨h, -⟩
              · exact absurd h hm'
              · exact h
              · omega
            · intro h; exact .left hlr hlt h
          have hnum : Looks t l r num ↔ Looks t l (midPlace l r - 1) num := hiff num (fun h => hmn h.symm)
          obtain ⟨g, rfl⟩ : ∃ g, fuel = g + 1 := ⟨fuel - 1, by omega⟩
          rcases ih l (midPlace l r - 1) (by omega) (by omega) (by omega) with ⟨i1, i2, i3, i4⟩ | h
          · rw [hstep]
            refine ⟨fun hno k hk hL => ?_, fun hno hno2 => ?_, fun hL => i3 (hnum.1 hL), fun hL => i4 (hnum.1 hL)⟩
            · exact i1 (fun h => hno (hnum.2 h)) k hk ((hiff k (by rintro rfl; omega)).1 hL)
            · refine i2 (fun h => hno (hnum.2 h)) (fun k hk hL => hno2 k hk ((hiff k (by rintro rfl; omega)).2 hL))
          · exact absurd h ht
        · -- found
          have hc := c2 heq.symm
          rw [if_pos hc] at hstep
          have hmid : ∀ m, Looks t l r m → m = midPlace l r := by
            intro m h
            rcases (looks_inv h).2 with h | ⟨h, -⟩ | ⟨h, -⟩
            · exact h
            · omega
            · omega
          have hL : Looks t l r (midPlace l r) := .here hlr
          have hnn : ¬ Looks t l r num := fun h => hmn (hmid num h).symm
          refine ⟨fun _ k hk _ => ?_, fun _ hno2 => ?_, fun h => absurd h hnn, fun h => absurd h hnn⟩
          · have : k = midPlace l r := by omega
            rw [hstep, this]
          · exact absurd hL (hno2 _ heq)
        · -- to the right
          have hc := c1 hgt
          rw [if_neg (by omega), if_neg (by omega)] at hstep
          have hiff : ∀ m, m ≠ midPlace l r → (Looks t l r m ↔ Looks t (midPlace l r + 1) r m) := by
            intro m hm'
            constructor
            · intro h
              rcases (looks_inv h).2 with h | ⟨h, -⟩ | ⟨-, h⟩
              · exact absurd h hm'
              · omega
              · exact h
            · intro h; exact .right hlr hgt h
          have hnum : Looks t l r num ↔ Looks t (midPlace l r + 1) r num := hiff num (fun h => hmn h.symm)
          obtain ⟨g, rfl⟩ : ∃ g, fuel = g + 1 := ⟨fuel - 1, by omega⟩
          rcases ih (midPlace l r + 1) r (by omega) (by omega) (by omega) with ⟨i1, i2, i3, i4⟩ | h
          · rw [hstep]
            refine ⟨fun hno k hk hL => ?_, fun hno hno2 => ?_, fun hL => i3 (hnum.1 hL), fun hL => i4 (hnum.1 hL)⟩
            · exact i1 (fun h => hno (hnum.2 h)) k hk ((hiff k (by rintro rfl; omega)).1 hL)
            · refine i2 (fun h => hno (hnum.2 h)) (fun k hk hL => hno2 k hk ((hiff k (by rintro rfl; omega)).2 hL))
          · exact absurd h ht
    · have hno : ∀ m, ¬ Looks t l r m := by
        intro m h; have := (looks_inv h).1; omega
      refine ⟨fun _ k _ h => absurd h (hno k), fun _ _ => bsearch_end _ _ _ _ _ _ hge, fun h => absurd h (hno _),
        fun h => absurd h (hno _)⟩

/-- C77. Binary search of a sorted slice for what is at place `k` returns `k` exactly if `k` is among the places it looks
at; otherwise -1 — unless the search looks at the place after the slice, see the next theorem. -/
theorem C77_present (cmp : E → Int) (mem : List E) (off num k : Nat) (hn : num < 2147483648) (hk : k < num)
    (hs : SortedAround cmp mem off num (2 * (k : Int))) (hend : ¬ Looks (2 * (k : Int)) 0 num num) :
    (Looks (2 * (k : Int)) 0 num k → bsearch cmp mem off num = .ok (k : Int)) ∧
    (¬ Looks (2 * (k : Int)) 0 num k → bsearch cmp mem off num = .ok (-1)) := by
  rcases bsearch_key cmp mem off num (2 * (k : Int)) hn hs (num + 1) 0 num (Nat.le_refl _) (by omega) (by omega) with ⟨i1, i2, -, -⟩ | h
  · refine ⟨fun h => i1 hend k rfl h, fun h => i2 hend (fun k' hk' => ?_)⟩
    have : k' = k := by omega
    rw [this]; exact h
  · omega

/-- C77. For what is not in the slice (`t` odd) it returns -1, unless it looks at the place after the slice. -/
theorem C77_absent (cmp : E → Int) (mem : List E) (off num : Nat) (t : Int) (hn : num < 2147483648) (ht : t % 2 = 1)
    (hs : SortedAround cmp mem off num t) (hend : ¬ Looks t 0 num num) : bsearch cmp mem off num = .ok (-1) := by
  rcases bsearch_key cmp mem off num t hn hs (num + 1) 0 num (Nat.le_refl _) (by omega) (by omega) with ⟨-, i2, -, -⟩ | h
  · exact i2 hend (fun k hk => by omega)
  · omega

/-- C77. Whenever it looks at the place after the slice, that is outside of the storage if the storage ends there;
otherwise the element that lies there, not part of the array, is compared, and if it compares equal the index returned is
the length of the array. -/
theorem C77_past_end (cmp : E → Int) (mem : List E) (off num : Nat) (t : Int) (hn : num < 2147483648) (ht : t ≠ 2 * (num : Int))
    (hs : SortedAround cmp mem off num t) (hend : Looks t 0 num num) :
    (mem.length ≤ off + num → bsearch cmp mem off num = .error .ub) ∧
    (∀ y, mem[off + num]? = some y → bsearch cmp mem off num = .ok (if cmp y = 0 then (num : Int) else -1)) := by
  rcases bsearch_key cmp mem off num t hn hs (num + 1) 0 num (Nat.le_refl _) (by omega) (by omega) with ⟨-, -, i3, i4⟩ | h
  · exact ⟨i3 hend, i4 hend⟩
  · exact absurd h ht

/-- C77. The first element is never found. -/
theorem C77_never_first (cmp : E → Int) (mem : List E) (off num : Nat) (hn : num < 2147483648) (h0 : 0 < num)
    (hs : SortedAround cmp mem off num 0) (hend : ¬ Looks 0 0 num num) : bsearch cmp mem off num = .ok (-1) :=
  (C77_present cmp mem off num 0 hn h0 hs hend).2 (fun h => by have := looks_bounds h; omega)

/-- C77. Searching for something greater than all elements looks past the end exactly for the lengths 1, 4, 5, 10 to 13,
22 to 29, 46 to 61 and so on: from 3·2^j - 2 to 4·2^j - 3. -/
theorem C77_greater_than_all (num : Nat) :
    Looks (2 * (num : Int) - 1) 0 num num ↔ ∃ j, 3 * 2 ^ j ≤ num + 2 ∧ num + 3 ≤ 4 * 2 ^ j := by
  have key : ∀ (d l : Nat), l + d = num → (Looks (2 * (num : Int) - 1) l num num ↔ ∃ j, 3 * 2 ^ j ≤ d + 2 ∧ d + 3 ≤ 4 * 2 ^ j) := by
    intro d
    induction d using Nat.strongRecOn with
    | ind d ih =>
      intro l hl
      constructor
      · intro h
        obtain ⟨hlt, hc⟩ := looks_inv h
        have hm := mid_bounds hlt
        rcases hc with hc | ⟨hc, h'⟩ | ⟨hc, h'⟩
        · have := hm.2.2 hc.symm
          exact ⟨0, by omega, by omega⟩
        · have := looks_bounds h'; omega
        · have hb := looks_bounds h'
          have hmv : midPlace l num = l + (num - l + 1) / 2 := rfl
          obtain ⟨j, h1, h2⟩ := (ih (num - (midPlace l num + 1)) (by omega) (midPlace l num + 1) (by omega)).1 h'
          refine ⟨j + 1, ?_, ?_⟩ <;> rw [Nat.pow_succ] <;> omega
      · rintro ⟨j, h1, h2⟩
        cases j with
        | zero =>
          have : d = 1 := by omega
          have hlt : l < num := by omega
          have : midPlace l num = num := by unfold midPlace; omega
          have h := Looks.here (t := 2 * (num : Int) - 1) hlt
          rwa [this] at h
        | succ j =>
          rw [Nat.pow_succ] at h1 h2
          have hpos : 0 < 2 ^ j := Nat.pow_pos (by omega)
          have hlt : l < num := by omega
          have hmv : midPlace l num = l + (num - l + 1) / 2 := rfl
          have hr := (ih (num - (midPlace l num + 1)) (by omega) (midPlace l num + 1) (by omega)).2 ⟨j, by omega, by omega⟩
          exact .right hlt (by omega) hr
  exact key num 0 (by omega)

-- seven elements: those at places 1, 4, 5 and 7 ... of which 4 is looked at first
example : SortedAround (fun x : Nat => (x : Int) - 40) [10, 20, 30, 40, 50, 60, 70] 0 7 (2 * ((3 : Nat) : Int)) := by
  intro i hi
  have hc : ∀ j : Fin 7, ∃ x, ([10, 20, 30, 40, 50, 60, 70] : List Nat)[0 + j.1]? = some x ∧
      ((2 * (j.1 : Int) < 2 * ((3 : Nat) : Int) → ((x : Int) - 40) < 0) ∧ (2 * (j.1 : Int) = 2 * ((3 : Nat) : Int) → ((x : Int) - 40) = 0) ∧
        (2 * ((3 : Nat) : Int) < 2 * (j.1 : Int) → 0 < ((x : Int) - 40))) := by
    intro j
    match j with
    | 0 => exact ⟨10, rfl, by decide⟩
    | 1 => exact ⟨20, rfl, by decide⟩
    | 2 => exact ⟨30, rfl, by decide⟩
    | 3 => exact ⟨40, rfl, by decide⟩
    | 4 => exact ⟨50, rfl, by decide⟩
    | 5 => exact ⟨60, rfl, by decide⟩
    | 6 => exact ⟨70, rfl, by decide⟩
  exact hc ⟨i, hi⟩
-- and 40, at place 3, is missed
example : bsearch (fun x : Nat => (x : Int) - 40) [10, 20, 30, 40, 50, 60, 70] 0 7 = .ok (-1) ∧
    bsearch (fun x : Nat => (x : Int) - 50) [10, 20, 30, 40, 50, 60, 70] 0 7 = .ok 4 ∧
    bsearch (fun x : Nat => (x : Int) - 99) [10, 20, 30, 40] 0 4 = .error .ub := by decide

end Strpp.Arr
