import Verif.Basic
/-! What operations on strings should give, on plain lists of characters. -/
namespace Strpp.Spec

/-- `transform`: `f` sees its own state and the characters that remain; it gives its new state, a replacement and how many
characters this replaces. Replacing none ends the transformation: what remains is kept. The final state comes with the
result. -/
def transformed {S : Type} (f : S → List UCS4 → S × List UCS4 × Nat) (st : S) (t : List UCS4) : S × List UCS4 :=
  if t = [] then (st, [])
  else
    if (f st t).2.2 = 0 then ((f st t).1, (f st t).2.1 ++ t)
    else ((transformed f (f st t).1 (t.drop (f st t).2.2)).1,
          (f st t).2.1 ++ (transformed f (f st t).1 (t.drop (f st t).2.2)).2)
termination_by t.length
decreasing_by
  all_goals
    rename_i h0 h
    have : 0 < t.length := List.length_pos_iff.mpr h0
    simp only [List.length_drop]; omega

/-- `transform` leaves the first `keep` characters alone. -/
def transformAfter {S : Type} (f : S → List UCS4 → S × List UCS4 × Nat) (st : S) (keep : Nat) (t : List UCS4) : List UCS4 :=
  t.take keep ++ (transformed f st (t.drop keep)).2

/-- `r` is the first index from `start` on, below `len`, with property `p`, or -1 if there is none. -/
def IsFirst (p : Nat → Prop) (start len : Nat) (r : Int) : Prop :=
  (∃ i : Nat, r = i ∧ start ≤ i ∧ i < len ∧ p i ∧ ∀ j, start ≤ j → j < i → ¬ p j) ∨
  (r = -1 ∧ ∀ j, start ≤ j → j < len → ¬ p j)

/-- `r` is the last index below `stop` with property `p`, or -1 if there is none. -/
def IsLast (p : Nat → Prop) (stop : Nat) (r : Int) : Prop :=
  (∃ i : Nat, r = i ∧ i < stop ∧ p i ∧ ∀ j, i < j → j < stop → ¬ p j) ∨
  (r = -1 ∧ ∀ j, j < stop → ¬ p j)

/-- `a` comes before `b` in the dictionary order of code points. -/
def CharsLt (a b : List UCS4) : Prop := a.map BitVec.toNat < b.map BitVec.toNat

end Strpp.Spec
