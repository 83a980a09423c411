import Verif.Spec.Rx
/-!
How large the compiled form of a regular expression is, and what it means to be the match that is reported. Independent
of the compiler and the matcher.
-/
namespace Strpp.Spec

/-- The bytes of a character in UTF-8 -/
def charSize (c : UCS4) : Nat :=
  if c.toNat < 0x80 then 1 else if c.toNat < 0x800 then 2 else if c.toNat < 0x10000 then 3
  else if c.toNat < 0x200000 then 4 else if c.toNat < 0x4000000 then 5 else 6

/-- A text of `n` bytes, with its length in front (of one byte below 128, of two below 2048) -/
def textSize (n : Nat) : Nat := n + if n < 128 then 1 else 2

/-- The bytes of the characters in brackets: both ends of every range -/
def rangesSize : List (UCS4 × UCS4) → Nat
  | [] => 0
  | r :: rs => charSize r.1 + charSize r.2 + rangesSize rs

/-- The bytes of a counted repetition, without offsets: `{0,}` is a `*`, `{1,}` a `+` and `{0,1}` a `?` -/
def repCode (mn : Nat) (mx : Option Nat) : Nat :=
  if mn = 0 ∧ mx = none then 2 else if mn = 0 ∧ mx = some 1 then 1 else if mn = 1 ∧ mx = none then 1 else 4

/-- The bytes of the compiled form of `r`, without the offsets in it -/
def Re.codeSize : Re → Nat
  | .empty => 0
  | .chr _ c => 1 + charSize c
  | .any | .bol | .eol => 1
  | .cls _ _ rs => 1 + textSize (rangesSize rs)
  | .prop .. => 3
  | .seq a b => a.codeSize + b.codeSize
  | .alt a b => a.codeSize + 2 + b.codeSize
  | .star a => a.codeSize + 2
  | .plus a | .opt a => a.codeSize + 1
  | .rep _ mn mx a => a.codeSize + repCode mn mx
  | .grp _ a => a.codeSize

/-- The number of offsets in it -/
def Re.offsets : Re → Nat
  | .seq a b => a.offsets + b.offsets
  | .alt a b => a.offsets + 2 + b.offsets
  | .star a => a.offsets + 2
  | .plus a | .opt a => a.offsets + 1
  | .rep _ mn mx a => a.offsets + if mn = 0 ∧ mx = none then 2 else 1
  | .grp _ a => a.offsets
  | _ => 0

/-- What the compiler reserves for `r` at most -/
def Re.weight : Re → Nat
  | .empty => 0
  | .chr _ c => 2 + charSize c
  | .any | .bol | .eol => 1
  | .cls _ _ rs => 1 + textSize (rangesSize rs)
  | .prop .. => 3
  | .seq a b => a.weight + b.weight
  | .alt a b => a.weight + 15 + b.weight
  | .star a => a.weight + 10
  | .plus a | .opt a => a.weight + 5
  | .rep _ mn mx a => a.weight + (repCode mn mx + 4 * if mn = 0 ∧ mx = none then 2 else 1)
  | .grp _ a => a.weight + 1

/-- By how much the threads that are counted for the least numbers in braces exceed the bytes -/
def Re.excess : Re → Nat
  | .seq a b | .alt a b => a.excess + b.excess
  | .star a | .plus a | .opt a | .grp _ a => a.excess
  | .rep _ mn _ a => a.excess + (mn - 4)
  | _ => 0

/-- How deep parentheses are nested -/
def Re.nesting : Re → Nat
  | .seq a b | .alt a b => max a.nesting b.nesting
  | .star a | .plus a | .opt a | .rep _ _ _ a => a.nesting
  | .grp _ a => a.nesting + 1
  | _ => 0

/-- `c` to `j` is a match in the text at or after `off`, with no NUL between `off` and it -/
structure MatchFrom (t : List UCS4) (r : Re) (off c j : Nat) : Prop where
  after : off ≤ c
  inside : c ≤ t.length
  noNul : ∀ m, off ≤ m → m < c → t[m]? ≠ some 0#32
  matches_ : Matches t r c j

/-- Of all matches `M`, the leftmost; and if several begin there, the longest of them -/
structure LeftmostLongest (M : Nat → Nat → Prop) (c j : Nat) : Prop where
  isMatch : M c j
  leftmost : ∀ c' j', M c' j' → c ≤ c'
  longest : ∀ j', M c j' → j' ≤ j

end Strpp.Spec
