import Verif.Spec.Utf16
/-! What the first character of any sequence of 16-bit units is. -/
namespace Strpp.Spec

/-- The first thing in a list of units. -/
inductive Unit16 where
  /-- a character of the Unicode standard, and the number of units it takes -/
  | char (c n : Nat)
  /-- a surrogate that is not the first of a pair (or not followed by a second one) -/
  | lone
  /-- the list ends before it is decided -/
  | short
deriving DecidableEq, Repr

def first16 : List Nat → Unit16
  | [] => .short
  | u :: rest =>
    if u < 0xD800 ∨ 0xE000 ≤ u then .char u 1
    else if 0xDC00 ≤ u then .lone
    else match rest with
      | [] => .short
      | v :: _ => if 0xDC00 ≤ v ∧ v < 0xE000 then .char (0x10000 + (u - 0xD800) * 0x400 + (v - 0xDC00)) 2 else .lone

end Strpp.Spec
