import Verif.Basic
/-! UTF-16 as the Unicode standard defines it, in arithmetic. -/
namespace Strpp.Spec

/-- A Unicode scalar value: below 0x110000 and not a surrogate. -/
def Scalar (ch : UCS4) : Prop := ch.toNat < 0x110000 ∧ ¬ (0xD800 ≤ ch.toNat ∧ ch.toNat < 0xE000)

/-- The code units of a scalar value. -/
def utf16Units (c : Nat) : List Nat :=
  if c < 0x10000 then [c] else [0xD800 + (c - 0x10000) / 0x400, 0xDC00 + (c - 0x10000) % 0x400]

/-- Exchange of the two bytes of a unit. -/
def swapBytes (x : Nat) : Nat := x % 256 * 256 + x / 256

@[reducible] def HighSurrogate (u : Nat) : Prop := 0xD800 ≤ u ∧ u < 0xDC00
@[reducible] def LowSurrogate (u : Nat) : Prop := 0xDC00 ≤ u ∧ u < 0xE000

end Strpp.Spec
