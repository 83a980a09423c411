import Verif.Basic
/-! What operations on strings of raw bytes should give, on plain lists of bytes. -/
namespace Strpp.Spec

/-- The character that stands for a raw byte: a byte from 128 up counts as negative, and gives a value from 0xFFFFFF80 up. -/
def charOf (b : Byte) : UCS4 := BitVec.ofNat 32 (if b.toNat < 128 then b.toNat else 4294967040 + b.toNat)

/-- `a` comes before `b` in the dictionary order of unsigned bytes. -/
def BytesLt (a b : List Byte) : Prop := a.map BitVec.toNat < b.map BitVec.toNat

/-- The part of `t` that `substr(at, len)` asks for; -1 asks for all the rest. -/
def part {α : Type} (t : List α) (at_ : Nat) (len : Int) : List α :=
  if len = -1 then t.drop at_ else (t.drop at_).take len.toNat

end Strpp.Spec
