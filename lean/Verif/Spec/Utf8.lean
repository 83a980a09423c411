import Verif.Basic
/-!
Specification of UTF-8 as this library defines it (1 to 6 bytes, 6-byte form carrying 32 bits), in plain arithmetic on
the *list* of remaining bytes. Independent of the model of the code.
-/
namespace Strpp.Spec

/-- The reserved character values which stand for a byte that starts no character (and UCS4_NONE). -/
def Reserved (ch : UCS4) : Prop := (0x80000000 ≤ ch.toNat ∧ ch.toNat ≤ 0x800000FF) ∨ ch = 0xFFFFFFFF#32

instance (ch : UCS4) : Decidable (Reserved ch) := by unfold Reserved; infer_instance

/-- A continuation byte: 10xxxxxx -/
def isCont (b : Byte) : Bool := 128 ≤ b.toNat && b.toNat < 192

/-- For a byte which may begin a character: the number of continuation bytes it announces, and its payload. -/
def leadInfo (b : Byte) : Option (Nat × Nat) :=
  if b.toNat < 0x80 then some (0, b.toNat)
  else if b.toNat < 0xC0 then none
  else if b.toNat < 0xE0 then some (1, b.toNat - 0xC0)
  else if b.toNat < 0xF0 then some (2, b.toNat - 0xE0)
  else if b.toNat < 0xF8 then some (3, b.toNat - 0xF0)
  else if b.toNat < 0xFC then some (4, b.toNat - 0xF8)
  else some (5, b.toNat - 0xFC)

/-- Big-endian base-64 value of continuation bytes after a lead payload. -/
def contValue (v : Nat) (cs : List Byte) : Nat := cs.foldl (fun a c => a * 64 + (c.toNat - 128)) v

/-- The first character of a byte list and the number of bytes it takes. A byte that does not begin a complete
sequence is one character by itself: 0x80000000 + the byte. The end of the list ends any sequence. -/
def decode1 : List Byte → Option (UCS4 × Nat)
  | [] => none
  | b :: rest =>
    match leadInfo b with
    | none => some (BitVec.ofNat 32 (0x80000000 + b.toNat), 1)
    | some (n, v) =>
      if (rest.take n).length = n ∧ (rest.take n).all isCont then
        some (BitVec.ofNat 32 (contValue v (rest.take n)), n + 1)
      else some (BitVec.ofNat 32 (0x80000000 + b.toNat), 1)

/-- All characters of a byte list. -/
def decodeAll (bs : List Byte) : List UCS4 :=
  match decode1 bs with
  | none => []
  | some (ch, n) => if n = 0 ∨ bs = [] then [] else ch :: decodeAll (bs.drop n)
termination_by bs.length
decreasing_by
  rename_i h
  simp only [List.length_drop, not_or] at *
  have : 0 < bs.length := List.length_pos_iff.mpr h.2
  omega

end Strpp.Spec
