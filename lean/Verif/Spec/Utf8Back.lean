import Verif.Spec.Utf8
/-!
Specification of moving backwards in arbitrary bytes, and of the fewest bytes a character can be written in.
Independent of the model of the code.
-/
namespace Strpp.Spec

/-- The bytes of `m` from `q` up to, but not including, `e` are the beginning (or all) of one character: a byte that
announces at least as many bytes as there are, followed by continuation bytes only. -/
def Begins (m : List Byte) (q e : Nat) : Prop :=
  q < e ∧ (∃ b k v, m[q]? = some b ∧ leadInfo b = some (k, v) ∧ e - q ≤ k + 1) ∧
    ∀ i : Nat, q < i → i < e → ∃ c, m[i]? = some c ∧ isCont c = true

/-- The fewest bytes that a character needs; the stand-ins for single bytes (and UCS4_NONE) take one. -/
def width (ch : UCS4) : Nat :=
  if (0x80000000 ≤ ch.toNat ∧ ch.toNat ≤ 0x800000FF) ∨ ch.toNat = 0xFFFFFFFF then 1
  else if ch.toNat < 0x80 then 1
  else if ch.toNat < 0x800 then 2
  else if ch.toNat < 0x10000 then 3
  else if ch.toNat < 0x200000 then 4
  else if ch.toNat < 0x4000000 then 5
  else 6

/-- The bytes cut into characters: `Cut bs cs` lists each character with the number of bytes it was written in. -/
inductive Cut : List Byte → List (UCS4 × Nat) → Prop where
  | nil : Cut [] []
  | cons {bs : List Byte} {ch : UCS4} {n : Nat} {cs : List (UCS4 × Nat)} :
      decode1 bs = some (ch, n) → Cut (bs.drop n) cs → Cut bs ((ch, n) :: cs)

end Strpp.Spec
