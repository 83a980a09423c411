import Verif.Spec.Utf8Back
/-!
Specification of text in arbitrary bytes: which texts can be searched safely, and in which every character is found.
Independent of the model of the code.
-/
namespace Strpp.Spec

/-- the byte where character `k` begins -/
def spos (cs : List (UCS4 × Nat)) (k : Nat) : Nat := ((cs.take k).map Prod.snd).sum

/-- no byte announces more bytes than there are up to the end, one terminating NUL included -/
def Tame (bs : List Byte) : Prop :=
  ∀ (p : Nat) (b : Byte) (k v : Nat), bs[p]? = some b → leadInfo b = some (k, v) → p + k ≤ bs.length

/-- no character is a lone continuation byte that continues a sequence begun before it -/
def Unbroken (bs : List Byte) (cs : List (UCS4 × Nat)) : Prop :=
  ∀ k, k < cs.length → ¬ ∃ q, q < spos cs k ∧ Begins bs q (spos cs k + 1)

/-- texts in which every character is found from both sides; or every byte is a character, and nothing has to be searched -/
def Fine (bs : List Byte) (cs : List (UCS4 × Nat)) : Prop := (Tame bs ∧ Unbroken bs cs) ∨ cs.length = bs.length

end Strpp.Spec
