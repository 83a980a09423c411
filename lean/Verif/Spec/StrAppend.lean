import Verif.Spec.StrSlice
/-!
Words for C104. Independent of the proofs.
-/
namespace Strpp.SV
open Spec

/-- `v` shows all of its storage, which holds the text `t`; it has no bookmark (0), or one not behind its end -/
def WholeText (s : State) (v : Nat) (t : List UCS4) : Prop :=
  ∃ σ, getStr s v = .ok σ ∧ decodeAll σ.b.arr.elems.dropLast = t ∧ σ.off = 0 ∧ σ.num = t.length ∧ σ.mark.cn ≤ t.length

/-- the number of characters in the storage of `v` is known -/
def Counted (s : State) (v : Nat) : Prop := ∃ σ, getStr s v = .ok σ ∧ σ.b.nc ≠ 0

/-- someone else refers to the storage of `v`, or it is borrowed -/
def SharedVar (s : State) (v : Nat) : Prop := ∃ x, s.vars[v]? = some (some x) ∧ refCount s x.body > 1

/-- `v` is on borrowed data (a literal) -/
def Borrowed (s : State) (v : Nat) : Prop := ∃ σ, getStr s v = .ok σ ∧ σ.b.isStatic = true

end Strpp.SV
