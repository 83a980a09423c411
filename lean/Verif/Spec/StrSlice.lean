import Verif.Spec.StrHistory
/-!
Specification of what changes a string that is a part of storage which it alone refers to. Independent of the proofs.
-/
namespace Strpp.SV
open Spec

/-- `v` alone refers to its storage; the storage holds the text `pre ++ t ++ post`, of which `v` is `t` -/
def Alone (s : State) (v : Nat) (pre t post : List UCS4) : Prop :=
  ∃ (x : Var) (b : SBody), s.vars[v]? = some (some x) ∧ s.bodies[x.body]? = some b ∧ refCount s x.body ≤ 1 ∧
    decodeAll b.arr.elems.dropLast = pre ++ t ++ post ∧ x.off = pre.length ∧ x.num = t.length

/-- the `length()` of `v` -/
def lengthOf (s : State) (v : Nat) : Option Nat :=
  match s.vars[v]? with
  | some (some x) => some x.num
  | _ => none

end Strpp.SV
