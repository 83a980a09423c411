import Verif.Spec.StrVal
import Verif.Model.StrKeys
/-!
What a map from texts to values is, for C100.
-/
namespace Strpp.Spec

/-- A map from texts to values. -/
abbrev TextMap (V : Type) := List UCS4 → Option V

/-- `map[q] = v` -/
def TextMap.put {V : Type} (m : TextMap V) (q : List UCS4) (v : V) : TextMap V :=
  fun u => if u = q then some v else m u

/-- insertion, which keeps a value that is there -/
def TextMap.insert {V : Type} (m : TextMap V) (q : List UCS4) (v : V) : TextMap V :=
  fun u => if u = q then some ((m q).getD v) else m u

/-- removal -/
def TextMap.erase {V : Type} (m : TextMap V) (q : List UCS4) : TextMap V :=
  fun u => if u = q then none else m u

end Strpp.Spec

namespace Strpp.SV

open Spec

variable {V : Type}

/-- the map a call makes of a map -/
def KOp.apply (op : KOp V) (u : List UCS4) (m : TextMap V) : TextMap V :=
  match op with
  | .put _ v => m.put u v
  | .insert _ v => m.insert u v
  | .erase _ => m.erase u

/-- the map a run of calls makes -/
def KOp.applyAll (text : Nat → List UCS4) : List (KOp V) → TextMap V → TextMap V
  | [], m => m
  | op :: ops, m => KOp.applyAll text ops (op.apply (text op.key) m)

end Strpp.SV
