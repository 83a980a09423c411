import Verif.Model.MapPar
import Verif.Spec.CowMap
/-! What a program that uses CowMaps in several threads expects: each CowMap variable has a value of its own, a finite map. -/
namespace Strpp.MapPar.Spec
open RC (Job)
open CM (FMap)

variable {K V : Type} [DecidableEq K]

/-- The value of a CowMap. `sole`: the map was made, cleared or changed since it was last copied from or to another one
(the others must not be given a new value for a key they have: C86_sole_needed). -/
structure Val (K V : Type) where
  items : FMap K V
  sole : Bool

/-- The variables in the order of their construction: `none` once the variable is gone -/
abbrev View (K V : Type) := List (Option (Val K V))

/-- the value of variable `v` -/
def View.at (A : View K V) (v : Nat) : Val K V := (A[v]?.getD none).getD ⟨FMap.empty, false⟩

/-- a key that is there keeps its value -/
def inserted (m : FMap K V) (k : K) (x : V) : FMap K V := if (m k).isSome then m else m.update k (some x)

/-- The effect of a call on the values, as if CowMaps were plain finite maps -/
def View.call (A : View K V) : Call K V → View K V
  | .default => A ++ [some ⟨FMap.empty, true⟩]
  | .ofPairs es => A ++ [some ⟨FMap.ofPairs es, true⟩]
  | .copy w => A.set w (some ⟨(A.at w).items, false⟩) ++ [some ⟨(A.at w).items, false⟩]
  | .assign v w => (A.set w (some ⟨(A.at w).items, false⟩)).set v (some ⟨(A.at w).items, false⟩)
  | .destroy v => A.set v none
  | .clear v => A.set v (some ⟨FMap.empty, true⟩)
  | .insert v k x => A.set v (some ⟨inserted (A.at v).items k x, true⟩)
  | .remove v k => A.set v (some ⟨(A.at v).items.update k none, true⟩)
  | .put v k x => A.set v (some ⟨(A.at v).items.update k (some x), true⟩)

/-- the variable has been constructed and not destroyed -/
def Exists (A : View K V) (v : Nat) : Prop := ∃ x, A[v]? = some (some x)

/-- no call in progress writes variable `v` -/
def Readable (s : State K V) (v : Nat) : Prop := ∀ x ∈ s.work, x.1.writes ≠ some v

/-- no call in progress uses variable `v` -/
def Idle (s : State K V) (v : Nat) : Prop := ∀ x ∈ s.work, x.1.writes ≠ some v ∧ x.1.reads ≠ some v

/-- The calls of a correct program: the variables used have been constructed and not destroyed, no other thread is writing
a variable that is read nor using one that is written, and `put` gives a new value to a key that is there only in a map
that is not a copy. -/
def Legal (s : State K V) (A : View K V) : Call K V → Prop
  | .default | .ofPairs _ => True
  | .copy w => Exists A w ∧ Readable s w
  | .assign v w => Exists A w ∧ Exists A v ∧ Readable s w ∧ Idle s v
  | .destroy v | .clear v | .insert v _ _ | .remove v _ => Exists A v ∧ Idle s v
  | .put v k _ => Exists A v ∧ Idle s v ∧ (((A.at v).items k).isNone ∨ (A.at v).sole = true)

/-- The states of a program, with the values it expects its variables to have: calls are started, at any time, by any
thread, and the calls in progress make their steps in any order. -/
inductive History (lt : K → K → Bool) : State K V → View K V → Prop
  | start : History lt init []
  | call {s s' : State K V} {A : View K V} (c : Call K V) : History lt s A → Legal s A c → start s c = .ok s' → History lt s' (A.call c)
  | tick {s s' : State K V} {A : View K V} (i : Nat) : History lt s A → tick lt s i = .ok s' → History lt s' A

/-- The call is about to write (or free) the entries of body `o` -/
def Writes : Job × Task K V → Nat → Prop
  | (⟨_, _, .write _ o⟩, .write (_ :: _)), o' => o' = o
  | (⟨_, _, .addRef _ o⟩, .copying _ _ _), o' => o' = o
  | (⟨_, _, .unshare _ o⟩, .erase _ _), o' => o' = o
  | (⟨_, _, .del o⟩, _), o' => o' = o
  | _, _ => False

/-- The call is about to read the entries of body `o` -/
def Reads : Job × Task K V → Nat → Prop
  | (⟨_, _, .addRef _ _⟩, .copying _ o _), o' => o' = o
  | (⟨_, _, .unshare _ o⟩, .look _ _), o' => o' = o
  | _, _ => False

end Strpp.MapPar.Spec
