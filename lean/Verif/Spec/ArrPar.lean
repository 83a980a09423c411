import Verif.Model.ArrPar
/-! What a program that uses Arrays in several threads expects: each Array variable has a value of its own, a list. -/
namespace Strpp.ArrPar.Spec
open RC (Job)

variable {E : Type} [Inhabited E]

/-- The value of an Array. `front`: neither the Array nor one it was copied from was made by cutting elements off the start
of another (such Arrays must not be grown or have elements removed from their middle: C19_refuted_push,
C19_refuted_remove). -/
structure Val (E : Type) where
  items : List E
  front : Bool
deriving DecidableEq, Repr

/-- The variables in the order of their construction: `none` once the variable is gone -/
abbrev View (E : Type) := List (Option (Val E))

/-- the value of variable `v` -/
def View.at (V : View E) (v : Nat) : Val E := (V[v]?.getD none).getD ⟨[], true⟩

/-- does removing `len` elements at `i` cut off the start, but not all? -/
def cutsStart (l : List E) (i len : Nat) : Bool := i == 0 && 0 < len && len < l.length

/-- The effect of a call on the values, as if Arrays were plain lists -/
def View.call (V : View E) : Call E → View E
  | .default => V ++ [some ⟨[], true⟩]
  | .ofData data _ => V ++ [some ⟨data, true⟩]
  | .copy w => V ++ [some (V.at w)]
  | .assign v w => V.set v (some (V.at w))
  | .destroy v => V.set v none
  | .slice w i len => V ++ [some ⟨((V.at w).items.drop i).take len, (V.at w).front && i == 0⟩]
  | .clear v => V.set v (some ⟨[], (V.at v).front⟩)
  | .remove v i len => V.set v (some ⟨(V.at v).items.take i ++ (V.at v).items.drop (i + len), (V.at v).front && !cutsStart (V.at v).items i len⟩)
  | .set v i e => V.set v (some ⟨(V.at v).items.set i e, (V.at v).front⟩)
  | .push v e => V.set v (some ⟨(V.at v).items ++ [e], (V.at v).front⟩)

/-- the variable has been constructed and not destroyed -/
def Exists (V : View E) (v : Nat) : Prop := ∃ x, V[v]? = some (some x)

/-- no call in progress writes variable `v` -/
def Readable (s : State E) (v : Nat) : Prop := ∀ x ∈ s.work, x.1.writes ≠ some v

/-- no call in progress uses variable `v` -/
def Idle (s : State E) (v : Nat) : Prop := ∀ x ∈ s.work, x.1.writes ≠ some v ∧ x.1.reads ≠ some v

/-- there is room for one element more than any body has -/
def Roomy (s : State E) : Prop := ∀ b ∈ s.bodies, b.num + 1 ≤ 2147483647

/-- The calls of a correct program: the variables used have been constructed and not destroyed, no other thread is writing
a variable that is read nor using one that is written, the indices are in range, slices end before the end of the Array
(C19_refuted_slice), and only Arrays that are not rests of others are grown or have elements removed from the middle. -/
def Legal (s : State E) (V : View E) : Call E → Prop
  | .default => True
  | .ofData data allocate => data.length ≤ 2147483647 ∧ allocate ≤ 2147483647
  | .copy w => Exists V w ∧ Readable s w
  | .assign v w => Exists V w ∧ Exists V v ∧ Readable s w ∧ Idle s v
  | .destroy v => Exists V v ∧ Idle s v
  | .slice w i len => Exists V w ∧ Readable s w ∧ ((V.at w).items.length ≤ i ∨ len = 0 ∨ i + len < (V.at w).items.length)
  | .clear v => Exists V v ∧ Idle s v
  | .remove v i len => Exists V v ∧ Idle s v ∧ i + len ≤ (V.at v).items.length ∧
      (i = 0 ∨ len = 0 ∨ i + len = (V.at v).items.length ∨ (V.at v).front = true)
  | .set v i _ => Exists V v ∧ Idle s v ∧ i < (V.at v).items.length
  | .push v _ => Exists V v ∧ Idle s v ∧ (V.at v).front = true ∧ Roomy s

/-- The states of a program, with the values it expects its variables to have: calls are started, at any time, by any
thread, and the calls in progress make their steps in any order. -/
inductive History : State E → View E → Prop
  | start : History init []
  | call {s s' : State E} {V : View E} (c : Call E) : History s V → Legal s V c → start s c = .ok s' → History s' (V.call c)
  | tick {s s' : State E} {V : View E} (i : Nat) : History s V → tick s i = .ok s' → History s' V

/-- The call is about to write (or free) the storage of body `o` -/
def Writes (s : State E) : Job × Task E → Nat → Prop
  | (⟨_, _, .write _ o⟩, .write (_ :: _) _), o' => o' = o
  | (⟨_, _, .addRef _ o⟩, .copying _ _ _), o' => o' = o
  | (⟨_, _, .del o⟩, _), o' => o' = o
  | _, _ => False

/-- The call is about to read the storage of body `o` -/
def Reads (s : State E) : Job × Task E → Nat → Prop
  | (⟨_, _, .addRef _ _⟩, .copying _ (some o) _), o' => o' = o
  | (⟨_, _, .unshare _ o⟩, _), o' => o' = o
  | _, _ => False

end Strpp.ArrPar.Spec
