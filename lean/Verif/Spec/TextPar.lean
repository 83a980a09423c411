import Verif.Model.TextPar
/-! What a program that uses StrVals in several threads expects: each StrVal variable has a text of its own. -/
namespace Strpp.TextPar.Spec
open RC (Job)

variable {F : Type} (ap : F → Text → Text)

/-- The value of a StrVal. `front`: it was not made by cutting characters off the start of another string; `whole`: nor off
the end (only such strings may be changed: C87_whole_needed, C28_refuted_slice). -/
structure Val where
  items : Text
  front : Bool
  whole : Bool
deriving DecidableEq, Repr

/-- The variables in the order of their construction: `none` once the variable is gone -/
abbrev View := List (Option Val)

/-- the value of variable `v` -/
def View.at (A : View) (v : Nat) : Val := (A[v]?.getD none).getD ⟨[], true, true⟩

/-- `a` inserted in `t` at `pos` -/
def splice (t : Text) (pos : Nat) (a : Text) : Text := t.take pos ++ a ++ t.drop pos

/-- The effect of a call on the values, as if strings were plain texts -/
def View.call (A : View) : Call F → View
  | .ofText t => A ++ [some ⟨t, true, true⟩]
  | .copy w => A ++ [some (A.at w)]
  | .assign v w => A.set v (some (A.at w))
  | .destroy v => A.set v none
  | .substr w i len => A ++ [some ⟨((A.at w).items.drop i).take len, (A.at w).front && i == 0, (A.at w).whole && i == 0 && (A.at w).items.length ≤ len⟩]
  | .insert v pos w => A.set v (some { A.at v with items := splice (A.at v).items pos (A.at w).items })
  | .transform v f => A.set v (some { A.at v with items := ap f (A.at v).items })

/-- the variable has been constructed and not destroyed -/
def Exists (A : View) (v : Nat) : Prop := ∃ x, A[v]? = some (some x)

/-- no call in progress writes variable `v` -/
def Readable (s : State F) (v : Nat) : Prop := ∀ x ∈ s.work, x.1.writes ≠ some v

/-- no call in progress uses variable `v` -/
def Idle (s : State F) (v : Nat) : Prop := ∀ x ∈ s.work, x.1.writes ≠ some v ∧ x.1.reads ≠ some v ∧ x.2.addend ≠ some v

/-- The calls of a correct program: the variables used have been constructed and not destroyed, no other thread is writing
a variable that is read nor using one that is written, substrings are not empty (an empty one is a copy of `null`), positions are in range, a
string is not inserted in itself, and only strings that are not substrings of others are changed. -/
def Legal (s : State F) (A : View) : Call F → Prop
  | .ofText _ => True
  | .copy w => Exists A w ∧ Readable s w
  | .assign v w => Exists A w ∧ Exists A v ∧ Readable s w ∧ Idle s v
  | .destroy v => Exists A v ∧ Idle s v
  | .substr w i len => Exists A w ∧ Readable s w ∧ i < (A.at w).items.length ∧ 0 < len
  | .insert v pos w => Exists A v ∧ Exists A w ∧ Readable s w ∧ Idle s v ∧ v ≠ w ∧ pos ≤ (A.at v).items.length ∧ (A.at v).front = true
  | .transform v _ => Exists A v ∧ Idle s v ∧ (A.at v).front = true ∧ (A.at v).whole = true

/-- The states of a program, with the values it expects its variables to have: calls are started, at any time, by any
thread, and the calls in progress make their steps in any order. -/
inductive History : State F → View → Prop
  | start : History init []
  | call {s s' : State F} {A : View} (c : Call F) : History s A → Legal s A c → start s c = .ok s' → History s' (A.call ap c)
  | tick {s s' : State F} {A : View} (i : Nat) : History s A → tick ap s i = .ok s' → History s' A

/-- The call is about to write (or free) the text of body `o` -/
def Writes : Job × Task F → Nat → Prop
  | (⟨_, _, .write _ o⟩, .write _), o' => o' = o
  | (⟨_, _, .addRef _ o⟩, .copying _ _), o' => o' = o
  | (⟨_, _, .del o⟩, _), o' => o' = o
  | _, _ => False

/-- The call is about to read the text of body `o` -/
def Reads (s : State F) : Job × Task F → Nat → Prop
  | (⟨_, _, .addRef _ _⟩, .copying _ o), o' => o' = o
  | (⟨_, _, .write _ _⟩, .write (.ins _ w)), o' => ptrOf s w = .ok o'
  | _, _ => False

end Strpp.TextPar.Spec
