import Verif.Model.Error
/-! What a program that uses Errors in several threads expects: each Error variable has a value of its own. -/
namespace Strpp.Err.Spec

/-- What an Error was made of: the number, the text and the parameters given to the constructor; or nothing -/
structure Info where
  setmsg : BitVec 32
  text : Nat
  params : Nat
deriving DecidableEq, Repr

/-- The variables in the order of their construction: `none` once the variable is gone, `some none` for an Error that was
made of nothing -/
abbrev View := List (Option (Option Info))

/-- The effect of a call on the values, as if Errors were plain values -/
def View.call (V : View) : Call → View
  | .none => V ++ [some none]
  | .make m d p => V ++ [some (some ⟨m, d, p⟩)]
  | .copy src => V ++ [some ((V[src]?.getD none).getD none)]
  | .assign dst src => V.set dst (some ((V[src]?.getD none).getD none))
  | .destroy v => V.set v none

/-- no call in progress writes variable `v` -/
def Readable (s : State) (v : Nat) : Prop := ∀ j ∈ s.rc.jobs, j.writes ≠ some v

/-- no call in progress uses variable `v` -/
def Idle (s : State) (v : Nat) : Prop := ∀ j ∈ s.rc.jobs, j.writes ≠ some v ∧ j.reads ≠ some v

/-- The calls C++ gives a meaning to: the variables used have been constructed and not destroyed, and no other thread is
writing a variable that is read, nor using one that is written. -/
def Legal (s : State) (V : View) : Call → Prop
  | .none => True
  | .make _ _ _ => True
  | .copy src => (∃ x, V[src]? = some (some x)) ∧ Readable s src
  | .assign dst src => (∃ x, V[src]? = some (some x)) ∧ (∃ x, V[dst]? = some (some x)) ∧ Readable s src ∧ Idle s dst
  | .destroy v => (∃ x, V[v]? = some (some x)) ∧ Idle s v

/-- The states of a program, with the values it expects its variables to have: calls are started, at any time, by any
thread, and the calls in progress make their steps in any order. -/
inductive History : State → View → Prop
  | start : History init []
  | call {s : State} {V : View} (c : Call) : History s V → Legal s V c → History (start s c) (V.call c)
  | tick {s s' : State} {V : View} (i : Nat) : History s V → tick s i = .ok s' → History s' V

end Strpp.Err.Spec
