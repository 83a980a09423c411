import Verif.Model.Array
/-!
Model of the members of Array (include/array.h:320-430) that look through the elements of an array *value*: they all
begin with `body->data()+offset`, so an array without a body (default constructed, or an empty slice) is dereferenced
as null. The loops themselves are in Model/Array.lean.
-/
namespace Strpp.Arr

variable {E : Type} [Inhabited E]

/-- `const Element* dp = body->data()+offset` (include/array.h:142, 151, 323, 332, 341, 350, 366, 375, 387, 398, 407, 415), and
the loop on the elements from there on -/
def look {α : Type} (s : State E) (v : Nat) (f : List E → Nat → Nat → Res α) : Res α := do
  let sl ← getVar s v
  let b ← getBody s sl.body
  f b.mem sl.off sl.num

/-- include/array.h:321-329 `each`: the elements the operation is called with, in order -/
def eachIn (s : State E) (v : Nat) : Res (List E) :=
  look s v (fun mem off num => inject (fun seen x => seen ++ [x]) mem off num ([] : List E))

/-- The loop of include/array.h:389-391 -/
def selectLoop (p : E → Bool) (mem : List E) (out : Nat) : Nat → Nat → State E → Res (State E)
  | _, 0, s => .ok s
  | i, n + 1, s => do
    let x ← rd mem i
    if p x then do
      let s ← push s out x
      selectLoop p mem out (i + 1) n s
    else selectLoop p mem out (i + 1) n s

/-- include/array.h:384-393 `select`: the result is a new variable. Simplification: the elements are read from the
storage as it was at the start; `selected` never shares a body with another array, so it does not change. -/
def select (p : E → Bool) (s : State E) (v : Nat) : Res (State E) := do
  let sl ← getVar s v
  let b ← getBody s sl.body
  selectLoop p b.mem s.vars.length sl.off sl.num (newVar s ⟨none, 0, 0⟩)

/-- The loop of include/array.h:400-401 -/
def mapLoop {F : Type} [Inhabited F] (f : E → F) (mem : List E) : Nat → Nat → State F → Res (State F)
  | _, 0, t => .ok t
  | i, n + 1, t => do
    let x ← rd mem i
    let t ← push t 0 (f x)
    mapLoop f mem (i + 1) n t

/-- include/array.h:394-403 `map`. Simplification: the arrays of the result type are a separate state, in which the
result is the first variable. -/
def mapTo {F : Type} [Inhabited F] (f : E → F) (s : State E) (v : Nat) : Res (State F) := do
  let sl ← getVar s v
  let t ← exec (State.init : State F) (.ofData [] sl.num)
  let b ← getBody s sl.body
  mapLoop f b.mem sl.off sl.num t

end Strpp.Arr
