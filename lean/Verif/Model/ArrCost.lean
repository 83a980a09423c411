import Verif.Model.Array
/-!
Model of how many elements the calls of include/array.h copy: for each loop that assigns elements, in the functions of
Verif/Model/Array.lean, the number of its rounds. Constructions of default elements by `new Element[n]` and destructions
are not counted.
-/
namespace Strpp.Arr

variable {E : Type} [Inhabited E]

/-- include/array.h:597-615 `resize`: the loop of 610-611 copies the elements when new memory is taken -/
def Body.resizeCost (b : Body E) (minimum : Nat) : Nat :=
  if minimum ≤ b.alloc then 0 else b.num

/-- include/array.h:543-563 `insert` of `n` elements: `resize`, the loop of 557-558 (from `num_elements + n` down to
`pos + n`), the loop of 560-561 -/
def Body.insertCost (b : Body E) (pos n : Nat) : Nat :=
  if n = 0 then 0
  else b.resizeCost (b.num + n) + (b.num - pos) + n

/-- include/array.h:458-466 `Unshare`: the loop of 520-521 in the constructor of the new body -/
def unshareCost (s : State E) (v : Nat) : Nat :=
  match getVar s v with
  | .ok sl =>
    if (match sl.body with
      | some b => decide (refCount s b ≤ 1)
      | none => false) then 0
    else sl.num
  | .error _ => 0

/-- include/array.h:231-237 `operator+=(const Element&)` -/
def pushCost (s : State E) (v : Nat) : Nat :=
  unshareCost s v +
  match unshare s v 1 with
  | .ok s' =>
    match getVar s' v with
    | .ok sl =>
      match getBody s' sl.body with
      | .ok b => b.insertCost sl.num 1
      | .error _ => 0
    | .error _ => 0
  | .error _ => 0

/-- the elements copied by pushing `es` one after the other -/
def pushesCost (s : State E) (v : Nat) : List E → Nat
  | [] => 0
  | e :: es =>
    pushCost s v +
    match exec s (.push v e) with
    | .ok s' => pushesCost s' v es
    | .error _ => 0

/-- the elements copied when a copy of the variable is taken, and kept, before each push -/
def keepCost (s : State E) (v : Nat) : List E → Nat
  | [] => 0
  | e :: es =>
    match exec s (.copy v) with
    | .ok s1 =>
      pushCost s1 v +
      match exec s1 (.push v e) with
      | .ok s2 => keepCost s2 v es
      | .error _ => 0
    | .error _ => 0

end Strpp.Arr
