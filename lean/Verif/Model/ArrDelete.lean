import Verif.Model.Array
/-!
Model of include/array.h:295-318 `delete_if` on an Array variable, including a shared one: at the first element that
satisfies the condition the storage is copied (303-311), after which the loop compares `sp`, which still points into the old
storage, with `ep`, which points into the new one: undefined behaviour.
-/
namespace Strpp.Arr

variable {E : Type} [Inhabited E]

/-- The loop of include/array.h:302-314. `i` is the index of `*sp` in the storage, `n` elements are left, `bp` is `bp - dp`. -/
def deleteLoop (cond : E → Bool) (shared : Bool) (mem : List E) : Nat → Nat → Int → Res Int
  | _, 0, bp => .ok bp
  | i, n + 1, bp => do
    let x ← rd mem i
    if cond x then
      if shared then .error .ub
      else deleteLoop cond shared mem (i + 1) n (bp - 1 + 1)
    else deleteLoop cond shared mem (i + 1) n (bp + 1)

/-- include/array.h:295-318 -/
def deleteWhere (cond : E → Bool) (s : State E) (v : Nat) : Res (State E) := do
  let sl ← getVar s v
  if sl.num == 0 then .ok s
  else
    match sl.body with
    | none => .error .ub
    | some id => do
      let b ← getBody s sl.body
      let bp ← deleteLoop cond (decide (refCount s id > 1)) b.mem sl.off sl.num 0
      .ok (setVar s v { sl with num := if bp < 0 then wrap (sl.num - (0 - bp)) else sl.num })

end Strpp.Arr
