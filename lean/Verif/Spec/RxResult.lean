import Verif.Model.RxResult
/-! What calls on `RxResult` variables should do if each variable held its own value. A program state is the list of what
each variable shows (`none` once destroyed). From the model: the type of calls and the functions on values. -/
namespace Strpp.Rx

/-- the value of variable `v` -/
def shown (vs : List (Option RVal)) (v : Nat) : Res RVal :=
  match vs[v]? with
  | some (some x) => .ok x
  | _ => .error .ub

/-- `v` gets the value `f` makes of it -/
def update (vs : List (Option RVal)) (v : Nat) (f : RVal → Res (Nat × RVal)) : Res (Nat × List (Option RVal)) := do
  let x ← shown vs v
  let r ← f x
  .ok (r.1, vs.set v (some r.2))

def unitResult (r : Res RVal) : Res (Nat × RVal) := do
  let x ← r
  .ok (0, x)

def specExec (vs : List (Option RVal)) : ROp → Res (Nat × List (Option RVal))
  | .fail => .ok (0, vs ++ [some RVal.fail])
  | .new cm pm => .ok (0, vs ++ [some (RVal.new cm pm)])
  | .copy w => do
    let x ← shown vs w
    .ok (0, vs ++ [some x])
  | .assign v w => do
    let x ← shown vs w
    update vs v fun _ => .ok (0, x)
  | .clear v => update vs v fun _ => .ok (0, RVal.fail)
  | .destroy v => do
    let _ ← shown vs v
    .ok (0, vs.set v none)
  | .captureSet v i val => update vs v fun x => unitResult (x.captureSet i val)
  | .pushZero v off => update vs v fun x => unitResult (x.pushZero off)
  | .incr v off => update vs v fun x => x.incr off
  | .pop v => update vs v fun x => unitResult x.pop

/-- The variable a call works on; a new one (number `n`) for constructors -/
def ROp.target (n : Nat) : ROp → Nat
  | .fail | .new .. | .copy _ => n
  | .assign v _ | .clear v | .destroy v | .captureSet v _ _ | .pushZero v _ | .incr v _ | .pop v => v

end Strpp.Rx
