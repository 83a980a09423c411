import Verif.Basic
/-!
What an `RxResult` is for: the ends of the match and of its groups, each of which is 0 until it is set and then keeps the
value last set, and a stack of counters, each with an offset. Independent of the model.
-/
namespace Strpp.Spec

structure Board where
  /-- captures 0 and 1: where the match begins and ends -/
  first : Nat
  last : Option Nat
  /-- the number of groups (with the whole match as one of them), and how many counters there is room for -/
  groups : Nat
  room : Nat
  /-- captures 2, 3, ... -/
  slot : Nat → Nat
  /-- offset and count, the top one first -/
  stack : List (Nat × Nat)

def Board.new (room groups : Nat) : Board := ⟨0, none, groups, room, fun _ => 0, []⟩

inductive Call where
  | set (index : Int) (val : Nat)
  | push (offset : Nat)
  | incr (offset : Nat)
  | pop
  deriving DecidableEq, Repr

/-- One call: what it returns, and the state afterwards; `none` if it is not allowed. (A negative index is taken as 1.) -/
def Board.call (b : Board) : Call → Option (Nat × Board)
  | .set i v =>
    if i = 0 then some (0, { b with first := v })
    else if i ≤ 1 then some (0, { b with last := some v })
    else if i < 2 * b.groups then some (0, { b with slot := fun k => if (k : Int) = i then v else b.slot k })
    else none
  | .push o => if b.stack.length < b.room then some (0, { b with stack := (o, 0) :: b.stack }) else none
  | .incr o =>
    match b.stack with
    | [] => none
    | (_, n) :: r => some (n + 1, { b with stack := (o, n + 1) :: r })
  | .pop =>
    match b.stack with
    | [] => none
    | _ :: r => some (0, { b with stack := r })

/-- A history: what the calls return, and the state at the end -/
def Board.calls (b : Board) : List Call → Option (List Nat × Board)
  | [] => some ([], b)
  | c :: cs =>
    match b.call c with
    | none => none
    | some (n, b) =>
      match Board.calls b cs with
      | none => none
      | some (ns, b) => some (n :: ns, b)

end Strpp.Spec
