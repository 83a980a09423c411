import Verif.Model.NestPar
/-! What a program that uses nested values in several threads expects: each variable has a value of its own. -/
namespace Strpp.NestPar.Spec

/-- A value: one without parts, or a text or an array of values -/
inductive Val
  | num (n : Int)
  | obj (text : Text) (kids : List Val)
deriving Repr, BEq

/-- The value that a Variant has, to depth `n`: `none` if there is a deleted body in it, or if `n` is too small -/
def valueAt (bs : List Body) : Nat → Cell → Option Val
  | _, .num m => some (.num m)
  | 0, .ref _ => none
  | n + 1, .ref o =>
    match bs[o]? with
    | some b => if b.live then (b.kids.mapM (valueAt bs n)).map (.obj b.text) else none
    | none => none

/-- Variable `v` has value `x`, and no body in it has been deleted. -/
def Shows (s : State) (v : Nat) (x : Val) : Prop := ∃ c, s.vars[v]? = some (some c) ∧ ∃ n, valueAt s.bodies n c = some x

/-- The variables in the order of their construction: `none` once the variable is gone -/
abbrev View := List (Option Val)

/-- the value of variable `v` -/
def View.at (A : View) (v : Nat) : Val := (A[v]?.getD none).getD (.num 0)

/-- the elements of a value -/
def Val.elems : Val → List Val
  | .num _ => []
  | .obj _ xs => xs

/-- the value with element `i` replaced -/
def Val.setElem : Val → Nat → Val → Val
  | .num n, _, _ => .num n
  | .obj t xs, i, y => .obj t (xs.set i y)

/-- the value with an element more -/
def Val.push : Val → Val → Val
  | .num n, _ => .num n
  | .obj t xs, y => .obj t (xs ++ [y])

/-- The effect of a call on the values -/
def View.call (A : View) : Call → View
  | .number n => A ++ [some (.num n)]
  | .str t => A ++ [some (.obj t [])]
  | .array ws => A ++ [some (.obj [] (ws.map A.at))]
  | .copy w => A ++ [some (A.at w)]
  | .assign v w => A.set v (some (A.at w))
  | .destroy v => A.set v none
  | .elem w i => A ++ [some ((A.at w).elems.getD i (.num 0))]
  | .setElem v i w => A.set v (some ((A.at v).setElem i (A.at w)))
  | .push v w => A.set v (some ((A.at v).push (A.at w)))
  | .edit v t => A.set v (some (.obj t []))

/-- the variable has been constructed and not destroyed -/
def Exists (A : View) (v : Nat) : Prop := ∃ x, A[v]? = some (some x)

/-- no call in progress writes variable `v` -/
def Readable (s : State) (v : Nat) : Prop := ∀ j ∈ s.jobs, j.v ≠ v

/-- no call in progress uses variable `v` -/
def Idle (s : State) (v : Nat) : Prop := ∀ j ∈ s.jobs, j.v ≠ v ∧ v ∉ j.reads

/-- The calls of a correct program: the variables used have been constructed and not destroyed, no other thread is writing a
variable that is read nor using one that is written, indices are in range, and a variable is not made an element of itself
(a copy of it may be). -/
def Legal (s : State) (A : View) : Call → Prop
  | .number _ => True
  | .str _ => True
  | .array ws => ∀ w ∈ ws, Exists A w ∧ Readable s w
  | .copy w => Exists A w ∧ Readable s w
  | .assign v w => Exists A w ∧ Exists A v ∧ Readable s w ∧ Idle s v
  | .destroy v => Exists A v ∧ Idle s v
  | .elem w i => Exists A w ∧ Readable s w ∧ i < (A.at w).elems.length
  | .setElem v i w => Exists A v ∧ Exists A w ∧ Readable s w ∧ Idle s v ∧ v ≠ w ∧ i < (A.at v).elems.length ∧ ∃ xs, A.at v = .obj [] xs
  | .push v w => Exists A v ∧ Exists A w ∧ Readable s w ∧ Idle s v ∧ v ≠ w ∧ ∃ xs, A.at v = .obj [] xs
  | .edit v _ => Exists A v ∧ Idle s v ∧ ∃ t, A.at v = .obj t []

/-- The states of a program, with the values it expects its variables to have: calls are started, at any time, by any
thread, and the calls in progress make their steps in any order. -/
inductive History : State → View → Prop
  | start : History init []
  | call {s s' : State} {A : View} (c : Call) : History s A → Legal s A c → start s c = .ok s' → History s' (A.call c)
  | tick {s s' : State} {A : View} (i : Nat) : History s A → tick s i = .ok s' → History s' A

/-- Body `p` is part of the value of variable `v`. -/
inductive Part (s : State) (v : Nat) : Nat → Prop
  | root {p : Nat} : s.vars[v]? = some (some (.ref p)) → Part s v p
  | kid {q p : Nat} {b : Body} : Part s v q → s.bodies[q]? = some b → Cell.ref p ∈ b.kids → Part s v p

/-- A run of steps of calls in progress -/
inductive Ticks : State → Nat → State → Prop
  | done (s : State) : Ticks s 0 s
  | step {s s' s'' : State} {n : Nat} (i : Nat) : i < s.jobs.length → NestPar.tick s i = .ok s' → Ticks s' n s'' → Ticks s (n + 1) s''

/-- The call is about to write (or free) an element of body `p` -/
def Writes (j : Job) (p : Nat) : Prop :=
  match j.todo with
  | .swap (.kid q _) _ :: _ => q = p
  | .del q :: _ => q = p
  | _ => False

/-- The call is about to read an element of body `p` -/
def Reads (j : Job) (p : Nat) : Prop :=
  match j.todo with
  | .copyTo (.kid q _) _ :: _ => q = p
  | .asg (.kid q _) _ :: _ => q = p
  | .swap (.kid q _) _ :: _ => q = p
  | _ => False

/-- The call is about to use the count of body `o` -/
def Counts (j : Job) (o : Nat) : Prop :=
  match j.todo with
  | .inc q :: _ | .adopt q :: _ | .chk q :: _ | .relA q :: _ | .relD q :: _ => q = o
  | _ => False

end Strpp.NestPar.Spec
