import Verif.Model.Array
import Verif.Model.RefCount
/-!
Model of include/array.h:27-492, Arrays used from any number of threads.

The `Ref<Body>` of a variable and the counts of the bodies are the machine of `Model/RefCount.lean`; its objects are the
ArrayBodies, whose contents are beside it in `bodies`, and its variables are the Arrays, whose `offset` and `num_elements`
are beside it in `shapes`. A call in progress is a job of that machine together with a `Task` that says what else the call
has to do. One `tick` runs the next action of one call: an action on a reference count, the store to a `Ref`, the copying
of one element into a new body, the moving or storing of one element of a body, a reallocation.

Simplifications: those of `Model/RefCount.lean` and `Model/Array.lean`; sequential consistency; the elements themselves need
no synchronisation (copying one is one action); a reallocation (include/array.h:597-615) is one action; a constructor's
copying of the caller's data is one action with its start; bodies on borrowed data are not used. Reading an element is one
action (`elem`), which a thread may do at any time when no other is writing the variable. Members that only combine the
ones here (find, each, compare, map, pull, shift, ...) are not repeated; `insert` of another Array is not modelled here.
-/
namespace Strpp.ArrPar
open Arr (Body wrap)

variable {E : Type} [Inhabited E]

/-- `offset` and `num_elements` of an Array: include/array.h:455-456 -/
structure Shape where
  off : Nat
  num : Nat
deriving DecidableEq, Repr

/-- What a call does to the body when it has it for itself -/
inductive Edit (E : Type)
  /-- include/array.h:187-191 -/
  | set (i : Nat) (e : E)
  /-- include/array.h:231-237 -/
  | push (e : E)
  /-- include/array.h:192-216, from the middle -/
  | remove (at_ len : Nat)
deriving DecidableEq, Repr

/-- One action on a body -/
inductive Micro (E : Type)
  /-- `assert(ref_count <= 1)`, include/array.h:545, 566 -/
  | unique
  /-- another assertion, include/array.h:549-552, 569-571 -/
  | claim (p : Bool)
  /-- `resize(n)`, include/array.h:597-615 -/
  | grow (n : Nat)
  /-- `start[i] = e` -/
  | store (i : Nat) (e : E)
  /-- `start[i] = start[j]` -/
  | move (i j : Nat)
  /-- `num_elements = n` -/
  | num (n : Nat)
deriving DecidableEq, Repr

/-- The effect of one action on a body whose count is `count` -/
def Micro.run (count : Int) (b : Body E) : Micro E → Res (Body E)
  | .unique => do
    assert (count ≤ 1)
    .ok b
  | .claim p => do
    assert p
    .ok b
  | .grow n => b.resize n
  | .store i e => do
    let mem ← Arr.wr b.mem i e
    .ok { b with mem := mem }
  | .move i k => do
    let x ← rd b.mem k
    let mem ← Arr.wr b.mem i x
    .ok { b with mem := mem }
  | .num n => .ok { b with num := n }

/-- The moving loop of include/array.h:557-558; the argument is `i`. -/
def ups (pos n : Nat) : Nat → List (Micro E)
  | 0 => []
  | i + 1 => if i + 1 > pos + n then .move i (i - n) :: ups pos n i else []

/-- The moving loop of include/array.h:575-576: `k` iterations from `i` on -/
def downs (len : Nat) : Nat → Nat → List (Micro E)
  | _, 0 => []
  | i, k + 1 => .move i (i + len) :: downs len (i + 1) k

/-- The actions of an edit of a slice with the given shape, on a body with `n` elements: include/array.h:543-563 (push),
564-579 (remove), 189 (set). The limits of the loops are `num_elements` of the body, read at the start of the edit. -/
def micros (sh : Shape) (n : Nat) : Edit E → List (Micro E)
  | .set i e => [.store (sh.off + i) e]
  | .push e => [.unique, .claim (sh.num ≤ n), .claim (wrap (n + 1) ≥ n), .grow (wrap (n + 1))] ++
      (if n > sh.num then ups sh.num 1 (n + 1) else []) ++ [.store sh.num e, .num (n + 1)]
  | .remove at_ len => [.unique, .claim (at_ < n)] ++ downs len at_ (wrap (n - len) - at_) ++ [.num (wrap (n - len))]

/-- `num_elements` of the Array after the edit: include/array.h:235, 214 -/
def newNum (num : Nat) : Edit E → Nat
  | .set _ _ => num
  | .push _ => num + 1
  | .remove _ len => num - len

/-- the argument of Unshare: include/array.h:233, 77, 212 -/
def extra : Edit E → Nat
  | .push _ => 1
  | _ => 0

/-- What a call has to do besides the actions of its job on the `Ref` -/
inductive Task (E : Type)
  /-- nothing: include/array.h:34, the destructor -/
  | plain
  /-- when `body` is stored, to store `offset` and `num_elements`: include/array.h:37-38, 39-46, 49-50, 444-449 -/
  | shape (sh : Shape)
  /-- to look at the count: include/array.h:460 -/
  | unshare (e : Edit E)
  /-- to copy element `k` of the slice from body `src` to the new body: include/array.h:520-521 -/
  | copying (e : Edit E) (src : Option Nat) (k : Nat)
  /-- to finish `body = new Body(...)` and then edit: include/array.h:464-465 -/
  | swap (e : Edit E)
  /-- to do these actions on the body, then to store `num_elements` -/
  | write (ms : List (Micro E)) (num : Nat)
deriving DecidableEq, Repr

structure State (E : Type) where
  objs : List RC.Obj
  bodies : List (Body E)
  /-- `none` is a destroyed Array, `some p` one with `body = p` -/
  vars : List (Option (Option Nat))
  shapes : List Shape
  work : List (RC.Job × Task E)
deriving DecidableEq, Repr

def init : State E := ⟨[], [], [], [], []⟩

/-- The reference counting of a state -/
def State.rc (s : State E) : RC.State := ⟨s.objs, s.vars, s.work.map (·.1)⟩

/-- `offset` and `num_elements` of variable `v` -/
def shapeOf (s : State E) (v : Nat) : Res Shape :=
  match s.vars[v]?, s.shapes[v]? with
  | some (some _), some sh => .ok sh
  | _, _ => .error .ub

/-- a body that has not been deleted -/
def bodyOf (s : State E) (o : Nat) : Res (Body E) := do
  let _ ← RC.obj s.rc o
  match s.bodies[o]? with
  | some b => .ok b
  | none => .error .ub

/-- `body` of variable `v` -/
def ptrOf (s : State E) (v : Nat) : Res (Option Nat) :=
  match s.vars[v]? with
  | some (some p) => .ok p
  | _ => .error .ub

/-- include/array.h:54-55, `length()` -/
def length (s : State E) (v : Nat) : Res Nat := do
  let sh ← shapeOf s v
  .ok sh.num

/-- include/array.h:63-67, `operator[]` -/
def elem (s : State E) (v i : Nat) : Res E := do
  let sh ← shapeOf s v
  let p ← ptrOf s v
  assert (i < sh.num && p.isSome)
  match p with
  | none => .error .ub
  | some o => do
    let b ← bodyOf s o
    rd b.mem (sh.off + i)

inductive Call (E : Type)
  /-- include/array.h:35-36 -/
  | default
  /-- include/array.h:39-46 -/
  | ofData (data : List E) (allocate : Nat)
  /-- include/array.h:37-38 -/
  | copy (w : Nat)
  /-- include/array.h:49-50 -/
  | assign (v w : Nat)
  /-- include/array.h:34 -/
  | destroy (v : Nat)
  /-- include/array.h:116-131 -/
  | slice (w at_ len : Nat)
  /-- include/array.h:177 -/
  | clear (v : Nat)
  /-- include/array.h:192-216 -/
  | remove (v at_ len : Nat)
  /-- include/array.h:187-191 -/
  | set (v i : Nat) (e : E)
  /-- include/array.h:231-241, 278 -/
  | push (v : Nat) (e : E)
deriving DecidableEq, Repr

/-- Start a call on the `Ref`s, with the given task -/
def spawn (s : State E) (c : RC.Call) (t : Task E) : State E :=
  let rc := RC.start s.rc c
  { s with objs := rc.objs, vars := rc.vars, work := s.work ++ (rc.jobs.drop s.work.length).map (fun j => (j, t)) }

/-- `new Body(asElements(), true, num, num+extra)` before its copying loop: include/array.h:463, 512-518 -/
def fresh (num : Nat) (e : Edit E) : Res (Body E) := (Body.empty : Body E).resize (num + extra e)

/-- Unshare and what follows: include/array.h:458-466. Without a body it makes one. -/
def edit (s : State E) (v : Nat) (e : Edit E) : Res (State E) := do
  let sh ← shapeOf s v
  let p ← ptrOf s v
  match p with
  | some _ => .ok (spawn s (.unshare v) (.unshare e))
  | none => do
    let b ← fresh sh.num e
    .ok (spawn { s with bodies := s.bodies ++ [b] } (.assignNew v) (.copying e none 0))

/-- a new null Array: include/array.h:35-36 -/
def newNull (s : State E) : State E := { s with vars := s.vars ++ [some none], shapes := s.shapes ++ [⟨0, 0⟩] }

/-- include/array.h:444-449, the constructor of a slice of variable `w` -/
def newSlice (s : State E) (w : Nat) (sh : Shape) : Res (State E) := do
  let p ← ptrOf s w
  match p with
  | none => .error .ub
  | some o => do
    let b ← bodyOf s o
    assert (sh.off < b.num)
    assert (sh.off + sh.num < b.num)
    .ok (spawn { s with shapes := s.shapes ++ [sh] } (.copy w) (.shape sh))

/-- Start a call -/
def start (s : State E) : Call E → Res (State E)
  | .default => .ok (newNull s)
  | .ofData data allocate => do
    let b ← Body.ofData data allocate
    .ok (spawn { s with bodies := s.bodies ++ [b], shapes := s.shapes ++ [⟨0, data.length⟩] } .construct
      (.shape ⟨0, data.length⟩))
  | .copy w => do
    let sh ← shapeOf s w
    .ok (spawn { s with shapes := s.shapes ++ [sh] } (.copy w) (.shape sh))
  | .assign v w => do
    let sh ← shapeOf s w
    .ok (spawn s (.assign v w) (.shape sh))
  | .destroy v => .ok (spawn s (.destroy v) .plain)
  | .slice w at_ len => do
    let sh ← shapeOf s w
    if at_ ≥ sh.num || len == 0 then .ok (newNull s)
    else newSlice s w ⟨sh.off + at_, if len > sh.num - at_ then sh.num - at_ else len⟩
  | .clear v => do
    let sh ← shapeOf s v
    .ok { s with shapes := s.shapes.set v { sh with num := 0 } }
  | .remove v at_ len => do
    let sh ← shapeOf s v
    assert (wrap (sh.num - len) ≥ at_)
    if at_ == sh.num || len == 0 then .ok s
    else if at_ + len == sh.num then .ok { s with shapes := s.shapes.set v { sh with num := sh.num - len } }
    else if at_ == 0 then .ok { s with shapes := s.shapes.set v ⟨sh.off + len, sh.num - len⟩ }
    else edit s v (.remove at_ len)
  | .set v i e => do
    let sh ← shapeOf s v
    let p ← ptrOf s v
    assert (i < sh.num && p.isSome)
    edit s v (.set i e)
  | .push v e => edit s v (.push e)

/-- The next action of job `i` on the `Ref`s: the objects and variables after it, and the job unless it has ended -/
def advance (s : State E) (i : Nat) : Res (List RC.Obj × List (Option (Option Nat)) × Option RC.Job) := do
  let rc ← RC.tick s.rc i
  .ok (rc.objs, rc.vars, if rc.jobs.length < s.work.length then none else rc.jobs[i]?)

/-- the variable a job writes -/
def dst (j : RC.Job) : Nat := j.writes.getD 0

/-- Run the next action of call `i` -/
def tick (s : State E) (i : Nat) : Res (State E) :=
  match s.work[i]? with
  | none => .ok s
  | some (j, .plain) => do
    let (objs, vars, j') ← advance s i
    match j' with
    | some j' => .ok { s with objs := objs, vars := vars, work := s.work.set i (j', .plain) }
    | none => .ok { s with objs := objs, vars := vars, work := s.work.eraseIdx i }
  | some (j, .shape sh) => do
    let (objs, vars, j') ← advance s i
    match j' with
    | some j' => .ok { s with objs := objs, vars := vars, work := s.work.set i (j', .shape sh) }
    | none => .ok { s with objs := objs, vars := vars, shapes := s.shapes.set (dst j) sh, work := s.work.eraseIdx i }
  | some (j, .unshare e) => do
    let sh ← shapeOf s (dst j)
    let p ← ptrOf s (dst j)
    let (objs, vars, j') ← advance s i
    match j' with
    | some ⟨r, w, .write d o⟩ => do
      let b ← bodyOf s o
      .ok { s with objs := objs, vars := vars, work := s.work.set i (⟨r, w, .write d o⟩, .write (micros sh b.num e) (newNum sh.num e)) }
    | some j' => do
      let b ← fresh sh.num e
      .ok { s with objs := objs, bodies := s.bodies ++ [b], vars := vars, work := s.work.set i (j', .copying e p 0) }
    | none => .error .ub
  | some (⟨r, w, .addRef d o'⟩, .copying e src k) => do
    let sh ← shapeOf s d
    let b' ← bodyOf s o'
    if k < sh.num then
      match src with
      | none => .error .ub
      | some o => do
        let b ← bodyOf s o
        let x ← rd b.mem (sh.off + k)
        let mem ← Arr.wr b'.mem k x
        .ok { s with bodies := s.bodies.set o' { b' with mem := mem }, work := s.work.set i (⟨r, w, .addRef d o'⟩, .copying e src (k + 1)) }
    else do
      let (objs, vars, j') ← advance s i
      match j' with
      | some j' => .ok { s with objs := objs, bodies := s.bodies.set o' { b' with num := sh.num }, vars := vars, work := s.work.set i (j', .swap e) }
      | none => .error .ub
  | some (_, .copying _ _ _) => .error .ub
  | some (j, .swap e) => do
    let sh ← shapeOf s (dst j)
    let (objs, vars, j') ← advance s i
    match j' with
    | some j' => .ok { s with objs := objs, vars := vars, work := s.work.set i (j', .swap e) }
    | none =>
      match vars[dst j]? with
      | some (some (some o)) =>
        match s.bodies[o]? with
        | some b => .ok { s with objs := objs, vars := vars, shapes := s.shapes.set (dst j) ⟨0, sh.num⟩, work := s.work.set i (⟨none, some (dst j), .write (dst j) o⟩, .write (micros ⟨0, sh.num⟩ b.num e) (newNum sh.num e)) }
        | none => .error .ub
      | _ => .error .ub
  | some (j, .write [] num) => do
    let sh ← shapeOf s (dst j)
    let (objs, vars, _) ← advance s i
    .ok { s with objs := objs, vars := vars, shapes := s.shapes.set (dst j) { sh with num := num }, work := s.work.eraseIdx i }
  | some (⟨r, w, .write d o⟩, .write (m :: ms) num) => do
    let x ← RC.obj s.rc o
    let b ← bodyOf s o
    let b ← m.run x.count b
    .ok { s with bodies := s.bodies.set o b, work := s.work.set i (⟨r, w, .write d o⟩, .write ms num) }
  | some (_, .write _ _) => .error .ub

end Strpp.ArrPar
