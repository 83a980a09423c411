import Verif.Model.CowMap
import Verif.Model.RefCount
/-!
Model of include/cowmap.h:22-189, CowMaps used from any number of threads.

The `Ref<Body>` of a variable and the counts of the bodies are the machine of `Model/RefCount.lean`; its objects are the
CowMapBodies, whose entries are beside it in `bodies`, and its variables are the CowMaps. A call in progress is a job of
that machine together with a `Task` that says what else the call has to do. One `tick` runs the next action of one call: an
action on a reference count, the store to a `Ref`, or one operation of std::map on a body.

Simplifications: those of `Model/RefCount.lean` and `Model/CowMap.lean`; sequential consistency; an operation of std::map
(find, erase, insert of one entry) is one action, which is sound because the properties say that no other call accesses
the body meanwhile if the action writes; a call that ends with writing to a body has one more, empty, action when it
returns. Looking up a key or iterating is one action (`find`, `iterate`), which a thread may do at any time when no other
is writing the variable. Iterators held by the caller are not modelled.
-/
namespace Strpp.MapPar
open CM (mfind minsert merase)

variable {K V : Type} (lt : K → K → Bool)

/-- What a call does to the body when it has it for itself -/
inductive Edit (K V : Type)
  /-- `body->insert(BaseVP(k, v))`, include/cowmap.h:45, 73 -/
  | ins (k : K) (x : V)
  /-- `body->erase(k)`, include/cowmap.h:75 -/
  | del (k : K)
deriving DecidableEq, Repr

/-- The effect on the entries -/
def Edit.run (m : List (K × V)) : Edit K V → List (K × V)
  | .ins k x => minsert lt k x m
  | .del k => merase lt k m

/-- What a call has to do besides the actions of its job on the `Ref` -/
inductive Task (K V : Type)
  /-- nothing: include/cowmap.h:35, 38-39, 47-48 -/
  | plain
  /-- when the new body is stored, to do these operations on it: include/cowmap.h:36-37, 71 (none), 43-45, 171 -/
  | fill (es : List (Edit K V))
  /-- to look for the key: include/cowmap.h:78-79 -/
  | look (k : K) (x : V)
  /-- to erase the key that was found: include/cowmap.h:80 -/
  | erase (k : K) (x : V)
  /-- to look at the count: include/cowmap.h:164 -/
  | unshare (e : Edit K V)
  /-- to copy entry `k` of body `src` to the new body: include/cowmap.h:169-170 -/
  | copying (e : Edit K V) (src k : Nat)
  /-- to do these operations on the body -/
  | write (es : List (Edit K V))
deriving DecidableEq, Repr

structure State (K V : Type) where
  objs : List RC.Obj
  bodies : List (List (K × V))
  /-- `none` is a destroyed CowMap, `some p` one with `body = p` -/
  vars : List (Option (Option Nat))
  work : List (RC.Job × Task K V)
deriving DecidableEq, Repr

def init : State K V := ⟨[], [], [], []⟩

/-- The reference counting of a state -/
def State.rc (s : State K V) : RC.State := ⟨s.objs, s.vars, s.work.map (·.1)⟩

/-- the entries of a body that has not been deleted -/
def bodyOf (s : State K V) (o : Nat) : Res (List (K × V)) := do
  let _ ← RC.obj s.rc o
  match s.bodies[o]? with
  | some m => .ok m
  | none => .error .ub

/-- `body` of variable `v`, to be dereferenced -/
def ptrOf (s : State K V) (v : Nat) : Res Nat :=
  match s.vars[v]? with
  | some (some (some o)) => .ok o
  | _ => .error .ub

/-- iteration over `begin()` to `end()`, include/cowmap.h:63-66 -/
def iterate (s : State K V) (v : Nat) : Res (List (K × V)) := do
  let o ← ptrOf s v
  bodyOf s o

/-- include/cowmap.h:62, 57-61, 50-55: looking up a key -/
def find (s : State K V) (v : Nat) (k : K) : Res (Option V) := do
  let m ← iterate s v
  .ok (mfind lt k m)

/-- include/cowmap.h:67-68 `size` -/
def size (s : State K V) (v : Nat) : Res Nat := do
  let m ← iterate s v
  .ok m.length

inductive Call (K V : Type)
  /-- include/cowmap.h:36-37 -/
  | default
  /-- include/cowmap.h:40-46 -/
  | ofPairs (es : List (K × V))
  /-- include/cowmap.h:38-39 -/
  | copy (w : Nat)
  /-- include/cowmap.h:47-48 -/
  | assign (v w : Nat)
  /-- include/cowmap.h:35 -/
  | destroy (v : Nat)
  /-- include/cowmap.h:71 -/
  | clear (v : Nat)
  /-- include/cowmap.h:72-73 -/
  | insert (v : Nat) (k : K) (x : V)
  /-- include/cowmap.h:74-75 -/
  | remove (v : Nat) (k : K)
  /-- include/cowmap.h:76-83 -/
  | put (v : Nat) (k : K) (x : V)
deriving DecidableEq, Repr

/-- Start a call on the `Ref`s, with the given task -/
def spawn (s : State K V) (c : RC.Call) (t : Task K V) : State K V :=
  let rc := RC.start s.rc c
  { s with objs := rc.objs, vars := rc.vars, work := s.work ++ (rc.jobs.drop s.work.length).map (fun j => (j, t)) }

/-- Start a call. A variable that does not exist, or has no body where one is used, is undefined behaviour. -/
def start (s : State K V) : Call K V → Res (State K V)
  | .default => .ok (spawn { s with bodies := s.bodies ++ [[]] } .construct (.fill []))
  | .ofPairs es => .ok (spawn { s with bodies := s.bodies ++ [[]] } .construct (.fill (es.map fun e => .ins e.1 e.2)))
  | .copy w => .ok (spawn s (.copy w) .plain)
  | .assign v w => .ok (spawn s (.assign v w) .plain)
  | .destroy v => .ok (spawn s (.destroy v) .plain)
  | .clear v => .ok (spawn { s with bodies := s.bodies ++ [[]] } (.assignNew v) (.fill []))
  | .insert v k x => do
    let _ ← ptrOf s v
    .ok (spawn s (.unshare v) (.unshare (.ins k x)))
  | .remove v k => do
    let _ ← ptrOf s v
    .ok (spawn s (.unshare v) (.unshare (.del k)))
  | .put v k x => do
    let _ ← ptrOf s v
    .ok (spawn s (.unshare v) (.look k x))

/-- The next action of job `i` on the `Ref`s: the objects and variables after it, and the job unless it has ended -/
def advance (s : State K V) (i : Nat) : Res (List RC.Obj × List (Option (Option Nat)) × Option RC.Job) := do
  let rc ← RC.tick s.rc i
  .ok (rc.objs, rc.vars, if rc.jobs.length < s.work.length then none else rc.jobs[i]?)

/-- the variable a job writes -/
def dst (j : RC.Job) : Nat := j.writes.getD 0

/-- Run the next action of call `i` -/
def tick (s : State K V) (i : Nat) : Res (State K V) :=
  match s.work[i]? with
  | none => .ok s
  | some (_, .plain) => do
    let (objs, vars, j') ← advance s i
    match j' with
    | some j' => .ok { s with objs := objs, vars := vars, work := s.work.set i (j', .plain) }
    | none => .ok { s with objs := objs, vars := vars, work := s.work.eraseIdx i }
  | some (j, .fill es) => do
    let (objs, vars, j') ← advance s i
    match j' with
    | some j' => .ok { s with objs := objs, vars := vars, work := s.work.set i (j', .fill es) }
    | none =>
      match vars[dst j]? with
      | some (some (some o)) => .ok { s with objs := objs, vars := vars, work := s.work.set i (⟨none, some (dst j), .write (dst j) o⟩, .write es) }
      | _ => .error .ub
  | some (⟨r, w, .unshare d o⟩, .look k x) => do
    let m ← bodyOf s o
    if (mfind lt k m).isSome then .ok { s with work := s.work.set i (⟨r, w, .unshare d o⟩, .erase k x) }
    else .ok { s with work := s.work.set i (⟨r, w, .unshare d o⟩, .unshare (.ins k x)) }
  | some (_, .look _ _) => .error .ub
  | some (⟨r, w, .unshare d o⟩, .erase k x) => do
    let m ← bodyOf s o
    .ok { s with bodies := s.bodies.set o (merase lt k m), work := s.work.set i (⟨r, w, .unshare d o⟩, .unshare (.ins k x)) }
  | some (_, .erase _ _) => .error .ub
  | some (j, .unshare e) => do
    let src ← ptrOf s (dst j)
    let (objs, vars, j') ← advance s i
    match j' with
    | some ⟨r, w, .write d o⟩ => .ok { s with objs := objs, vars := vars, work := s.work.set i (⟨r, w, .write d o⟩, .write [e]) }
    | some j' => .ok { s with objs := objs, bodies := s.bodies ++ [[]], vars := vars, work := s.work.set i (j', .copying e src 0) }
    | none => .error .ub
  | some (⟨r, w, .addRef d o'⟩, .copying e src k) => do
    let m ← bodyOf s src
    let m' ← bodyOf s o'
    match m[k]? with
    | some (key, x) => .ok { s with bodies := s.bodies.set o' (minsert lt key x m'), work := s.work.set i (⟨r, w, .addRef d o'⟩, .copying e src (k + 1)) }
    | none => do
      let (objs, vars, j') ← advance s i
      match j' with
      | some j' => .ok { s with objs := objs, vars := vars, work := s.work.set i (j', .fill [e]) }
      | none => .error .ub
  | some (_, .copying _ _ _) => .error .ub
  | some (_, .write []) => do
    let (objs, vars, _) ← advance s i
    .ok { s with objs := objs, vars := vars, work := s.work.eraseIdx i }
  | some (⟨r, w, .write d o⟩, .write (e :: es)) => do
    let m ← bodyOf s o
    .ok { s with bodies := s.bodies.set o (e.run lt m), work := s.work.set i (⟨r, w, .write d o⟩, .write es) }
  | some (_, .write _) => .error .ub

end Strpp.MapPar
