import Verif.Basic
/-!
Model of include/refcount.h as a machine with any number of threads.

Objects (`T`, a RefCounted) and `Ref<T>` variables are numbered. A *job* is one call of a Ref member function that some
thread is executing; any number of jobs run at once, and one `tick` runs the next atomic action of one of them. The
atomic actions are those on the `std::atomic<int> ref_count`, the store to `ptr`, and the deletion.

Simplifications. `ref_count` is an unbounded integer (fewer than 2^31 simultaneous references). `Ref::ptr` is a plain
variable: C++ makes conflicting unsynchronised accesses to it undefined, so a job starts only if no running job writes
the variable it reads nor uses the one it writes (the user's obligation); hence it does not matter when, within the
job, `other.ptr` is read. The deleted object's own members (destructors running inside `delete this`) are not modelled.
-/
namespace Strpp.RC

/-- A RefCounted object: include/refcount.h:15,22 and whether it has been deleted. -/
structure Obj where
  count : Int
  live : Bool
deriving DecidableEq, Repr

/-- Where a job is. `dst` is the Ref variable being written, `o` an object. -/
inductive Pc
  /-- before `ref_count++` of AddRef, include/refcount.h:16 -/
  | addRef (dst o : Nat)
  /-- before `assert(ref_count != 0)`, include/refcount.h:16 -/
  | chk (dst o : Nat)
  /-- before `old = ptr; ptr = o`, include/refcount.h:41-42 (34, 35 in the constructors) -/
  | store (dst : Nat) (o : Option Nat)
  /-- before `assert(ref_count > 0)` of Release, include/refcount.h:17 -/
  | relAssert (o : Nat)
  /-- before `--ref_count == 0`, include/refcount.h:17 -/
  | relDec (o : Nat)
  /-- before `delete this`, include/refcount.h:17 -/
  | del (o : Nat)
  /-- before `o->GetRefCount() <= 1` of Unshare, include/refcount.h:77 -/
  | unshare (dst o : Nat)
  /-- after Unshare found a count of at most one: the caller writes to the object without a copy having been made. Until
  it has done so the call is in progress and owns its variable (include/array.h:458-466, include/strval.h:938-949) -/
  | write (dst o : Nat)
deriving DecidableEq, Repr

/-- A running call: the variable it reads from, the variable it writes, and its position. -/
structure Job where
  reads : Option Nat
  writes : Option Nat
  pc : Pc
deriving DecidableEq, Repr

structure State where
  objs : List Obj
  /-- Ref variables: `none` is destroyed, `some p` has `ptr = p` -/
  vars : List (Option (Option Nat))
  jobs : List Job
deriving DecidableEq, Repr

inductive Call
  /-- `Ref<T> v` (or `Ref<T> v(0)`), include/refcount.h:33 -/
  | null
  /-- `Ref<T> v(new T)`, include/refcount.h:34 -/
  | construct
  /-- `Ref<T> v(src)`, include/refcount.h:35 -/
  | copy (src : Nat)
  /-- `dst = src`, include/refcount.h:36-46 -/
  | assign (dst src : Nat)
  /-- `dst = new T`, include/refcount.h:47-56 -/
  | assignNew (dst : Nat)
  /-- `dst = (T*)0`, include/refcount.h:47-56 -/
  | assignNull (dst : Nat)
  /-- `~Ref()`, include/refcount.h:32 -/
  | destroy (v : Nat)
  /-- `dst.Unshare()`, include/refcount.h:74-81 -/
  | unshare (dst : Nat)
deriving DecidableEq, Repr

inductive Event
  | start (c : Call)
  | tick (i : Nat)
deriving DecidableEq, Repr

/-- may a new job read variable `v`? -/
def canRead (s : State) (v : Nat) : Bool := s.jobs.all (fun j => j.writes != some v)

/-- may a new job write variable `v`? -/
def canWrite (s : State) (v : Nat) : Bool := s.jobs.all (fun j => j.writes != some v && j.reads != some v)

/-- add a job -/
def State.add (s : State) (j : Job) : State := { s with jobs := s.jobs ++ [j] }

/-- Start a call. Calls that are not allowed (a variable destroyed or in use) do not happen: the state is unchanged. -/
def start (s : State) : Call → State
  | .null => { s with vars := s.vars ++ [some none] }
  | .construct =>
    { objs := s.objs ++ [⟨0, true⟩], vars := s.vars ++ [some none],
      jobs := s.jobs ++ [⟨none, some s.vars.length, .addRef s.vars.length s.objs.length⟩] }
  | .copy src =>
    match s.vars[src]? with
    | some (some p) =>
      if canRead s src then
        match p with
        | some o => { s with vars := s.vars ++ [some none],
                             jobs := s.jobs ++ [⟨some src, some s.vars.length, .addRef s.vars.length o⟩] }
        | none => { s with vars := s.vars ++ [some none] }
      else s
    | _ => s
  | .assign dst src =>
    match s.vars[src]?, s.vars[dst]? with
    | some (some p), some (some _) =>
      if canRead s src && canWrite s dst then
        match p with
        | some o => s.add ⟨some src, some dst, .addRef dst o⟩
        | none => s.add ⟨some src, some dst, .store dst none⟩
      else s
    | _, _ => s
  | .assignNew dst =>
    match s.vars[dst]? with
    | some (some _) =>
      if canWrite s dst then
        { s with objs := s.objs ++ [⟨0, true⟩], jobs := s.jobs ++ [⟨none, some dst, .addRef dst s.objs.length⟩] }
      else s
    | _ => s
  | .assignNull dst =>
    match s.vars[dst]? with
    | some (some _) => if canWrite s dst then s.add ⟨none, some dst, .store dst none⟩ else s
    | _ => s
  | .destroy v =>
    match s.vars[v]? with
    | some (some p) =>
      if canWrite s v then
        match p with
        | some o => { s with vars := s.vars.set v none, jobs := s.jobs ++ [⟨none, some v, .relAssert o⟩] }
        | none => { s with vars := s.vars.set v none }
      else s
    | _ => s
  | .unshare dst =>
    match s.vars[dst]? with
    | some (some (some o)) => if canWrite s dst then s.add ⟨none, some dst, .unshare dst o⟩ else s
    | _ => s

/-- Access to a member of an object: undefined after its deletion. -/
def obj (s : State) (o : Nat) : Res Obj :=
  match s.objs[o]? with
  | some x => if x.live then .ok x else .error .ub
  | none => .error .ub

/-- Move job `i` to its next position. -/
def goto (s : State) (i : Nat) (j : Job) (pc : Pc) : State := { s with jobs := s.jobs.set i { j with pc := pc } }

/-- Job `i` returns. -/
def finish (s : State) (i : Nat) : State := { s with jobs := s.jobs.eraseIdx i }

/-- Run the next atomic action of job `i`. -/
def tick (s : State) (i : Nat) : Res State :=
  match s.jobs[i]? with
  | none => .ok s
  | some j =>
    match j.pc with
    | .addRef dst o => do
      let x ← obj s o
      .ok (goto { s with objs := s.objs.set o { x with count := x.count + 1 } } i j (.chk dst o))
    | .chk dst o => do
      let x ← obj s o
      assert (x.count != 0)
      .ok (goto s i j (.store dst (some o)))
    | .store dst p =>
      match s.vars[dst]? with
      | some (some old) =>
        let s := { s with vars := s.vars.set dst (some p) }
        match old with
        | some o => .ok (goto s i j (.relAssert o))
        | none => .ok (finish s i)
      | _ => .error .ub
    | .relAssert o => do
      let x ← obj s o
      assert (x.count > 0)
      .ok (goto s i j (.relDec o))
    | .relDec o => do
      let x ← obj s o
      let s := { s with objs := s.objs.set o { x with count := x.count - 1 } }
      if x.count - 1 == 0 then .ok (goto s i j (.del o)) else .ok (finish s i)
    | .del o => do
      let x ← obj s o
      .ok (finish { s with objs := s.objs.set o { x with live := false } } i)
    | .unshare dst o => do
      let x ← obj s o
      if x.count ≤ 1 then .ok (goto s i j (.write dst o))
      else .ok (goto { s with objs := s.objs ++ [⟨0, true⟩] } i j (.addRef dst s.objs.length))
    | .write _ o => do
      let _ ← obj s o
      .ok (finish s i)

def step (s : State) : Event → Res State
  | .start c => .ok (start s c)
  | .tick i => tick s i

/-- Run a schedule from the initial state. -/
def run (s : State) : List Event → Res State
  | [] => .ok s
  | e :: es => do
    let s' ← step s e
    run s' es

def init : State := ⟨[], [], []⟩

end Strpp.RC
