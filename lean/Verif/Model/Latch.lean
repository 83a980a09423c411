import Verif.Basic
/-!
Model of class Latch (include/lockfree.h:27-107, the HAVE_PTHREADS part) as a machine with any number of threads, each of which
makes any calls in any order.

The mutex is a POSIX mutex of type PTHREAD_MUTEX_ERRORCHECK: `pthread_mutex_lock` by its holder gives EDEADLK and changes nothing,
by another thread waits until it is free; `pthread_mutex_trylock` gives EBUSY if anyone holds it.
The part for other systems is not modelled (it does not compile: probe(ThreadId) is declared and defined with different types).
-/
namespace Strpp.Lt

/-- The calls a thread can make -/
inductive Call
  | enter | leave | probe | holding
deriving DecidableEq, Repr

/-- Where a thread is -/
inductive Pc
  /-- not in any call -/
  | out
  /-- before `pthread_mutex_lock`, include/lockfree.h:87 -/
  | enterLock
  /-- before `pthread_mutex_trylock`, include/lockfree.h:81 -/
  | probeLock
  /-- before `pthread_mutex_lock`, include/lockfree.h:105; `ret`: within `holding` -/
  | leaveLock (ret : Bool)
  /-- before `pthread_mutex_unlock`, include/lockfree.h:106 -/
  | leaveUnlock (ret : Bool)
  /-- before `pthread_mutex_lock`, include/lockfree.h:94 -/
  | holdLock
deriving DecidableEq, Repr

/-- What can be seen from outside: thread `a` calls, and calls return -/
inductive Event
  | call (a : Nat) (c : Call)
  | entered (a : Nat)
  | left (a : Nat)
  | probed (a : Nat) (got : Bool)
  | held (a : Nat) (yes : Bool)
  /-- a failed assertion -/
  | aborted (a : Nat)
deriving DecidableEq, Repr

structure State where
  /-- the thread that holds the mutex -/
  holder : Option Nat
  pc : Nat → Pc
  aborted : Bool

/-- `f` with `v` at `a` -/
def upd {α : Type} (f : Nat → α) (a : Nat) (v : α) : Nat → α := fun b => if b = a then v else f b

/-- include/lockfree.h:61-71 -/
def init : State := ⟨none, fun _ => .out, false⟩

/-- One action of thread `a`: the next one of the call it is in, or making call `c`; with the event that can be seen. `none`: it
waits, or `c` does not apply. -/
def step (s : State) (a : Nat) (c : Option Call) : Option (State × Option Event) :=
  if s.aborted then none
  else match s.pc a, c with
  | .out, some .enter => some ({ s with pc := upd s.pc a .enterLock }, some (.call a .enter))
  | .out, some .leave => some ({ s with pc := upd s.pc a (.leaveLock false) }, some (.call a .leave))
  | .out, some .probe => some ({ s with pc := upd s.pc a .probeLock }, some (.call a .probe))
  | .out, some .holding => some ({ s with pc := upd s.pc a .holdLock }, some (.call a .holding))
  -- enter: lockfree.h:85-89
  | .enterLock, none =>
    match s.holder with
    | none => some ({ s with holder := some a, pc := upd s.pc a .out }, some (.entered a))
    | some h => if h = a then some ({ s with aborted := true }, some (.aborted a)) else none
  -- probe: lockfree.h:79-82
  | .probeLock, none =>
    match s.holder with
    | none => some ({ s with holder := some a, pc := upd s.pc a .out }, some (.probed a true))
    | some _ => some ({ s with pc := upd s.pc a .out }, some (.probed a false))
  -- leave: lockfree.h:103-107
  | .leaveLock ret, none =>
    match s.holder with
    | none => some ({ s with holder := some a, aborted := true }, some (.aborted a))
    | some h => if h = a then some ({ s with pc := upd s.pc a (.leaveUnlock ret) }, none) else none
  | .leaveUnlock ret, none =>
    some ({ s with holder := (if s.holder = some a then none else s.holder), pc := upd s.pc a .out }, some (if ret then .held a false else .left a))
  -- holding: lockfree.h:92-100
  | .holdLock, none =>
    match s.holder with
    | none => some ({ s with holder := some a, pc := upd s.pc a (.leaveLock true) }, none)
    | some h => if h = a then some ({ s with pc := upd s.pc a .out }, some (.held a true)) else none
  | _, _ => none

/-- The states that can be reached, with what was seen on the way, the latest first -/
inductive Reach : State → List Event → Prop
  | init : Reach init []
  | quiet {s tr s'} (a : Nat) (c : Option Call) : Reach s tr → step s a c = some (s', none) → Reach s' tr
  | seen {s tr s'} (a : Nat) (c : Option Call) (e : Event) : Reach s tr → step s a c = some (s', some e) → Reach s' (e :: tr)

end Strpp.Lt
