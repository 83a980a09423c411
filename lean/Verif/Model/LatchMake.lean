import Verif.Basic
/-!
Model of the construction of Latches (include/lockfree.h:61-71) by any number of threads, one action per access of the static
members, and of the timed wait of Condition (src/condition.cpp:140-160).

The static `initialised` and `attr` are zero at first. `pthread_mutexattr_init` makes the type of `attr` the default one,
`pthread_mutexattr_settype` sets it. Making a mutex from attributes that were never initialised is undefined by POSIX; with
glibc it gives a mutex of the default type.
-/
namespace Strpp.LM

/-- The type in `Latch::attr`, and so of a mutex made from it -/
inductive Kind
  /-- never initialised -/
  | raw
  /-- PTHREAD_MUTEX_DEFAULT: locking it again waits for ever -/
  | default
  /-- PTHREAD_MUTEX_ERRORCHECK -/
  | errorCheck
deriving DecidableEq, Repr

/-- Where a thread is in `Latch::Latch()` -/
inductive Pc
  | out
  /-- before `initialised = true`, include/lockfree.h:65 -/
  | store
  /-- before `pthread_mutexattr_init`, include/lockfree.h:66 -/
  | attrInit
  /-- before `pthread_mutexattr_settype`, include/lockfree.h:67 -/
  | setType
  /-- before `pthread_mutex_init`, include/lockfree.h:70 -/
  | mutexInit
deriving DecidableEq, Repr

/-- The static members include/lockfree.h:42-43, the threads, and the Latches made, the latest first, with their makers -/
structure State where
  initialised : Bool
  attr : Kind
  pc : Nat → Pc
  made : List (Nat × Kind)

/-- src/lockfree.cpp:10-11 -/
def State.init : State := ⟨false, .raw, fun _ => .out, []⟩

/-- thread `a` goes on to `p` -/
def State.go (s : State) (a : Nat) (p : Pc) : State := { s with pc := fun b => if b = a then p else s.pc b }

/-- One action of thread `a`, which makes Latches, one after the other: include/lockfree.h:61-71 -/
def State.tick (s : State) (a : Nat) : State :=
  match s.pc a with
  | .out => if s.initialised then s.go a .mutexInit else s.go a .store
  | .store => { s.go a .attrInit with initialised := true }
  | .attrInit => { s.go a .setType with attr := .default }
  | .setType => { s.go a .mutexInit with attr := .errorCheck }
  | .mutexInit => { s.go a .out with made := (a, s.attr) :: s.made }

/-- The threads act in this order. -/
def State.run (s : State) (sched : List Nat) : State := sched.foldl State.tick s

/-- What `pthread_mutex_lock` by thread `a` returns -/
inductive Ret
  | ok | deadlock
deriving DecidableEq, Repr

/-- `pthread_mutex_lock` by thread `a` on a mutex held by `holder`; `none`: it waits until another thread unlocks it -/
def lock (k : Kind) (holder : Option Nat) (a : Nat) : Option Ret :=
  match holder with
  | none => some .ok
  | some h => if h = a ∧ k = .errorCheck then some .deadlock else none

/-- include/lockfree.h:102-107 `leave`: who holds the mutex when it returns, a failed assertion, or `none`: it waits -/
def leave (k : Kind) (holder : Option Nat) (a : Nat) : Option (Res (Option Nat)) :=
  match lock k holder a with
  | none => none
  | some .ok => some (.error .assertion)
  | some .deadlock => some (.ok none)

/-! ### The timed wait -/

/-- src/condition.cpp:149-150: the `timespec` for a delay in milliseconds -/
def deadline (timeout : Int) : Nat × Nat :=
  ((timeout % 18446744073709551616).toNat / 1000, (timeout % 18446744073709551616).toNat % 1000 * 1000000)

/-- `pthread_cond_timedwait` with no signal: how many nanoseconds it waits, if it is called at the time `now` (in nanoseconds
since 1970): until the time on the clock is the one in the `timespec`, which is an absolute time. -/
def waits (now : Nat) (ts : Nat × Nat) : Nat := ts.1 * 1000000000 + ts.2 - now

/-- src/condition.cpp:140-158: the time (in nanoseconds since 1970) at which `wait(timeout, latch)` returns and `timeout` as it
leaves it. It is called at `now`, and `signals` are the times of the signals that would end it. A signal before `now` is lost, and
one at the deadline or later is too late: `pthread_cond_timedwait` has returned ETIMEDOUT by then. Simplifications: taking the latch
again takes no time, and no waits end without a signal. -/
def timedWait (timeout : Int) (now : Nat) (signals : List Nat) : Nat × Int :=
  let ts := deadline timeout
  let due := ts.1 * 1000000000 + ts.2
  match (signals.filter (fun t => now ≤ t && t < due)).min? with
  | some t => (t, timeout)
  | none => (max now due, 0)

end Strpp.LM
