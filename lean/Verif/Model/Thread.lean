import Verif.Basic
/-!
Model of class Thread (include/thread.h, src/thread.cpp; the HAVE_PTHREADS parts) as a machine: any number of Thread objects,
each with the thread that runs it, and any number of other threads; every one of them makes calls of the class in any order, and
they take turns in any order, statement by statement.

Trusted specifications: the latch is held by at most one thread, `enter` waits until it is free (C46 proves this of Latch);
`pthread_create` starts a thread and stores an id that no thread which was not yet given to `pthread_join` has;
`pthread_join` waits for the end of the thread; `pthread_cond_wait` gives up the latch and waits in one go, and may wake for no
reason; `pthread_cond_broadcast` wakes all that wait (include/condition.h, src/condition.cpp:58-64, 119-123).

Simplifications. Accesses to memory are sequentially consistent (`state` is a plain variable that is written in one thread and read
in another without the latch, which C++ leaves undefined). pthread_create does not fail. An object is resumed at most once, and
numbers of objects are not reused when memory is. Threads that are no Thread's never end. Obligations of the caller, which are
conditions in `step`: resume a Thread once; do not call resume, join or the destructor of one Thread in two threads at once, nor
anything on a destroyed Thread; join it at most once, after resume has returned, and not in its own thread; destroy it only when
its state is Ended. Latch::leave is one action.
-/
namespace Strpp.Th

/-- A thread: that of Thread object `o`, or another one (such as the main thread) -/
inductive Actor
  | ext (n : Nat)
  | worker (o : Nat)
deriving DecidableEq, Repr

/-- A pthread_t: of another thread, or made by pthread_create -/
inductive Id
  | ext (n : Nat)
  | made (k : Nat)
deriving DecidableEq, Repr

/-- include/thread.h:36 -/
inductive TState
  | new | started | ended
deriving DecidableEq, Repr

/-- what the system knows of the thread of a Thread -/
inductive Os
  | none | running | terminated | joined
deriving DecidableEq, Repr

/-- A Thread: include/thread.h:59-60, and what the model knows of it -/
structure Obj where
  /-- not yet destroyed -/
  alive : Bool
  /-- thread_id; `none` is 0 -/
  id : Option Id
  state : TState
  os : Os
  /-- the id the system has for its thread -/
  osId : Option Id
  /-- the thread that is in resume, join or the destructor -/
  user : Option Actor
deriving DecidableEq, Repr

/-- Where a thread is: before the statement that is named -/
inductive Pc
  /-- the thread of a Thread that was not resumed -/
  | unstarted
  /-- in the caller's code, or in run() -/
  | client
  | done
  -- resume(), include/thread.h:176-181
  | rsEnter (o : Nat) | rsCreate (o : Nat) | rsInsert (o : Nat) | rsLeave (o : Nat)
  -- ThreadProc() before run(), src/thread.cpp:28-35
  | tpEnter (o : Nat) | tpAssert (o : Nat) | tpLeave (o : Nat) | tpStarted (o : Nat)
  -- ThreadProc() after run(), src/thread.cpp:43-55
  | teEnter (o : Nat) | teState (o : Nat) | teFind (o : Nat) | teCount (o : Nat) | teCast (o : Nat) | teLeave (o : Nat)
  -- ~Thread() and remove_ended(), include/thread.h:147, 198-206
  | dsCheck (o : Nat) | reEnter (o : Nat) | reFind (o : Nat) | reState (o : Nat) | reDec (o : Nat) | reErase (o : Nat) | reLeave (o : Nat) (found : Bool) | reClear (o : Nat)
  -- join(), src/thread.cpp:120-138
  | joAssert (o : Nat) | joWait (o : Nat) | joEnter (o : Nat) | joFind (o : Nat) | joErase (o : Nat) | joDec (o : Nat) | joLeave (o : Nat) (found : Bool)
  -- joinAny(), src/thread.cpp:82-113
  | jaEnter | jaSize | jaNone | jaTest | jaWaiting | jaWoken | jaScan | jaErase (t : Id) (o : Nat) | jaAssert (t : Id) (o : Nat) | jaDec (o : Nat) | jaLeave (o : Nat)
  -- current(), include/thread.h:245-248; `ex`: within exit()
  | cuEnter (ex : Bool) | cuFind (ex : Bool) | cuLeave (ex : Bool) (r : Option Nat)
  -- exit(), src/thread.cpp:63-71
  | exEnter (o : Nat) | exState (o : Nat) | exFind | exCount | exCast | exLeave
deriving DecidableEq, Repr

structure State where
  /-- the number of Thread objects made so far; they are numbered from 0 -/
  n : Nat
  obj : Nat → Obj
  /-- include/thread.h:64 -/
  threads : List (Id × Nat)
  /-- include/thread.h:65 -/
  ended : Int
  /-- include/thread.h:63: the thread that holds the latch -/
  holder : Option Actor
  pc : Actor → Pc
  fault : Option Fault

/-- What a thread does next -/
inductive Act
  /-- the next statement -/
  | run
  /-- pthread_create gives this id -/
  | create (t : Id)
  /-- the loop of joinAny comes to this one; `none`: to the end -/
  | pick (e : Option (Id × Nat))
  -- in the caller's code
  | construct (state : TState)
  | resume (o : Nat)
  | destroy (o : Nat)
  | join (o : Nat)
  | joinAny
  | exit
  | current
  /-- run() returns -/
  | finish
deriving DecidableEq, Repr

inductive How
  | any | join | destroy
deriving DecidableEq, Repr

/-- What can be seen from outside -/
inductive Event
  /-- the thread of `o` has ended -/
  | ended (o : Nat)
  /-- joinAny returns `o`, or join or the destructor of `o` is done with the list of threads and `o` was in it -/
  | reaped (o : Nat) (how : How)
  /-- joinAny returns 0 -/
  | noThread (a : Actor)
  /-- current() returns -/
  | current (a : Actor) (r : Option Nat)
deriving DecidableEq, Repr

/-- What may happen that makes things go wrong -/
structure Policy where
  /-- the storage of a new Thread has the value Ended in `state`, which the constructor does not set -/
  garbage : Bool
  /-- pthread_create gives the id of a thread that was joined, while its Thread still exists -/
  reuse : Bool
  /-- exit() is called -/
  exit : Bool
deriving DecidableEq, Repr

/-- `f` with `v` at `a` -/
def upd {α β : Type} [DecidableEq α] (f : α → β) (a : α) (v : β) : α → β := fun b => if b = a then v else f b

/-- The id of a thread, pthread_self() -/
def selfId (s : State) : Actor → Option Id
  | .ext n => some (.ext n)
  | .worker o => (s.obj o).osId

/-- include/thread.h:188-193 -/
def find (m : List (Id × Nat)) (t : Option Id) : Option Nat :=
  match t with
  | none => none
  | some t => (m.find? (fun e => e.1 == t)).map Prod.snd

/-- std::map::insert: does nothing if the key is there -/
def insert (m : List (Id × Nat)) (t : Option Id) (o : Nat) : List (Id × Nat) :=
  match t with
  | none => m
  | some t => if (m.find? (fun e => e.1 == t)).isSome then m else m ++ [(t, o)]

/-- std::map::erase -/
def erase (m : List (Id × Nat)) (t : Option Id) : List (Id × Nat) :=
  match t with
  | none => m
  | some t => m.filter (fun e => e.1 != t)

/-- What the system promises of a new id: no thread that could still be joined has it -/
def posixFresh (s : State) (t : Id) : Bool :=
  (match t with | .made _ => true | .ext _ => false) &&
  (List.range s.n).all (fun o => !((s.obj o).os == .running || (s.obj o).os == .terminated) || (s.obj o).osId != some t)

/-- No Thread that still exists has the id -/
def ownFresh (s : State) (t : Id) : Bool := (List.range s.n).all (fun o => !(s.obj o).alive || (s.obj o).id != some t)

/-- go to `p` -/
def State.goto (s : State) (a : Actor) (p : Pc) : State := { s with pc := upd s.pc a p }

/-- Latch::enter, waiting (`none`) if the latch is held -/
def State.enter (s : State) (a : Actor) (p : Pc) : Option (State × Option Event) :=
  if s.holder = none then some ({ s with holder := some a, pc := upd s.pc a p }, none) else none

/-- Latch::leave -/
def State.leave (s : State) (a : Actor) (p : Pc) : State := { s with holder := none, pc := upd s.pc a p }

def State.setObj (s : State) (o : Nat) (f : Obj → Obj) : State := { s with obj := upd s.obj o (f (s.obj o)) }

/-- a use of `o`, which is undefined if it was destroyed -/
def State.use (s : State) (o : Nat) (k : State) : Option (State × Option Event) :=
  if (s.obj o).alive then some (k, none) else some ({ s with fault := some .ub }, none)

/-- an assertion -/
def State.check (s : State) (b : Bool) (k : State) : Option (State × Option Event) :=
  if b then some (k, none) else some ({ s with fault := some .assertion }, none)

/-- pthread_cond_broadcast -/
def State.broadcast (s : State) : State := { s with pc := fun a => if s.pc a = .jaWaiting then .jaWoken else s.pc a }

/-- May `a` call resume, join or the destructor of `o`? -/
def State.mayUse (s : State) (o : Nat) : Bool := decide (o < s.n) && (s.obj o).alive && (s.obj o).user == none

/-- One action of thread `a`; the citations are at `Pc`. -/
def step (P : Policy) (s : State) (a : Actor) (x : Act) : Option (State × Option Event) :=
  if s.fault.isSome then none
  else match s.pc a, x with
  -- the caller's code
  | .client, .construct st =>
    -- include/thread.h:117-140: sets neither thread_id nor state
    if P.garbage || st != .ended then some ({ s with n := s.n + 1, obj := upd s.obj s.n ⟨true, none, st, .none, none, none⟩ }, none) else none
  | .client, .resume o =>
    if s.mayUse o && s.pc (.worker o) == .unstarted then some ((s.setObj o (fun b => { b with user := some a })).goto a (.rsEnter o), none) else none
  | .client, .destroy o =>
    if s.mayUse o && (s.obj o).state == .ended then some ((s.setObj o (fun b => { b with user := some a })).goto a (.dsCheck o), none) else none
  | .client, .join o =>
    if s.mayUse o && s.pc (.worker o) != .unstarted && (s.obj o).os != .joined && a != .worker o then
      some ((s.setObj o (fun b => { b with user := some a })).goto a (.joAssert o), none) else none
  | .client, .joinAny => some (s.goto a .jaEnter, none)
  | .client, .exit => if P.exit then some (s.goto a (.cuEnter true), none) else none
  | .client, .current => some (s.goto a (.cuEnter false), none)
  | .client, .finish =>
    match a with
    | .worker o => some (s.goto a (.teEnter o), none)
    | .ext _ => none
  -- resume
  | .rsEnter o, .run => s.enter a (.rsCreate o)
  | .rsCreate o, .create t =>
    if posixFresh s t && (P.reuse || ownFresh s t) then
      s.use o (((s.setObj o (fun b => { b with id := some t, os := .running, osId := some t })).goto (.worker o) (.tpEnter o)).goto a (.rsInsert o))
    else none
  | .rsInsert o, .run => s.use o ({ s with threads := insert s.threads (s.obj o).id o }.goto a (.rsLeave o))
  | .rsLeave o, .run => some ((s.setObj o (fun b => { b with user := none })).leave a .client, none)
  -- ThreadProc
  | .tpEnter o, .run => s.enter a (.tpAssert o)
  | .tpAssert o, .run => if (s.obj o).alive then s.check (s.obj o).id.isSome (s.goto a (.tpLeave o)) else some ({ s with fault := some .ub }, none)
  | .tpLeave o, .run => some (s.leave a (.tpStarted o), none)
  | .tpStarted o, .run => s.use o ((s.setObj o (fun b => { b with state := .started })).goto a .client)
  | .teEnter o, .run => s.enter a (.teState o)
  | .teState o, .run => s.use o ((s.setObj o (fun b => { b with state := .ended })).goto a (.teFind o))
  | .teFind o, .run => s.use o (s.goto a (if (find s.threads (s.obj o).id).isSome then .teCount o else .teLeave o))
  | .teCount o, .run => some ({ s with ended := s.ended + 1 }.goto a (.teCast o), none)
  | .teCast o, .run => some (s.broadcast.goto a (.teLeave o), none)
  | .teLeave o, .run => some ((s.setObj o (fun b => { b with os := .terminated })).leave a .done, some (.ended o))
  -- ~Thread, remove_ended
  | .dsCheck o, .run => if (s.obj o).alive then s.check ((s.obj o).state == .ended) (s.goto a (.reEnter o)) else some ({ s with fault := some .ub }, none)
  | .reEnter o, .run => s.enter a (.reFind o)
  | .reFind o, .run => s.use o (s.goto a (if (find s.threads (s.obj o).id).isSome then .reState o else .reLeave o false))
  | .reState o, .run => s.use o (s.goto a (if (s.obj o).state = .ended then .reDec o else .reErase o))
  | .reDec o, .run => some ({ s with ended := s.ended - 1 }.goto a (.reErase o), none)
  | .reErase o, .run => s.use o ({ s with threads := erase s.threads (s.obj o).id }.goto a (.reLeave o true))
  | .reLeave o f, .run => some (s.leave a (.reClear o), if f then some (.reaped o .destroy) else none)
  | .reClear o, .run => s.use o ((s.setObj o (fun b => { b with id := none, alive := false, user := none })).goto a .client)
  -- join
  | .joAssert o, .run => if (s.obj o).alive then s.check (selfId s a != (s.obj o).id && (s.obj o).id.isSome) (s.goto a (.joWait o)) else some ({ s with fault := some .ub }, none)
  | .joWait o, .run => if (s.obj o).os = .terminated then some ((s.setObj o (fun b => { b with os := .joined })).goto a (.joEnter o), none) else none
  | .joEnter o, .run => s.enter a (.joFind o)
  | .joFind o, .run => s.use o (s.goto a (if (find s.threads (s.obj o).id).isSome then .joErase o else .joLeave o false))
  | .joErase o, .run =>
    if (s.obj o).alive then
      s.check ((erase s.threads (s.obj o).id).length + 1 == s.threads.length) ({ s with threads := erase s.threads (s.obj o).id }.goto a (.joDec o))
    else some ({ s with fault := some .ub }, none)
  | .joDec o, .run => some ({ s with ended := s.ended - 1 }.goto a (.joLeave o true), none)
  | .joLeave o f, .run => some ((s.setObj o (fun b => { b with user := none })).leave a .client, if f then some (.reaped o .join) else none)
  -- joinAny
  | .jaEnter, .run => s.enter a .jaSize
  | .jaSize, .run => some (s.goto a (if s.threads.length ≤ 1 then .jaNone else .jaTest), none)
  | .jaNone, .run => some (s.leave a .client, some (.noThread a))
  | .jaTest, .run => if s.ended = 0 then some (s.leave a .jaWaiting, none) else some (s.goto a .jaScan, none)
  | .jaWaiting, .run => some (s.goto a .jaWoken, none)
  | .jaWoken, .run => s.enter a .jaTest
  | .jaScan, .pick e =>
    -- which of the ended ones comes first depends on the ids, and is left open
    if s.threads.all (fun f => (s.obj f.2).alive) then
      match e with
      | some (t, o) => if (t, o) ∈ s.threads ∧ (s.obj o).state = .ended then some (s.goto a (.jaErase t o), none) else none
      | none => if s.threads.all (fun f => (s.obj f.2).state != .ended) then some (s.goto a .jaTest, none) else none
    else some ({ s with fault := some .ub }, none)
  | .jaErase t o, .run => some ({ s with threads := erase s.threads (some t) }.goto a (.jaAssert t o), none)
  | .jaAssert t o, .run => s.check (find s.threads (some t)).isNone (s.goto a (.jaDec o))
  | .jaDec o, .run => some ({ s with ended := s.ended - 1 }.goto a (.jaLeave o), none)
  | .jaLeave o, .run => some (s.leave a .client, some (.reaped o .any))
  -- current, exit
  | .cuEnter ex, .run => s.enter a (.cuFind ex)
  | .cuFind ex, .run => some (s.goto a (.cuLeave ex (find s.threads (selfId s a))), none)
  | .cuLeave ex r, .run =>
    match ex, r with
    | true, some o => some (s.leave a (.exEnter o), none)
    | true, none => some (s.leave a .client, none)
    | false, r => some (s.leave a .client, some (.current a r))
  | .exEnter o, .run => s.enter a (.exState o)
  | .exState o, .run => s.use o ((s.setObj o (fun b => { b with state := .ended })).goto a .exFind)
  | .exFind, .run => some (s.goto a (if (find s.threads (selfId s a)).isSome then .exCount else .exLeave), none)
  | .exCount, .run => some ({ s with ended := s.ended + 1 }.goto a .exCast, none)
  | .exCast, .run => some (s.broadcast.goto a .exLeave, none)
  | .exLeave, .run => some (s.leave a .client, none)
  | _, _ => none

/-- Before anything has happened: there are no Threads but the main thread's, which is not in the list (include/thread.h:93-111) -/
def init : State where
  n := 0
  obj := fun _ => ⟨false, none, .new, .none, none, none⟩
  threads := []
  ended := 0
  holder := none
  pc := fun a => match a with | .ext _ => .client | .worker _ => .unstarted
  fault := none

/-- the trace after a step, the latest event first -/
def add (e : Option Event) (tr : List Event) : List Event :=
  match e with
  | some e => e :: tr
  | none => tr

/-- The states that can be reached, with the events on the way -/
inductive Reach (P : Policy) : State → List Event → Prop
  | init : Reach P init []
  | step {s tr s' e} (a : Actor) (x : Act) : Reach P s tr → step P s a x = some (s', e) → Reach P s' (add e tr)

end Strpp.Th
