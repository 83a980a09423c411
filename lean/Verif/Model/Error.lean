import Verif.Model.ErrNum
import Verif.Model.RefCount
/-!
Model of include/error.h:74-119, class Error, used from any number of threads.

An `Error` holds one `Ref<Body>`, so a variable of type Error is a `Ref` variable of the machine of `Model/RefCount.lean`,
and a Body is an object of that machine together with its three members, which nothing changes after the construction.
Simplifications: those of `Model/RefCount.lean`; the pointers `def_text` and `params` are opaque numbers (0 is null), since
the class stores and returns them and never looks at what they point to.
-/
namespace Strpp.Err

/-- The members of a Body: include/error.h:103-118 -/
structure Body where
  num : BitVec 32
  text : Nat
  params : Nat
deriving DecidableEq, Repr

/-- The Error variables, the Body objects with their counts, the calls in progress; and the members of each Body -/
structure State where
  rc : RC.State
  bodies : List Body
deriving DecidableEq, Repr

inductive Call
  /-- `Error v;`, include/error.h:84-85 -/
  | none
  /-- `Error v(setmsg, d, p)`, include/error.h:86-87 -/
  | make (setmsg : BitVec 32) (d p : Nat)
  /-- `Error v(src)`, include/error.h:90-91 -/
  | copy (src : Nat)
  /-- `dst = src`, include/error.h:88-89 -/
  | assign (dst src : Nat)
  /-- the end of a variable's life (the implicit destructor) -/
  | destroy (v : Nat)
deriving DecidableEq, Repr

/-- include/error.h:107-109, `Body(ErrNum n, const char* d, const void* p)`, the number converted by include/error.h:48-49 -/
def Body.make (setmsg : BitVec 32) (d p : Nat) : Body := ⟨ErrNum.ofInt32 setmsg, d, p⟩

/-- Starting a call: include/error.h:84-91; each does one thing with the member `body` -/
def start (s : State) : Call → State
  | .none => { s with rc := RC.start s.rc .null }
  | .make setmsg d p => { rc := RC.start s.rc .construct, bodies := s.bodies ++ [Body.make setmsg d p] }
  | .copy src => { s with rc := RC.start s.rc (.copy src) }
  | .assign dst src => { s with rc := RC.start s.rc (.assign dst src) }
  | .destroy v => { s with rc := RC.start s.rc (.destroy v) }

/-- The next atomic action of a call in progress: include/refcount.h:32-46 -/
def tick (s : State) (i : Nat) : Res State := do
  let rc ← RC.tick s.rc i
  .ok { s with rc := rc }

def init : State := ⟨RC.init, []⟩

/-- `body` of variable `v`, and the members of what it points to: include/refcount.h:58,71. Undefined for a variable whose
life has ended and for a deleted Body. -/
def body (s : State) (v : Nat) : Res (Option Body) :=
  match s.rc.vars[v]? with
  | some (some none) => .ok Option.none
  | some (some (some o)) => do
    let _ ← RC.obj s.rc o
    match s.bodies[o]? with
    | some b => .ok (some b)
    | none => .error .ub
  | _ => .error .ub

/-- include/error.h:92-93, `operator ErrNum()` -/
def errNum (s : State) (v : Nat) : Res (BitVec 32) := do
  let b ← body s v
  match b with
  | some b => .ok b.num
  | none => .ok (ErrNum.ofInt32 0#32)

/-- include/error.h:94-95, `default_text()` -/
def defaultText (s : State) (v : Nat) : Res Nat := do
  let b ← body s v
  match b with
  | some b => .ok b.text
  | none => .ok 0

/-- include/error.h:96-97, `parameters()` -/
def parameters (s : State) (v : Nat) : Res Nat := do
  let b ← body s v
  match b with
  | some b => .ok b.params
  | none => .ok 0

/-- include/error.h:98, `operator int32_t()` -/
def int32 (s : State) (v : Nat) : Res (BitVec 32) := do
  let b ← body s v
  match b with
  | some b => .ok (ErrNum.toInt32 b.num)
  | none => .ok 0#32

end Strpp.Err
