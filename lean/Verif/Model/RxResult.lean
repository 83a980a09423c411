import Verif.Model.RxMatch
/-!
Model of `RxResult` as a handle on a shared, reference counted body: rx/rxmatch.cpp:677-905, rx/strregex.h:179-222,
include/refcount.h:11-87.

The variables of type `RxResult` and the bodies (`RxCaptures`) are numbered. A body has its reference count and is
alive until the count returns to zero; using a dead one is undefined. What a body contains is changed by the functions of
`Caps` (Model/RxMatch.lean). One thread of execution: an `RxResult` is not shared between threads. Simplification: the
reference count is unbounded.
-/
namespace Strpp.Rx

/-- An `RxCaptures` object: the `RefCounted` part (include/refcount.h:11-23) and the content -/
structure Body where
  count : Nat
  live : Bool
  caps : Caps
  deriving DecidableEq, Repr

/-- An `RxResult`, rx/strregex.h:219-220 -/
structure RVar where
  cap0 : Nat
  cap1 : Option Nat
  ptr : Option Nat
  deriving DecidableEq, Repr

structure Heap where
  bodies : List Body
  /-- the variables; `none` once destroyed -/
  vars : List (Option RVar)
  deriving DecidableEq, Repr

def Heap.init : Heap := ⟨[], []⟩

def Heap.var (s : Heap) (v : Nat) : Res RVar :=
  match s.vars[v]? with
  | some (some x) => .ok x
  | _ => .error .ub

/-- `*captures`: a body that is alive -/
def Heap.body (s : Heap) (b : Nat) : Res Body :=
  match s.bodies[b]? with
  | some x => if x.live then .ok x else .error .ub
  | none => .error .ub

def Heap.setVar (s : Heap) (v : Nat) (x : RVar) : Heap := { s with vars := s.vars.set v (some x) }

def Heap.setBody (s : Heap) (b : Nat) (x : Body) : Heap := { s with bodies := s.bodies.set b x }

/-- include/refcount.h:16 `AddRef` -/
def Heap.addRef (s : Heap) (p : Option Nat) : Res Heap :=
  match p with
  | none => .ok s
  | some b => do
    let x ← s.body b
    .ok (s.setBody b { x with count := x.count + 1 })

/-- include/refcount.h:17 `Release` -/
def Heap.release (s : Heap) (p : Option Nat) : Res Heap :=
  match p with
  | none => .ok s
  | some b => do
    let x ← s.body b
    assert (x.count > 0)
    .ok (s.setBody b { x with count := x.count - 1, live := x.count - 1 != 0 })

/-- include/refcount.h:36-56 `Ref::operator=`, for the member `captures` of variable `v` -/
def Heap.setPtr (s : Heap) (v : Nat) (p : Option Nat) : Res Heap := do
  let s ← s.addRef p
  let x ← s.var v
  let s := s.setVar v { x with ptr := p }
  s.release x.ptr

/-- `new RxCaptures(...)`: rx/rxmatch.cpp:677-682 and 691-697 -/
def Heap.alloc (s : Heap) (c : Caps) : Heap := { s with bodies := s.bodies ++ [⟨0, true, c⟩] }

/-- rx/rxmatch.cpp:808-814 `Unshare` -/
def Heap.unshare (s : Heap) (v : Nat) : Res Heap := do
  let x ← s.var v
  match x.ptr with
  | none => .error .ub
  | some b => do
    let y ← s.body b
    if y.count ≤ 1 then .ok s
    else (s.alloc y.caps).setPtr v (some s.bodies.length)

/-- A change of the content of `v`'s body by `f`, and what it returns -/
def Heap.modify {α : Type} (s : Heap) (v : Nat) (f : Caps → Res (α × Caps)) : Res (α × Heap) := do
  let x ← s.var v
  match x.ptr with
  | none => .error .assertion
  | some b => do
    let y ← s.body b
    let r ← f y.caps
    .ok (r.1, s.setBody b { y with caps := r.2 })

/-- Calls on `RxResult` variables -/
inductive ROp where
  /-- `RxResult()`, rx/rxmatch.cpp:771-776 -/
  | fail
  /-- `RxResult(c_max, p_max)`, rx/rxmatch.cpp:764-769 -/
  | new (counterMax captureMax : Nat)
  /-- `RxResult(const RxResult&)`, rx/rxmatch.cpp:778-783 -/
  | copy (w : Nat)
  /-- `operator=`, rx/rxmatch.cpp:785-791 -/
  | assign (v w : Nat)
  /-- `clear`, rx/rxmatch.cpp:793-799 -/
  | clear (v : Nat)
  /-- `~RxResult`, rx/rxmatch.cpp:816-818 -/
  | destroy (v : Nat)
  /-- rx/rxmatch.cpp:837-852 -/
  | captureSet (v : Nat) (index : Int) (val : Nat)
  /-- rx/rxmatch.cpp:877-883 -/
  | pushZero (v : Nat) (offset : Nat)
  /-- rx/rxmatch.cpp:885-891 -/
  | incr (v : Nat) (offset : Nat)
  /-- rx/rxmatch.cpp:893-899 -/
  | pop (v : Nat)
  deriving DecidableEq, Repr

/-- Adding a unit result to the content -/
def Caps.unit (f : Caps → Res Caps) (c : Caps) : Res (Nat × Caps) := do
  let c ← f c
  .ok (0, c)

/-- One call; the value is what `counterIncr` returns, and 0 for the others. -/
def Heap.exec (s : Heap) : ROp → Res (Nat × Heap)
  | .fail => .ok (0, { s with vars := s.vars ++ [some ⟨0, none, none⟩] })
  | .new cm pm => do
    let s' := s.alloc (Caps.new cm pm)
    let s' ← Heap.setPtr { s' with vars := s.vars ++ [some ⟨0, none, none⟩] } s.vars.length (some s.bodies.length)
    .ok (0, s')
  | .copy w => do
    let x ← s.var w
    let s' ← Heap.setPtr { s with vars := s.vars ++ [some ⟨x.cap0, x.cap1, none⟩] } s.vars.length x.ptr
    .ok (0, s')
  | .assign v w => do
    let x ← s.var w
    let s ← s.setPtr v x.ptr
    let x ← s.var w
    let y ← s.var v
    .ok (0, s.setVar v ⟨x.cap0, x.cap1, y.ptr⟩)
  | .clear v => do
    let s ← s.setPtr v none
    .ok (0, s.setVar v ⟨0, none, none⟩)
  | .destroy v => do
    let s ← s.setPtr v none
    .ok (0, { s with vars := s.vars.set v none })
  | .captureSet v i val => do
    let x ← s.var v
    if i ≤ 1 then .ok (0, s.setVar v (if i = 0 then { x with cap0 := val } else { x with cap1 := some val }))
    else do
      assert x.ptr.isSome
      let s ← s.unshare v
      s.modify v (Caps.unit fun c => c.captureSet i val)
  | .pushZero v off => do
    let s ← s.unshare v
    s.modify v (Caps.unit fun c => c.pushZero off)
  | .incr v off => do
    let s ← s.unshare v
    s.modify v fun c => c.incr off
  | .pop v => do
    let s ← s.unshare v
    s.modify v (Caps.unit Caps.pop)

/-- A history of calls -/
def Heap.execAll (s : Heap) : List ROp → Res Heap
  | [] => .ok s
  | op :: ops => do
    let r ← s.exec op
    Heap.execAll r.2 ops

/-! ### Reading: the functions of `RVal`, on what the variable shows -/

/-- What variable `v` shows; undefined if it was destroyed or its body is dead -/
def Heap.read (s : Heap) (v : Nat) : Res RVal := do
  let x ← s.var v
  match x.ptr with
  | none => .ok ⟨x.cap0, x.cap1, none⟩
  | some b => do
    let y ← s.body b
    .ok ⟨x.cap0, x.cap1, some y.caps⟩

end Strpp.Rx
