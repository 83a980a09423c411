import Verif.Basic
import Verif.Model.Utf8
/-!
Model of include/variant.h:56-57, 70-77, 109-140, 244-266, include/array.h:36-53, 64-69, 187-191, 454-466, 494-530 and
include/refcount.h:12-74: values that hold other values (Variants that are strings, or arrays of Variants), which share bodies, used from any
number of threads.

A body is a string's (a text) or an array's (`kids`, the Variants in it), with its count; a variable is a Variant. A Variant
that holds a string or an array is a reference to a body. A call in progress is a `Job`: the list of the actions it has yet to do, of
which one `tick` does the first: an increment of a count, the test of it after the increment, the store to a Variant, the
test before a decrement, the decrement, the deletion of a body, which releases what is in it.

Simplifications. A string or an array refers to the whole of a body (slices: C69, C80, C87). A string that has its body for itself is
changed in one action (C87 has the steps), and making room for an element in a body that nobody else refers to is part of
the first action of the call, with the elements moved to new storage without changes of their counts (C64 has the steps).
The store to a Variant (its type and the union) is one action, as is reading a Variant; when a Variant is made none
(include/variant.h:247-265) the store is here before the release of what it held, which nobody can tell, as no other thread uses it. Sequential consistency. The element of a new body
is a Variant that is `none`, here `num 0`, and `num n` is any Variant that holds no reference. Looking at the count is the first thing
that a call does. Deleting a body and destroying what is in it begin in one action, and the elements are then
released in their order. Maps and arrays of strings are left out.
-/
namespace Strpp.NestPar

/-- characters -/
abbrev Text := List UCS4

/-- A Variant, include/variant.h:387-401: one that holds no reference, or a reference to body `o` -/
inductive Cell
  | num (n : Int)
  | ref (o : Nat)
deriving DecidableEq, Repr

/-- A body: include/refcount.h:22, include/array.h:593-595, include/strval.h:186-195 -/
structure Body where
  count : Int
  live : Bool
  text : Text
  kids : List Cell
deriving DecidableEq, Repr

/-- Where a Variant is: a variable, or element `k` of body `p` -/
inductive Loc
  | var (v : Nat)
  | kid (p k : Nat)
deriving DecidableEq, Repr

inductive Act
  /-- include/refcount.h:16 `ref_count++`, of a body that a Variant refers to: include/refcount.h:34 -/
  | inc (o : Nat)
  /-- the same, of a new body: include/refcount.h:33, 46-47 -/
  | adopt (o : Nat)
  /-- include/refcount.h:16 `assert(ref_count != 0)` -/
  | chk (o : Nat)
  /-- the Variant at `l` is made `c` (whose references have been counted), and what it was is released: include/variant.h:247-265,
  include/refcount.h:48-51 -/
  | swap (l : Loc) (c : Cell)
  /-- include/variant.h:109-124, the copy constructor -/
  | copyTo (src l : Loc)
  /-- include/variant.h:127-145, `operator=(const Variant v)` -/
  | asg (src l : Loc)
  /-- include/refcount.h:17 `assert(ref_count > 0)` -/
  | relA (o : Nat)
  /-- include/refcount.h:17 `--ref_count == 0` -/
  | relD (o : Nat)
  /-- include/refcount.h:17 `delete this` -/
  | del (o : Nat)
deriving DecidableEq, Repr

/-- A call in progress: the variable it writes, those it reads, and what it has yet to do -/
structure Job where
  v : Nat
  reads : List Nat
  todo : List Act
deriving DecidableEq, Repr

structure State where
  bodies : List Body
  /-- `none`: destroyed -/
  vars : List (Option Cell)
  jobs : List Job
deriving DecidableEq, Repr

def init : State := ⟨[], [], []⟩

/-- Any access to a body that has been deleted is undefined behaviour. -/
def body (bs : List Body) (o : Nat) : Res Body :=
  match bs[o]? with
  | some b => if b.live then .ok b else .error .ub
  | none => .error .ub

/-- the Variant at a place -/
def get (bs : List Body) (vs : List (Option Cell)) : Loc → Res Cell
  | .var v =>
    match vs[v]? with
    | some (some c) => .ok c
    | _ => .error .ub
  | .kid p k => do
    let b ← body bs p
    match b.kids[k]? with
    | some c => .ok c
    | none => .error .ub

/-- The bodies after a store -/
def putB (bs : List Body) (l : Loc) (c : Cell) : List Body :=
  match l with
  | .var _ => bs
  | .kid p k => bs.modify p (fun b => { b with kids := b.kids.set k c })

/-- The variables after a store -/
def putV (vs : List (Option Cell)) (l : Loc) (c : Cell) : List (Option Cell) :=
  match l with
  | .var v => vs.set v (some c)
  | .kid _ _ => vs

/-- include/refcount.h:16 -/
def addRef : Cell → List Act
  | .num _ => []
  | .ref o => [.inc o, .chk o]

/-- include/refcount.h:17 -/
def relOf : Cell → List Act
  | .num _ => []
  | .ref o => [.relA o]

/-- Do an action. Result: the bodies, the variables, and what is to be done before the rest -/
def step (bs : List Body) (vs : List (Option Cell)) : Act → Res (List Body × List (Option Cell) × List Act)
  | .inc o | .adopt o => do
    let b ← body bs o
    .ok (bs.set o { b with count := b.count + 1 }, vs, [])
  | .chk o => do
    let b ← body bs o
    assert (b.count ≠ 0)
    .ok (bs, vs, [])
  | .swap l c => do
    let old ← get bs vs l
    .ok (putB bs l c, putV vs l c, relOf old)
  | .copyTo src l => do
    let c ← get bs vs src
    .ok (bs, vs, addRef c ++ [.swap l c])
  | .asg src l => do
    let c ← get bs vs src
    .ok (bs, vs, addRef c ++ [.swap l (.num 0)] ++ addRef c ++ [.swap l c] ++ relOf c)
  | .relA o => do
    let b ← body bs o
    assert (b.count > 0)
    .ok (bs, vs, [.relD o])
  | .relD o => do
    let b ← body bs o
    .ok (bs.set o { b with count := b.count - 1 }, vs, if b.count - 1 = 0 then [.del o] else [])
  | .del o => do
    let b ← body bs o
    .ok (bs.set o { b with live := false, kids := [] }, vs, b.kids.flatMap relOf)

/-- Run the next action of call `i`; when there is none it returns. -/
def tick (s : State) (i : Nat) : Res State :=
  match s.jobs[i]? with
  | none => .ok s
  | some ⟨_, _, []⟩ => .ok { s with jobs := s.jobs.eraseIdx i }
  | some ⟨v, r, a :: t⟩ => do
    let (bs, vs, more) ← step s.bodies s.vars a
    .ok ⟨bs, vs, s.jobs.set i ⟨v, r, more ++ t⟩⟩

inductive Call
  /-- include/variant.h:60-69: a Variant that holds no reference -/
  | number (n : Int)
  /-- include/variant.h:68-71: a Variant that is a string with a new body -/
  | str (t : Text)
  /-- include/variant.h:76-79: a Variant that is an array of copies of the variables `ws` -/
  | array (ws : List Nat)
  /-- include/variant.h:109-124 -/
  | copy (w : Nat)
  /-- include/variant.h:127-145 -/
  | assign (v w : Nat)
  /-- include/variant.h:56-57 -/
  | destroy (v : Nat)
  /-- include/array.h:65-69: a new Variant, a copy of element `i` of `w` -/
  | elem (w i : Nat)
  /-- include/array.h:187-191: element `i` of `v` is assigned the value of `w` -/
  | setElem (v i w : Nat)
  /-- include/array.h:230-246, 279: the value of `w` is appended to `v` -/
  | push (v w : Nat)
  /-- include/strval.h:686-735, 807-814: the text of `v`, which is a string, is made `t` (by an insertion or a transformation) -/
  | edit (v : Nat) (t : Text)
deriving DecidableEq, Repr

/-- a new array body of `n` elements: include/array.h:520 -/
def blank (n : Nat) : Body := ⟨0, true, [], List.replicate n (.num 0)⟩

/-- `body = p`, a new body, and what it takes the reference: include/refcount.h:44-52 -/
def install (v p : Nat) : List Act := [.adopt p, .chk p, .swap (.var v) (.ref p)]

/-- the reference that a variable holds -/
def ptrOf (s : State) (v : Nat) : Res Nat :=
  match s.vars[v]? with
  | some (some (.ref o)) => .ok o
  | _ => .error .ub

/-- Assign the places `srcs` to the elements of body `p` from element `k` on: include/array.h:522-523 -/
def fill (p : Nat) : Nat → List Loc → List Act
  | _, [] => []
  | k, l :: ls => .asg l (.kid p k) :: fill p (k + 1) ls

/-- Start a call -/
def start (s : State) : Call → Res State
  | .number n => .ok { s with vars := s.vars ++ [some (.num n)] }
  | .str t => .ok ⟨s.bodies ++ [⟨0, true, t, []⟩], s.vars ++ [some (.num 0)], s.jobs ++ [⟨s.vars.length, [], install s.vars.length s.bodies.length⟩]⟩
  | .array ws => .ok ⟨s.bodies ++ [blank ws.length], s.vars ++ [some (.num 0)],
      s.jobs ++ [⟨s.vars.length, ws, fill s.bodies.length 0 (ws.map .var) ++ install s.vars.length s.bodies.length⟩]⟩
  | .copy w => .ok { s with vars := s.vars ++ [some (.num 0)], jobs := s.jobs ++ [⟨s.vars.length, [w], [.copyTo (.var w) (.var s.vars.length)]⟩] }
  | .assign v w => .ok { s with jobs := s.jobs ++ [⟨v, if w = v then [] else [w], [.asg (.var w) (.var v)]⟩] }
  | .destroy v =>
    match s.vars[v]? with
    | some (some c) => .ok { s with vars := s.vars.set v none, jobs := s.jobs ++ [⟨v, [], relOf c⟩] }
    | _ => .error .ub
  | .elem w i => do
    let p ← ptrOf s w
    .ok { s with vars := s.vars ++ [some (.num 0)], jobs := s.jobs ++ [⟨s.vars.length, [w], [.copyTo (.kid p i) (.var s.vars.length)]⟩] }
  | .setElem v i w => do
    let p ← ptrOf s v
    let b ← body s.bodies p
    assert (i < b.kids.length)
    if b.count ≤ 1 then .ok { s with jobs := s.jobs ++ [⟨v, [w], [.asg (.var w) (.kid p i)]⟩] }
    else .ok ⟨s.bodies ++ [blank b.kids.length], s.vars,
      s.jobs ++ [⟨v, [w], fill s.bodies.length 0 ((List.range b.kids.length).map (.kid p)) ++ install v s.bodies.length ++ [.asg (.var w) (.kid s.bodies.length i)]⟩]⟩
  | .push v w => do
    let p ← ptrOf s v
    let b ← body s.bodies p
    if b.count ≤ 1 then .ok { s with bodies := s.bodies.set p { b with kids := b.kids ++ [.num 0] }, jobs := s.jobs ++ [⟨v, [w], [.asg (.var w) (.kid p b.kids.length)]⟩] }
    else .ok ⟨s.bodies ++ [blank (b.kids.length + 1)], s.vars,
      s.jobs ++ [⟨v, [w], fill s.bodies.length 0 ((List.range b.kids.length).map (.kid p)) ++ install v s.bodies.length ++ [.asg (.var w) (.kid s.bodies.length b.kids.length)]⟩]⟩
  | .edit v t => do
    let p ← ptrOf s v
    let b ← body s.bodies p
    if b.count ≤ 1 then .ok { s with bodies := s.bodies.set p { b with text := t } }
    else .ok ⟨s.bodies ++ [⟨0, true, t, []⟩], s.vars, s.jobs ++ [⟨v, [], install v s.bodies.length⟩]⟩

end Strpp.NestPar
