import Verif.Basic
/-!
Model of include/array.h: ArrayBody (494-626) and ArrayR/Array (27-492).

Memory is a list of bodies; an Array variable holds the number of its body (or null), an offset and a length. A body's
reference count is the number of variables holding it (this is what C17 establishes for Ref<Body>), plus the permanent
extra reference of a body on borrowed data (include/array.h:528).

Simplifications. `new Element[n]` yields `default` elements (never observed). Elements have value semantics: copying an
element has no side effects. `Index` is uint32_t: subtractions and additions that may wrap go through `wrap`.
Bodies that nothing refers to stay in the list (their deletion is C17's subject). Allocation never fails.
Members that do not compile when instantiated are not modelled: append(const ArrayR&), operator+=(const ArrayR&),
operator+(const ArrayR&), unshift, reverse, elem_ref, last_ref.
-/
namespace Strpp.Arr

/-- conversion to uint32_t -/
def wrap (x : Int) : Nat := (x % 4294967296).toNat

/-- conversion of a uint32_t to int -/
def toInt (x : Nat) : Int := if x < 2147483648 then x else (x : Int) - 4294967296

/-- Storing element `i` of a buffer; outside of the buffer is undefined behaviour. -/
def wr {α : Type} (m : List α) (i : Nat) (x : α) : Res (List α) :=
  if i < m.length then .ok (m.set i x) else .error .ub

variable {E : Type} [Inhabited E]

/-- include/array.h:593-595: `mem` is what `start` points to (null when empty). `static`: borrowed data (524-529). -/
structure Body (E : Type) where
  mem : List E
  num : Nat
  alloc : Nat
  static : Bool
deriving DecidableEq, Repr

/-- include/array.h:507-508 -/
def Body.empty : Body E := ⟨[], 0, 0, false⟩

/-- The copying loop of include/array.h:610-611 and 520-521 and 560-561: for `i` in `[k, k+n)` store the elements of
`src` (from its start) at `pos`, `pos+1`, ... -/
def copyIn (mem : List E) (pos : Nat) : List E → Res (List E)
  | [] => .ok mem
  | e :: es => do
    let mem ← wr mem pos e
    copyIn mem (pos + 1) es

/-- Reading `n` elements from `p` on, include/array.h:520-521 and others -/
def readN (mem : List E) (p : Nat) : Nat → Res (List E)
  | 0 => .ok []
  | n + 1 => do
    let e ← rd mem p
    let es ← readN mem (p + 1) n
    .ok (e :: es)

/-- The allocation size computed by include/array.h:602-606. `minimum` is a size_t, `num_alloc` a uint32_t. -/
def newAlloc (alloc minimum : Nat) : Nat :=
  let minimum := ((minimum - 1) ||| 7) + 1
  let alloc := if alloc ≠ 0 then (((alloc * 3 % 4294967296) / 2 ||| 15) + 1) % 4294967296 else alloc
  if alloc < minimum then minimum % 4294967296 else alloc

/-- include/array.h:597-615 `resize`. `delete[] start` of borrowed data is undefined behaviour. -/
def Body.resize (b : Body E) (minimum : Nat) : Res (Body E) :=
  if minimum ≤ b.alloc then .ok b
  else if b.static then .error .ub
  else do
    let a := newAlloc b.alloc minimum
    let old ← readN b.mem 0 b.num
    let mem ← copyIn (List.replicate a default) 0 old
    .ok { b with mem := mem, alloc := a }

/-- include/array.h:509-523 `ArrayBody(data, true, length, allocate)` -/
def Body.ofData (data : List E) (allocate : Nat) : Res (Body E) := do
  let allocate := if allocate < data.length then data.length else allocate
  let b ← (Body.empty : Body E).resize allocate
  let mem ← copyIn b.mem 0 data
  .ok { b with mem := mem, num := data.length }

/-- include/array.h:524-529 `ArrayBody(data, false, length)` -/
def Body.ofStatic (data : List E) : Body E := ⟨data, data.length, 0, true⟩

/-- The moving loop of include/array.h:557-558; the argument is `i`. -/
def moveUp (mem : List E) (pos n : Nat) : Nat → Res (List E)
  | 0 => .ok mem
  | i + 1 =>
    if i + 1 > pos + n then do
      let x ← rd mem (i - n)
      let mem ← wr mem i x
      moveUp mem pos n i
    else .ok mem

/-- include/array.h:556-558: move data up, if there is any after `pos` -/
def makeRoom (b : Body E) (pos n : Nat) : Res (List E) :=
  if b.num > pos then moveUp b.mem pos n (b.num + n) else .ok b.mem

/-- include/array.h:543-563 `ArrayBody::insert`. `rc` is the reference count. -/
def Body.insert (rc : Nat) (b : Body E) (pos : Nat) (es : List E) : Res (Body E) := do
  assert (rc ≤ 1)
  if es.length == 0 then .ok b
  else do
    assert (pos ≤ b.num)
    let newSize := wrap (b.num + es.length)
    assert (newSize ≥ b.num)
    let b ← b.resize newSize
    let mem ← makeRoom b pos es.length
    let mem ← copyIn mem pos es
    .ok { b with mem := mem, num := b.num + es.length }

/-- The moving loop of include/array.h:575-576: `k` iterations from `i` on -/
def moveDown (mem : List E) (len : Nat) : Nat → Nat → Res (List E)
  | _, 0 => .ok mem
  | i, k + 1 => do
    let x ← rd mem (i + len)
    let mem ← wr mem i x
    moveDown mem len (i + 1) k

/-- include/array.h:564-579 `ArrayBody::remove`. `at` is an Index, `len` an int. -/
def Body.remove (rc : Nat) (b : Body E) (at_ : Nat) (len : Int) : Res (Body E) := do
  assert (rc ≤ 1)
  if len == 0 then .ok b
  else do
    assert (len ≥ -1)
    assert (at_ < b.num)
    let len : Nat := if len == -1 then b.num - at_ else wrap len
    let stop := wrap (b.num - len)
    let mem ← moveDown b.mem len at_ (stop - at_)
    .ok { b with mem := mem, num := wrap (b.num - len) }

/-! ### Array variables -/

/-- include/array.h:454-456 -/
structure Slice where
  body : Option Nat
  off : Nat
  num : Nat
deriving DecidableEq, Repr

structure State (E : Type) where
  bodies : List (Body E)
  /-- `none`: destroyed -/
  vars : List (Option Slice)
deriving DecidableEq, Repr

def State.init : State E := ⟨[], []⟩

/-- `body->GetRefCount()` -/
def refCount (s : State E) (b : Nat) : Nat :=
  s.vars.countP (fun v => match v with
    | some sl => sl.body == some b
    | none => false) + (match s.bodies[b]? with
    | some x => if x.static then 1 else 0
    | none => 0)

/-- the variable `v` must exist -/
def getVar (s : State E) (v : Nat) : Res Slice :=
  match s.vars[v]? with
  | some (some sl) => .ok sl
  | _ => .error .ub

/-- dereferencing a `Body*` -/
def getBody (s : State E) (b : Option Nat) : Res (Body E) :=
  match b with
  | none => .error .ub
  | some b =>
    match s.bodies[b]? with
    | some x => .ok x
    | none => .error .ub

/-- the elements from `asElements()` on, include/array.h:81-82: `n` of them are read -/
def elements (s : State E) (sl : Slice) : Res (List E) :=
  match sl.body with
  | none => if sl.num == 0 then .ok [] else .error .ub
  | some _ => do
    let b ← getBody s sl.body
    readN b.mem sl.off sl.num

def setVar (s : State E) (v : Nat) (sl : Slice) : State E := { s with vars := s.vars.set v (some sl) }

def newVar (s : State E) (sl : Slice) : State E := { s with vars := s.vars ++ [some sl] }

def setBody (s : State E) (b : Nat) (x : Body E) : State E := { s with bodies := s.bodies.set b x }

/-- include/array.h:458-466 `Unshare` -/
def unshare (s : State E) (v : Nat) (extra : Nat) : Res (State E) := do
  let sl ← getVar s v
  let keep : Bool := match sl.body with
    | some b => refCount s b ≤ 1
    | none => false
  if keep then .ok s
  else do
    let data ← elements s sl
    let b ← Body.ofData data (sl.num + extra)
    .ok (setVar { s with bodies := s.bodies ++ [b] } v ⟨some s.bodies.length, 0, sl.num⟩)

/-- include/array.h:65-67 `elem` (and 63 `operator[]`); `elem_num < num_elements` compares as unsigned -/
def elem (s : State E) (v : Nat) (i : Int) : Res E := do
  let sl ← getVar s v
  assert (i ≥ 0 && wrap i < sl.num && sl.body.isSome)
  let b ← getBody s sl.body
  rd b.mem (sl.off + i.toNat)

/-- include/array.h:187-191 `set` (through 75-78 `elem_mut`) -/
def set (s : State E) (v : Nat) (i : Int) (e : E) : Res (State E) := do
  let sl ← getVar s v
  assert (i ≥ 0 && wrap i < sl.num && sl.body.isSome)
  let s ← unshare s v 0
  let sl ← getVar s v
  let b ← getBody s sl.body
  let mem ← wr b.mem (sl.off + i.toNat) e
  match sl.body with
  | some id => .ok (setBody s id { b with mem := mem })
  | none => .error .ub

/-- include/array.h:192-216 `remove` -/
def remove (s : State E) (v : Nat) (at_ : Nat) (len : Int) : Res (State E) := do
  let sl ← getVar s v
  let len : Int := if len == -1 then toInt (wrap (sl.num - at_)) else len
  assert (wrap (sl.num - len) ≥ at_)
  if at_ == sl.num || len == 0 then .ok s
  else if wrap (at_ + len) == sl.num then .ok (setVar s v { sl with num := wrap (sl.num - len) })
  else if at_ == 0 then .ok (setVar s v { sl with off := wrap (sl.off + len), num := wrap (sl.num - len) })
  else do
    let s ← unshare s v 0
    let sl ← getVar s v
    match sl.body with
    | none => .error .ub
    | some id => do
      let b ← getBody s sl.body
      let b ← b.remove (refCount s id) at_ len
      .ok (setVar (setBody s id b) v { sl with num := wrap (sl.num - len) })

/-- include/array.h:231-237 `operator+=(const Element&)`; also `<<`, `push` and `append(const Element&)` (238-241, 278) -/
def push (s : State E) (v : Nat) (e : E) : Res (State E) := do
  let s ← unshare s v 1
  let sl ← getVar s v
  match sl.body with
  | none => .error .ub
  | some id => do
    let b ← getBody s sl.body
    let b ← b.insert (refCount s id) sl.num [e]
    .ok (setVar (setBody s id b) v { sl with num := sl.num + 1 })

/-- include/array.h:248-275 `insert(Index, const ArrayR&)`, for an addend that is not the same variable. -/
def insert (s : State E) (v : Nat) (pos : Nat) (w : Nat) : Res (State E) := do
  let sl ← getVar s v
  let ad ← getVar s w
  if sl.body == ad.body && (pos == sl.num && sl.off + pos == ad.off) then
    .ok (setVar s v { sl with num := sl.num + ad.num })
  else if sl.body == ad.body && (pos == 0 && ad.off + ad.num == sl.off) then
    .ok (setVar s v { sl with off := sl.off - ad.num, num := sl.num + ad.num })
  else do
    let s ← unshare s v ad.num
    let sl ← getVar s v
    match sl.body with
    | none => .error .ub
    | some id => do
      let b ← getBody s sl.body
      let es ← elements s ad
      let b ← b.insert (refCount s id) pos es
      .ok (setVar (setBody s id b) v { sl with num := sl.num + ad.num })

/-- include/array.h:444-449: the constructor of a slice, with its assertions -/
def mkSlice (s : State E) (body : Option Nat) (offs len : Nat) : Res (State E) := do
  let b ← getBody s body
  assert (offs < b.num)
  assert (wrap (offs + len) < b.num)
  .ok (newVar s ⟨body, offs, len⟩)

/-- include/array.h:116-131 `slice(at, len)`: a new variable -/
def slice (s : State E) (v : Nat) (at_ : Nat) (len : Int) : Res (State E) := do
  let sl ← getVar s v
  assert (len ≥ -1)
  if at_ ≥ sl.num || len == 0 then .ok (newVar s ⟨none, 0, 0⟩)
  else do
    let rest := sl.num - at_
    let len : Nat := if len == -1 then rest else if wrap len > rest then rest else wrap len
    mkSlice s sl.body (sl.off + at_) len

/-- include/array.h:170-175 `operator+(const Element&)` -/
def plusElem (s : State E) (v : Nat) (e : E) : Res (State E) := do
  let sl ← getVar s v
  let data ← elements s sl
  let b ← Body.ofData data (sl.num + 1)
  push (newVar { s with bodies := s.bodies ++ [b] } ⟨some s.bodies.length, 0, sl.num⟩) s.vars.length e

/-- Calls on Array variables -/
inductive Op (E : Type)
  /-- `Array()`, include/array.h:35-36 -/
  | default
  /-- `Array(data, size, allocate)`, include/array.h:39-46 -/
  | ofData (data : List E) (allocate : Nat)
  /-- `Array(Body*)` on borrowed data, include/array.h:47-48 -/
  | ofStatic (data : List E)
  /-- copy constructor, include/array.h:37-38 -/
  | copy (w : Nat)
  /-- `v = w`, include/array.h:49-50 -/
  | assign (v w : Nat)
  /-- destructor, include/array.h:34 -/
  | destroy (v : Nat)
  /-- include/array.h:177 -/
  | clear (v : Nat)
  /-- include/array.h:72-73 -/
  | pull (v : Nat)
  | set (v : Nat) (i : Int) (e : E)
  | remove (v at_ : Nat) (len : Int)
  /-- include/array.h:217-222 `delete_at`, and 244-245 `shift` for 0 -/
  | deleteAt (v at_ : Nat)
  | push (v : Nat) (e : E)
  | insert (v pos w : Nat)
  | slice (w at_ : Nat) (len : Int)
  | plus (w : Nat) (e : E)

/-- Execute one call. -/
def exec (s : State E) : Op E → Res (State E)
  | .default => .ok (newVar s ⟨none, 0, 0⟩)
  | .ofData data allocate => do
    let b ← Body.ofData data (if allocate < data.length then data.length else allocate)
    .ok (newVar { s with bodies := s.bodies ++ [b] } ⟨some s.bodies.length, 0, data.length⟩)
  | .ofStatic data =>
    .ok (newVar { s with bodies := s.bodies ++ [Body.ofStatic data] } ⟨some s.bodies.length, 0, data.length⟩)
  | .copy w => do
    let sl ← getVar s w
    .ok (newVar s sl)
  | .assign v w => do
    let _ ← getVar s v
    let sl ← getVar s w
    .ok (setVar s v sl)
  | .destroy v => do
    let _ ← getVar s v
    .ok { s with vars := s.vars.set v none }
  | .clear v => do
    let sl ← getVar s v
    .ok (setVar s v { sl with num := 0 })
  | .pull v => do
    let sl ← getVar s v
    assert (sl.num > 0)
    let _ ← elem s v (toInt (sl.num - 1))
    .ok (setVar s v { sl with num := sl.num - 1 })
  | .set v i e => Arr.set s v i e
  | .remove v at_ len => Arr.remove s v at_ len
  | .deleteAt v at_ => do
    let _ ← elem s v (toInt at_)
    Arr.remove s v at_ 1
  | .push v e => Arr.push s v e
  | .insert v pos w => Arr.insert s v pos w
  | .slice w at_ len => Arr.slice s w at_ len
  | .plus w e => plusElem s w e

/-- Execute a history of calls. -/
def execAll (s : State E) : List (Op E) → Res (State E)
  | [] => .ok s
  | op :: ops => do
    let s ← exec s op
    execAll s ops

/-! ### Searches, on the elements `mem[off], mem[off+1], ...` of a body

`mem` is the body's storage; a null body is not covered here: `body->data()` is then undefined behaviour (142, 151, ...). -/

/-- The loop of include/array.h:144-146 (also 368-370): `n` elements are left, `i` is `bp-dp`. -/
def findLoop (p : E → Bool) (mem : List E) (off : Nat) : Nat → Nat → Res Int
  | _, 0 => .ok (-1)
  | i, n + 1 => do
    let x ← rd mem (off + i)
    if p x then .ok i else findLoop p mem off (i + 1) n

/-- include/array.h:140-148, 364-372 `find(e, after)` / `find(match, after)`; 382-383 `detect` -/
def find (p : E → Bool) (mem : List E) (off num : Nat) (after : Int) : Res Int :=
  let start : Nat := if after < 0 then 0 else (after + 1).toNat
  findLoop p mem off start (num - start)

/-- The loop of include/array.h:153-155 (also 377-379); the argument is `bp-dp`. -/
def rfindLoop (p : E → Bool) (mem : List E) (off : Nat) : Nat → Res Int
  | 0 => .ok (-1)
  | i + 1 => do
    let x ← rd mem (off + (i + 1))
    if p x then .ok ((i + 1 : Nat) : Int) else rfindLoop p mem off i

/-- include/array.h:149-157, 373-381 `rfind` -/
def rfind (p : E → Bool) (mem : List E) (off num : Nat) (before : Int) : Res Int :=
  let start : Int := (if before < 0 then (num : Int) else before) - 1
  if start ≤ 0 then .ok (-1) else rfindLoop p mem off start.toNat

/-- include/array.h:330-338 `all` -/
def all (p : E → Bool) (mem : List E) : Nat → Nat → Res Bool
  | _, 0 => .ok true
  | i, n + 1 => do
    let x ← rd mem i
    if !p x then .ok false else all p mem (i + 1) n

/-- include/array.h:339-347 `any` -/
def any (p : E → Bool) (mem : List E) : Nat → Nat → Res Bool
  | _, 0 => .ok false
  | i, n + 1 => do
    let x ← rd mem i
    if p x then .ok true else any p mem (i + 1) n

/-- include/array.h:348-361 `one` -/
def one (p : E → Bool) (mem : List E) : Nat → Nat → Bool → Res Bool
  | _, 0, found => .ok found
  | i, n + 1, found => do
    let x ← rd mem i
    if p x then if found then .ok false else one p mem (i + 1) n true
    else one p mem (i + 1) n found

/-- include/array.h:404-412 `inject` (and 321-329 `each`, with the visits as accumulator) -/
def inject {J : Type} (f : J → E → J) (mem : List E) : Nat → Nat → J → Res J
  | _, 0, j => .ok j
  | i, n + 1, j => do
    let x ← rd mem i
    inject f mem (i + 1) n (f j x)

/-- include/array.h:413-430 `bsearch`: the state is `l` and `r` -/
def bsearchLoop (cmp : E → Int) (mem : List E) (off : Nat) : Nat → Nat → Nat → Res Int
  | 0, _, _ => .error .fuel
  | fuel + 1, l, r =>
    if r > l then do
      let m := l + (r - l + 1) / 2
      let x ← rd mem (off + m)
      let c := cmp x
      if c == 0 then .ok (toInt m)
      else if c > 0 then bsearchLoop cmp mem off fuel l (wrap (m - 1))
      else bsearchLoop cmp mem off fuel (m + 1) r
    else .ok (-1)

def bsearch (cmp : E → Int) (mem : List E) (off num : Nat) : Res Int := bsearchLoop cmp mem off (num + 1) 0 num

/-- include/array.h:89-103 `compare`, on the elements of the two slices; `lt` is the element's `operator<` -/
def compare (lt : E → E → Bool) : List E → List E → Int
  | [], [] => 0
  | [], _ :: _ => -1
  | _ :: _, [] => 0
  | a :: as, b :: bs => if lt a b then -1 else if lt b a then 1 else compare lt as bs

/-- include/array.h:104-112 `operator==`, on the elements of the two slices; `eq` is the element's `operator==` -/
def equal (eq : E → E → Bool) (a b : List E) : Bool :=
  a.length == b.length && (a.zip b).all (fun (x, y) => eq x y)

/-- include/array.h:295-318 `delete_if` on a slice whose body is not shared: the loop only moves `bp`, here as
`bp - dp`; nothing is stored. Returns the new length. -/
def deleteIfLoop (cond : E → Bool) (mem : List E) : Nat → Nat → Int → Res Int
  | _, 0, bp => .ok bp
  | i, n + 1, bp => do
    let x ← rd mem i
    deleteIfLoop cond mem (i + 1) n (if cond x then bp - 1 + 1 else bp + 1)

def deleteIf (cond : E → Bool) (mem : List E) (off num : Nat) : Res Nat := do
  let bp ← deleteIfLoop cond mem off num 0
  .ok (if bp < 0 then wrap (num - (0 - bp)) else num)

end Strpp.Arr
