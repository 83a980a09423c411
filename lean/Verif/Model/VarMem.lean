import Verif.Model.Variant
import Verif.Model.CowMap
import Verif.Model.Array
/-!
Model of the memory of Variants (include/variant.h), together with the counted bodies they refer to: string bodies,
ArrayBody<Variant> (include/array.h:494-626) and CowMapBody<Variant, StrVal> (include/cowmap.h:175-189), which again contain
Variants. Here bodies have explicit reference counts (include/refcount.h), are deleted when their count falls to zero, and
deleting a body destroys what is in it, which may delete further bodies.

A variable is a Variant, or a StrVal, a VariantArray or a StrVariantMap. What the latter three hold is what a Variant of
that type holds in its union (include/variant.h:388-401), so that all variables are `Cell`s here; the calls that need an array, a
map or a string say so.

Simplifications. A string variable refers to the whole text of its body, and texts are never changed (no member of Variant,
VariantArray or StrVariantMap changes one): slices of strings, and in-place changes, are the subject of C24-C30 and C52.
A body is counted as referred to by the expression that creates it from the start (the code does `AddRef` when the `Ref` is
initialised, after the body's constructor has run). Lengths are unbounded (C19, C21 are about wrap-around). StrArray is not
modelled. Elements destroyed together are destroyed from the first on. Temporaries which only add and then release a reference
to a body that is otherwise referred to are left out, except in Variant::operator= and CowMap::insert. One thread (C17).
-/
namespace Strpp.VM

open Var

/-- A Variant: include/variant.h:387-401. The array is `body`, `offset`, `num_elements` of include/array.h:454-456. -/
inductive Cell where
  | none
  | integer (w : BitVec 64)
  | long (w : BitVec 64)
  | longLong (w : BitVec 64)
  | string (b : Nat)
  | varArray (a : Arr.Slice)
  | strVarMap (b : Nat)
deriving DecidableEq, Repr

/-- What is in a body: a text; the `num_alloc` elements `start` points to, and `num_elements` (include/array.h:593-595); the
entries of a std::map in order, each a key's body and a value. -/
inductive Content where
  | text (t : List UCS4)
  | cells (mem : List Cell) (num : Nat)
  | table (es : List (Nat × Cell))
deriving DecidableEq, Repr

/-- include/refcount.h:22 -/
structure Body where
  count : Nat
  content : Content
deriving DecidableEq, Repr

/-- `none`: deleted, or destroyed -/
structure State where
  bodies : List (Option Body)
  vars : List (Option Cell)
deriving DecidableEq, Repr

def State.init : State := ⟨[], []⟩

/-- The bodies a Variant refers to -/
def Cell.refs : Cell → List Nat
  | .string b => [b]
  | .varArray a => a.body.toList
  | .strVarMap b => [b]
  | _ => []

/-- The bodies referred to from a body -/
def Content.refs : Content → List Nat
  | .text _ => []
  | .cells mem _ => mem.flatMap Cell.refs
  | .table es => es.flatMap (fun e => e.1 :: e.2.refs)

def bodyRefs : Option Body → List Nat
  | some x => x.content.refs
  | none => []

/-- Any access to a body that does not exist any more is undefined behaviour. -/
def getBody (s : State) (b : Nat) : Res Body :=
  match s.bodies[b]? with
  | some (some x) => .ok x
  | _ => .error .ub

def setBody (s : State) (b : Nat) (x : Body) : State := { s with bodies := s.bodies.set b (some x) }

/-- include/refcount.h:16 -/
def addRef (s : State) (b : Nat) : Res State := do
  let x ← getBody s b
  .ok (setBody s b { x with count := x.count + 1 })

def addRefs (s : State) : List Nat → Res State
  | [] => .ok s
  | b :: bs => do
    let s ← addRef s b
    addRefs s bs

/-- include/refcount.h:17: release each body of the list; a body whose count falls to zero is deleted, and releases what it
refers to (include/array.h:501-506, ~std::map, include/variant.h:56-57 and 259-262). -/
def relLoop : Nat → State → List Nat → Res State
  | _, s, [] => .ok s
  | 0, _, _ :: _ => .error .fuel
  | n + 1, s, b :: bs => do
    let x ← getBody s b
    assert (x.count > 0)
    if x.count - 1 = 0 then relLoop n { s with bodies := s.bodies.set b none } (x.content.refs ++ bs)
    else relLoop n (setBody s b { x with count := x.count - 1 }) bs

/-- each release uses up one reference -/
def release (s : State) (bs : List Nat) : Res State :=
  relLoop ((s.bodies.flatMap bodyRefs).length + bs.length) s bs

/-- `new Body`, referred to once -/
def newBody (s : State) (c : Content) : State := { s with bodies := s.bodies ++ [some ⟨1, c⟩] }

def newVar (s : State) (c : Cell) : State := { s with vars := s.vars ++ [some c] }

/-- `new Body` and a variable referring to it -/
def newHeld (s : State) (c : Content) (f : Nat → Cell) : State := newVar (newBody s c) (f s.bodies.length)

/-- A Variant in memory: a variable, or an element of an array's body -/
inductive Place where
  | var (v : Nat)
  | elem (b i : Nat)

/-- the variable `v` must exist -/
def getVar (s : State) (v : Nat) : Res Cell :=
  match s.vars[v]? with
  | some (some c) => .ok c
  | _ => .error .ub

def setVar (s : State) (v : Nat) (c : Cell) : State := { s with vars := s.vars.set v (some c) }

/-- The elements of an ArrayBody and `num_elements` -/
def getCells (s : State) (b : Nat) : Res (List Cell × Nat) := do
  let x ← getBody s b
  match x.content with
  | .cells mem num => .ok (mem, num)
  | _ => .error .ub

def setCells (s : State) (b : Nat) (mem : List Cell) (num : Nat) : Res State := do
  let x ← getBody s b
  .ok (setBody s b { x with content := .cells mem num })

def getPlace (s : State) : Place → Res Cell
  | .var v => getVar s v
  | .elem b i => do
    let r ← getCells s b
    rd r.1 i

def setPlace (s : State) (p : Place) (c : Cell) : Res State :=
  match p with
  | .var v => do
    let _ ← getVar s v
    .ok (setVar s v c)
  | .elem b i => do
    let r ← getCells s b
    let mem ← Arr.wr r.1 i c
    setCells s b mem r.2

/-- include/variant.h:128-145 `operator=(const Variant v)`: the parameter is a copy; the place is made None (130, 248-266), and
then becomes a copy of the parameter, which is destroyed on return -/
def assign (s : State) (p : Place) (src : Cell) : Res State := do
  let s ← addRefs s src.refs
  let old ← getPlace s p
  let s ← setPlace s p .none
  let s ← release s old.refs
  let s ← addRefs s src.refs
  let s ← setPlace s p src
  release s src.refs

/-- `start[pos] = e; start[pos+1] = ...`: include/array.h:520-521, 560-561 -/
def fill (s : State) (b pos : Nat) : List Cell → Res State
  | [] => .ok s
  | c :: cs => do
    let s ← assign s (.elem b pos) c
    fill s b (pos + 1) cs

/-- The allocation size computed by include/array.h:602-606 -/
def grow (alloc minimum : Nat) : Nat :=
  let minimum := ((minimum - 1) ||| 7) + 1
  let alloc := if alloc ≠ 0 then (alloc * 3 / 2 ||| 15) + 1 else alloc
  if alloc < minimum then minimum else alloc

/-- include/array.h:597-615 `resize`: new elements are None, `num_elements` of them are assigned, the old ones are destroyed -/
def resize (s : State) (b minimum : Nat) : Res State := do
  let r ← getCells s b
  if minimum ≤ r.1.length then .ok s
  else do
    let kept := r.1.take r.2
    let s ← addRefs s (kept.flatMap Cell.refs)
    let s ← setCells s b (kept ++ List.replicate (grow r.1.length minimum - kept.length) .none) r.2
    release s (r.1.flatMap Cell.refs)

/-- include/array.h:509-523 `new ArrayBody(data, true, length, allocate)`: the number of the new body is that of the bodies before -/
def newArray (s : State) (data : List Cell) (allocate : Nat) : Res State := do
  let b := s.bodies.length
  let s := newBody s (.cells [] 0)
  let s ← resize s b (if allocate < data.length then data.length else allocate)
  let s ← fill s b 0 data
  let r ← getCells s b
  setCells s b r.1 data.length

/-- The moving loop of include/array.h:557-558; the last argument is `i`. -/
def moveUp (s : State) (b pos n : Nat) : Nat → Res State
  | 0 => .ok s
  | i + 1 =>
    if i + 1 > pos + n then do
      let r ← getCells s b
      let x ← rd r.1 (i - n)
      let s ← assign s (.elem b i) x
      moveUp s b pos n i
    else .ok s

/-- include/array.h:556-558: move data up, if there is any after `pos` -/
def makeRoom (s : State) (b pos num : Nat) : Res State :=
  if num > pos then moveUp s b pos 1 (num + 1) else .ok s

/-- include/array.h:543-563 `ArrayBody::insert` of one element -/
def insertOne (s : State) (b pos : Nat) (e : Cell) : Res State := do
  let x ← getBody s b
  assert (x.count ≤ 1)
  let r ← getCells s b
  assert (pos ≤ r.2)
  let s ← resize s b (r.2 + 1)
  let s ← makeRoom s b pos r.2
  let s ← fill s b pos [e]
  let r ← getCells s b
  setCells s b r.1 (r.2 + 1)

/-- the array in variable `v` -/
def getArray (s : State) (v : Nat) : Res Arr.Slice := do
  let c ← getVar s v
  match c with
  | .varArray a => .ok a
  | _ => .error .ub

/-- include/array.h:81-82 and the reading of `num_elements` elements from there -/
def elements (s : State) (a : Arr.Slice) : Res (List Cell) :=
  match a.body with
  | none => if a.num = 0 then .ok [] else .error .ub
  | some b => do
    let r ← getCells s b
    if a.off + a.num ≤ r.1.length then .ok ((r.1.drop a.off).take a.num) else .error .ub

/-- include/array.h:460: `body && body->GetRefCount() <= 1` -/
def alone (s : State) (a : Arr.Slice) : Res Bool :=
  match a.body with
  | some b => do
    let x ← getBody s b
    .ok (decide (x.count ≤ 1))
  | none => .ok false

/-- include/array.h:458-466 `Unshare` -/
def unshare (s : State) (v extra : Nat) : Res State := do
  let a ← getArray s v
  let keep ← alone s a
  if keep then .ok s
  else do
    let data ← elements s a
    let b := s.bodies.length
    let s ← newArray s data (a.num + extra)
    let s := setVar s v (.varArray ⟨some b, 0, a.num⟩)
    release s a.body.toList

/-- include/array.h:65-67 `elem`: a copy, in a new variable -/
def elem (s : State) (v i : Nat) : Res State := do
  let a ← getArray s v
  assert (decide (i < a.num) && a.body.isSome)
  match a.body with
  | none => .error .ub
  | some b => do
    let c ← getPlace s (.elem b (a.off + i))
    let s ← addRefs s c.refs
    .ok (newVar s c)

/-- include/array.h:187-191 `set`, 75-78 `elem_mut` -/
def set (s : State) (v i : Nat) (e : Cell) : Res State := do
  let a ← getArray s v
  assert (decide (i < a.num) && a.body.isSome)
  let s ← unshare s v 0
  let a ← getArray s v
  match a.body with
  | none => .error .ub
  | some b => assign s (.elem b (a.off + i)) e

/-- include/array.h:231-237 `operator+=(const Element&)`, also push, append and << -/
def push (s : State) (v : Nat) (e : Cell) : Res State := do
  let s ← unshare s v 1
  let a ← getArray s v
  match a.body with
  | none => .error .ub
  | some b => do
    let s ← insertOne s b a.num e
    .ok (setVar s v (.varArray { a with num := a.num + 1 }))

/-- include/array.h:72-73 `pull`, 68-69 `last`: the last element, in a new variable -/
def pull (s : State) (v : Nat) : Res State := do
  let a ← getArray s v
  assert (a.num > 0)
  let s ← elem s v (a.num - 1)
  .ok (setVar s v (.varArray { a with num := a.num - 1 }))

/-! ### Maps -/

/-- the map in variable `v` -/
def getMap (s : State) (v : Nat) : Res Nat := do
  let c ← getVar s v
  match c with
  | .strVarMap b => .ok b
  | _ => .error .ub

def getTable (s : State) (b : Nat) : Res (List (Nat × Cell)) := do
  let x ← getBody s b
  match x.content with
  | .table es => .ok es
  | _ => .error .ub

def setTable (s : State) (b : Nat) (es : List (Nat × Cell)) : Res State := do
  let x ← getBody s b
  .ok (setBody s b { x with content := .table es })

/-- The text of a string body -/
def textOf (s : State) (b : Nat) : List UCS4 :=
  match s.bodies[b]? with
  | some (some ⟨_, .text t⟩) => t
  | _ => []

/-- the order of code points, StrVal::operator< (C26) -/
def ltText : List UCS4 → List UCS4 → Bool
  | _, [] => false
  | [], _ :: _ => true
  | a :: as, b :: bs => if a.toNat < b.toNat then true else if b.toNat < a.toNat then false else ltText as bs

/-- std::less on keys in memory -/
def ltKey (s : State) (a b : Nat) : Bool := ltText (textOf s a) (textOf s b)

/-- The references a map entry holds -/
def entryRefs (e : Nat × Cell) : List Nat := e.1 :: e.2.refs

/-- std::map::insert into body `b`, of a pair: a node with copies is made if the key is not there (include/cowmap.h:73) -/
def insertEntry (s : State) (b : Nat) (e : Nat × Cell) : Res State := do
  let es ← getTable s b
  match CM.mfind (ltKey s) e.1 es with
  | some _ => .ok s
  | none => do
    let s ← addRefs s (entryRefs e)
    setTable s b (CM.minsert (ltKey s) e.1 e.2 es)

def insertEntries (s : State) (b : Nat) : List (Nat × Cell) → Res State
  | [] => .ok s
  | e :: es => do
    let s ← insertEntry s b e
    insertEntries s b es

/-- include/cowmap.h:162-172 `Unshare` -/
def unshareMap (s : State) (v : Nat) : Res State := do
  let b ← getMap s v
  let x ← getBody s b
  if x.count ≤ 1 then .ok s
  else do
    let es ← getTable s b
    let b' := s.bodies.length
    let s ← insertEntries (newBody s (.table [])) b' es
    let s := setVar s v (.strVarMap b')
    release s [b]

/-- the string in variable `v` -/
def getString (s : State) (v : Nat) : Res Nat := do
  let c ← getVar s v
  match c with
  | .string b => .ok b
  | _ => .error .ub

/-- include/cowmap.h:72-73 `insert(const Key k, const Value v)`: both parameters are copies, destroyed on return -/
def insert (s : State) (v : Nat) (e : Nat × Cell) : Res State := do
  let s ← addRefs s (entryRefs e)
  let s ← unshareMap s v
  let b ← getMap s v
  let s ← insertEntry s b e
  release s (entryRefs e)

/-- the entry with the key, if there is one -/
def findEntry (s : State) (k : Nat) (es : List (Nat × Cell)) : Option (Nat × Cell) :=
  es.find? (fun e => !ltKey s e.1 k && !ltKey s k e.1)

/-- include/cowmap.h:74-75 `remove`: std::map::erase destroys the node's key and value -/
def erase (s : State) (v k : Nat) : Res State := do
  let s ← unshareMap s v
  let b ← getMap s v
  let es ← getTable s b
  match findEntry s k es with
  | none => .ok s
  | some e => do
    let s ← setTable s b (CM.merase (ltKey s) k es)
    release s (entryRefs e)

/-- include/cowmap.h:50-56 `operator[]`: a copy of the value, or None, in a new variable -/
def lookup (s : State) (v k : Nat) : Res State := do
  let b ← getMap s v
  let es ← getTable s b
  match CM.mfind (ltKey s) k es with
  | none => .ok (newVar s .none)
  | some c => do
    let s ← addRefs s c.refs
    .ok (newVar s c)

/-! ### Coercion -/

/-- A number or None as a value, for the functions of Model/Variant.lean -/
def Cell.plain : Cell → Option Variant
  | .none => some .none
  | .integer w => some (.integer w)
  | .long w => some (.long w)
  | .longLong w => some (.longLong w)
  | _ => Option.none

/-- A value without a body as a cell -/
def ofPlain : Variant → Option Cell
  | .none => some .none
  | .integer w => some (.integer w)
  | .long w => some (.long w)
  | .longLong w => some (.longLong w)
  | _ => none

/-- The type of a cell, include/variant.h:46 -/
def Cell.type : Cell → Ty
  | .none => .none
  | .integer _ => .integer
  | .long _ => .long
  | .longLong _ => .longLong
  | .string _ => .string
  | .varArray _ => .varArray
  | .strVarMap _ => .strVarMap

/-- include/variant.h:268-376 `coerce` (through as_int, as_long, as_longlong, as_strval, as_variant_array, as_variant_map,
157-163), never to None. A number from a string is stored without the string being destroyed (297, 318, 338). A string from a
number is a new body, assigned (354, 357, 360). -/
def coerce (memo : Int) (junk : BitVec 64) (s : State) (v : Nat) (ty : Ty) : Res State := do
  let c ← getVar s v
  if c.type = ty then .ok s
  else
    match c with
    | .string b => do
      let r ← Var.coerce memo junk (.string (textOf s b)) ty
      match ofPlain r with
      | some c' => .ok (setVar s v c')
      | none => .error .assertion
    | c =>
      match c.plain with
      | none => .error .assertion
      | some x => do
        let r ← Var.coerce memo junk x ty
        match r with
        | .string t => do
          let b := s.bodies.length
          let s ← assign (newBody s (.text t)) (.var v) (.string b)
          release s [b]
        | r =>
          match ofPlain r with
          | some c' => .ok (setVar s v c')
          | none => .error .assertion

/-! ### Histories -/

/-- Calls. Those that return a value make a new variable for it. -/
inductive Op where
  /-- `Variant()`, include/variant.h:60-61 -/
  | null
  /-- `Variant(int)`, 62-63 -/
  | int (x : Int)
  /-- `Variant(long)`, 64-65 -/
  | long (x : Int)
  /-- `Variant(long long)`, 66-67 -/
  | longLong (x : Int)
  /-- `StrVal(const char*)`, `Variant(const char*)`, 70-71 -/
  | str (t : List UCS4)
  /-- `VariantArray()`, include/array.h:35-36, and `Variant(VarArray)`, include/variant.h:104 -/
  | emptyArray
  /-- `VariantArray(data, size)`, include/array.h:39-46, and `Variant(Variant*, count)`, include/variant.h:78-79 -/
  | array (vs : List Nat)
  /-- `StrVariantMap()`, include/cowmap.h:36-37, and `Variant(StrVarMap)`, include/variant.h:105 -/
  | emptyMap
  /-- a copy of any kind of variable: include/variant.h:110-125, include/array.h:37-38, include/cowmap.h:38-39, and conversion
  between the kinds: include/variant.h:68-69, 76-77, 86-87, 152-155 -/
  | copy (w : Nat)
  /-- `v = w`, include/variant.h:128-145 -/
  | assign (v w : Nat)
  /-- destructor, include/variant.h:56-57 and 248-266 -/
  | destroy (v : Nat)
  /-- `v << w`, include/variant.h:238-244 -/
  | pair (v w : Nat)
  | push (a v : Nat)
  | set (a i v : Nat)
  | elem (a i : Nat)
  | pull (a : Nat)
  | insert (m k v : Nat)
  | erase (m k : Nat)
  | lookup (m k : Nat)
  | coerce (memo : Int) (junk : BitVec 64) (v : Nat) (ty : Ty)

/-- The Variants in these variables -/
def getVars (s : State) : List Nat → Res (List Cell)
  | [] => .ok []
  | v :: vs => do
    let c ← getVar s v
    let cs ← getVars s vs
    .ok (c :: cs)

/-- One call -/
def exec (s : State) : Op → Res State
  | .null => .ok (newVar s .none)
  | .int x => .ok (newVar s (.integer (setInt 0#64 x)))
  | .long x => .ok (newVar s (.long (BitVec.ofInt 64 x)))
  | .longLong x => .ok (newVar s (.longLong (BitVec.ofInt 64 x)))
  | .str t => .ok (newHeld s (.text t) .string)
  | .emptyArray => .ok (newVar s (.varArray ⟨none, 0, 0⟩))
  | .array vs => do
    let cs ← getVars s vs
    let b := s.bodies.length
    let s ← newArray s cs cs.length
    .ok (newVar s (.varArray ⟨some b, 0, cs.length⟩))
  | .emptyMap => .ok (newHeld s (.table []) .strVarMap)
  | .copy w => do
    let c ← getVar s w
    let s ← addRefs s c.refs
    .ok (newVar s c)
  | .assign v w => do
    let c ← getVar s w
    assign s (.var v) c
  | .destroy v => do
    let c ← getVar s v
    release { s with vars := s.vars.set v none } c.refs
  | .pair v w => do
    let c ← getVar s v
    let d ← getVar s w
    let a := s.vars.length
    let s ← push (newVar s (.varArray ⟨none, 0, 0⟩)) a c
    push s a d
  | .push a v => do
    let c ← getVar s v
    push s a c
  | .set a i v => do
    let c ← getVar s v
    VM.set s a i c
  | .elem a i => elem s a i
  | .pull a => pull s a
  | .insert m k v => do
    let b ← getString s k
    let c ← getVar s v
    insert s m (b, c)
  | .erase m k => do
    let b ← getString s k
    erase s m b
  | .lookup m k => do
    let b ← getString s k
    lookup s m b
  | .coerce memo junk v ty => coerce memo junk s v ty

/-- A history of calls -/
def execAll (s : State) : List Op → Res State
  | [] => .ok s
  | op :: ops => do
    let s ← exec s op
    execAll s ops

end Strpp.VM
