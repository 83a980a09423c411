import Verif.Basic
/-!
Model of include/cowmap.h: CowMap (22-173) over CowMapBody (175-189), a std::map with a reference count.

std::map is part of the C++ library: it is modelled as the list of its entries in iteration order, searched with the
comparison `lt` of the keys (std::less<K>). A body's reference count is the number of CowMap variables holding it (this
is what C17 establishes for Ref<Body>).

Simplifications: keys and values have value semantics; allocation never fails; bodies that nothing refers to stay in the
list. keys, values, each, all, any, one, select, map and inject (86-157) do not compile when instantiated (`it.first` on
an iterator) and are not modelled. Iterators held by the caller are not modelled.
-/
namespace Strpp.CM

variable {K V : Type} (lt : K → K → Bool)

/-- std::map::find, then `->second` -/
def mfind (k : K) : List (K × V) → Option V
  | [] => none
  | (k', v) :: m => if lt k' k then mfind k m else if lt k k' then none else some v

/-- std::map::insert: an existing entry is kept -/
def minsert (k : K) (v : V) : List (K × V) → List (K × V)
  | [] => [(k, v)]
  | (k', v') :: m =>
    if lt k' k then (k', v') :: minsert k v m else if lt k k' then (k, v) :: (k', v') :: m else (k', v') :: m

/-- std::map::erase(key) -/
def merase (k : K) : List (K × V) → List (K × V)
  | [] => []
  | (k', v') :: m => if lt k' k then (k', v') :: merase k m else if lt k k' then (k', v') :: m else m

/-- Inserting entries one by one into a new body: include/cowmap.h:43-45 and 168-170 -/
def build (es : List (K × V)) : List (K × V) := es.foldl (fun m e => minsert lt e.1 e.2 m) []

structure State (K V : Type) where
  /-- the bodies, each by its entries in order -/
  bodies : List (List (K × V))
  /-- the CowMap variables: the body of each; `none` once destroyed -/
  vars : List (Option Nat)
deriving DecidableEq, Repr

def State.init : State K V := ⟨[], []⟩

/-- `body->GetRefCount()` -/
def refCount (s : State K V) (b : Nat) : Nat := s.vars.countP (fun v => v == some b)

/-- the number of a variable's body -/
def bodyOf (s : State K V) (v : Nat) : Res Nat :=
  match s.vars[v]? with
  | some (some b) => .ok b
  | _ => .error .ub

/-- the entries of a body -/
def entries (s : State K V) (b : Nat) : Res (List (K × V)) :=
  match s.bodies[b]? with
  | some m => .ok m
  | none => .error .ub

/-- `body = new Body` with given entries, for variable `v` -/
def fresh (s : State K V) (v : Nat) (m : List (K × V)) : State K V :=
  { bodies := s.bodies ++ [m], vars := s.vars.set v (some s.bodies.length) }

/-- include/cowmap.h:162-172 `Unshare` -/
def unshare (s : State K V) (v : Nat) : Res (State K V) := do
  let b ← bodyOf s v
  if refCount s b ≤ 1 then .ok s
  else do
    let m ← entries s b
    .ok (fresh s v (build lt m))

/-- a change of the entries of `v`'s body -/
def modify (s : State K V) (v : Nat) (f : List (K × V) → List (K × V)) : Res (State K V) := do
  let b ← bodyOf s v
  let m ← entries s b
  .ok { s with bodies := s.bodies.set b (f m) }

/-- include/cowmap.h:72-73 `insert` -/
def insert (s : State K V) (v : Nat) (k : K) (x : V) : Res (State K V) := do
  let s ← unshare lt s v
  modify s v (minsert lt k x)

/-- include/cowmap.h:74-75 `remove` -/
def remove (s : State K V) (v : Nat) (k : K) : Res (State K V) := do
  let s ← unshare lt s v
  modify s v (merase lt k)

/-- include/cowmap.h:78-80: the first statements of `put` -/
def putErase (s : State K V) (v : Nat) (k : K) : Res (State K V) := do
  let b ← bodyOf s v
  let m ← entries s b
  if (mfind lt k m).isSome then modify s v (merase lt k) else .ok s

/-- include/cowmap.h:76-83 `put` -/
def put (s : State K V) (v : Nat) (k : K) (x : V) : Res (State K V) := do
  let s ← putErase lt s v k
  insert lt s v k x

/-- Calls that construct or change maps -/
inductive Op (K V : Type)
  /-- include/cowmap.h:36-37 -/
  | default
  /-- include/cowmap.h:40-46 -/
  | ofPairs (es : List (K × V))
  /-- include/cowmap.h:38-39 -/
  | copy (w : Nat)
  /-- include/cowmap.h:47-48 -/
  | assign (v w : Nat)
  /-- include/cowmap.h:35 -/
  | destroy (v : Nat)
  /-- include/cowmap.h:71 -/
  | clear (v : Nat)
  | insert (v : Nat) (k : K) (x : V)
  | remove (v : Nat) (k : K)
  | put (v : Nat) (k : K) (x : V)

/-- Execute one call. -/
def exec (s : State K V) : Op K V → Res (State K V)
  | .default => .ok { bodies := s.bodies ++ [[]], vars := s.vars ++ [some s.bodies.length] }
  | .ofPairs es => .ok { bodies := s.bodies ++ [build lt es], vars := s.vars ++ [some s.bodies.length] }
  | .copy w => do
    let b ← bodyOf s w
    .ok { s with vars := s.vars ++ [some b] }
  | .assign v w => do
    let _ ← bodyOf s v
    let b ← bodyOf s w
    .ok { s with vars := s.vars.set v (some b) }
  | .destroy v => do
    let _ ← bodyOf s v
    .ok { s with vars := s.vars.set v none }
  | .clear v => do
    let _ ← bodyOf s v
    .ok (fresh s v [])
  | .insert v k x => CM.insert lt s v k x
  | .remove v k => CM.remove lt s v k
  | .put v k x => CM.put lt s v k x

/-- Execute a history of calls. -/
def execAll (s : State K V) : List (Op K V) → Res (State K V)
  | [] => .ok s
  | op :: ops => do
    let s ← exec lt s op
    execAll s ops

/-! ### Reading -/

/-- iteration over `begin()` to `end()`, include/cowmap.h:63-66 -/
def iterate (s : State K V) (v : Nat) : Res (List (K × V)) := do
  let b ← bodyOf s v
  entries s b

/-- include/cowmap.h:50-56 `operator[]` -/
def get [Inhabited V] (s : State K V) (v : Nat) (k : K) : Res V := do
  let m ← iterate s v
  match mfind lt k m with
  | some x => .ok x
  | none => .ok default

/-- include/cowmap.h:57-61 `contains` -/
def contains (s : State K V) (v : Nat) (k : K) : Res Bool := do
  let m ← iterate s v
  .ok (mfind lt k m).isSome

/-- include/cowmap.h:67-68 `size` -/
def size (s : State K V) (v : Nat) : Res Nat := do
  let m ← iterate s v
  .ok m.length

end Strpp.CM
