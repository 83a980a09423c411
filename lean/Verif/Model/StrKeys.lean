import Verif.Model.StrVal
/-!
Model of strings as keys of a std::map: the comparison operators of include/strval.h:449-462 and 839-855 over `compare`,
and the search of std::map, which is part of the C++ library, over them.

std::map is described by what the library documents and libstdc++ does: a binary tree of entries, searched from the root
with `node < key`; a change puts one entry in, takes one out or replaces one value at the place found, after which the tree
may be of any shape with the same entries in the same order (rebalancing does not compare keys). Simplifications: keys are
named by the variable that holds them (the copy of a key in a node shows the same text in the same storage); erase(key) is
find, then erase at the iterator; allocation never fails.
-/
namespace Strpp.SV

/-! ### the operators -/

/-- include/strval.h:452 `operator!=` -/
def Str.ne (σ τ : Str) : Res Bool := do
  let e ← σ.eq τ
  .ok (!e)

/-- include/strval.h:453 `operator<` -/
def Str.lt (σ τ : Str) : Res Bool := do
  let c ← σ.compare τ
  .ok (decide (c < 0))

/-- include/strval.h:454 `operator<=` -/
def Str.le (σ τ : Str) : Res Bool := do
  let c ← σ.compare τ
  .ok (decide (c ≤ 0))

/-- include/strval.h:455 `operator>=` -/
def Str.ge (σ τ : Str) : Res Bool := do
  let c ← σ.compare τ
  .ok (decide (0 ≤ c))

/-- include/strval.h:456 `operator>` -/
def Str.gt (σ τ : Str) : Res Bool := do
  let c ← σ.compare τ
  .ok (decide (0 < c))

/-- include/strval.h:845-849, the static `compare(c1, c2)` -/
def Str.before (σ τ : Str) : Res Bool := do
  let c ← σ.compare τ
  .ok (decide (0 < c))

/-- include/strval.h:851-855, the static `equiv(c1, c2)` -/
def Str.equiv (σ τ : Str) : Res Bool := do
  let c ← σ.compare τ
  .ok (decide (c = 0))

/-! ### std::map -/

/-- a node's key is the variable that holds it -/
inductive KTree (V : Type)
  | leaf
  | node (l : KTree V) (key : Nat) (val : V) (r : KTree V)

variable {V : Type}

/-- the entries in iteration order -/
def KTree.entries : KTree V → List (Nat × V)
  | .leaf => []
  | .node l k v r => l.entries ++ (k, v) :: r.entries

/-- std::less<StrVal> -/
def lessKey (s : State) (a b : Nat) : Res Bool := do
  let σ ← getStr s a
  let τ ← getStr s b
  σ.lt τ

/-- std::map::lower_bound, as the number of entries before the one found -/
def KTree.lower (s : State) (q : Nat) : KTree V → Res Nat
  | .leaf => .ok 0
  | .node l k _ r => do
    let c ← lessKey s k q
    if c then do
      let n ← r.lower s q
      .ok (l.entries.length + 1 + n)
    else l.lower s q

/-- std::map::find and the value there -/
def KTree.find (s : State) (q : Nat) (t : KTree V) : Res (Option V) := do
  let i ← t.lower s q
  match t.entries[i]? with
  | none => .ok none
  | some (k, v) => do
    let c ← lessKey s q k
    .ok (if c then none else some v)

/-- the calls that change a map -/
inductive KOp (V : Type)
  /-- `map[q] = v` -/
  | put (q : Nat) (v : V)
  /-- `map.insert({q, v})` -/
  | insert (q : Nat) (v : V)
  /-- `map.erase(q)` -/
  | erase (q : Nat)

/-- the key of a call -/
def KOp.key : KOp V → Nat
  | .put q _ => q
  | .insert q _ => q
  | .erase q => q

/-- the entries after a call that found no entry at place `i` -/
def KOp.absent (es : List (Nat × V)) (i : Nat) : KOp V → List (Nat × V)
  | .put q v => es.take i ++ (q, v) :: es.drop i
  | .insert q v => es.take i ++ (q, v) :: es.drop i
  | .erase _ => es

/-- the entries after a call that found the entry of `k` at place `i` -/
def KOp.present (es : List (Nat × V)) (i k : Nat) : KOp V → List (Nat × V)
  | .put _ v => es.take i ++ (k, v) :: es.drop (i + 1)
  | .insert _ _ => es
  | .erase _ => es.take i ++ es.drop (i + 1)

/-- std::map::operator[] then assignment, insert, erase: the entries afterwards -/
def KTree.step (s : State) (t : KTree V) (op : KOp V) : Res (List (Nat × V)) := do
  let i ← t.lower s op.key
  match t.entries[i]? with
  | none => .ok (op.absent t.entries i)
  | some (k, _) => do
    let c ← lessKey s op.key k
    .ok (if c then op.absent t.entries i else op.present t.entries i k)

/-- a run of calls, from a tree to a tree, rebalanced in any way after each call -/
inductive KRun (s : State) : KTree V → List (KOp V) → KTree V → Prop
  | done (t : KTree V) : KRun s t [] t
  | call {t t' t'' : KTree V} {op : KOp V} {ops : List (KOp V)} :
      t.step s op = .ok t'.entries → KRun s t' ops t'' → KRun s t (op :: ops) t''

end Strpp.SV
