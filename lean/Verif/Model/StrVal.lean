import Verif.Model.StrBody
/-!
Model of include/strval.h at the level of StrVal variables sharing bodies: constructors, assignment, substrings,
concatenation, insertion, transformation (293-830), and StringArray::join (1207-1222).

Memory is a list of bodies; body 0 is `StrBody::nullBody`. A variable holds the number of its body, offset, length and
bookmark. The reference count of a body is the number of variables holding it (C17), plus the permanent reference of a body
on borrowed data (include/array.h:528).

Simplifications. Bodies that nothing refers to stay in the list (their deletion is C17's subject). The permanent reference
of the constant `StrVal::null` is not counted (nullBody is on borrowed data, so it always counts as shared anyhow). A const
member's cached character count is not kept (see StrBody.lean). Inserting a string in itself (`s += s`) is reported as
undefined behaviour: the addend's bytes are in the buffer that is being reallocated. Returned values are constructed in
place (copy elision).
-/
namespace Strpp.SV

open Arr (wrap toInt readN)

/-- include/strval.h:360-362 and 785 -/
structure Var where
  body : Nat
  off : Nat
  num : Nat
  mark : Mark
deriving DecidableEq, Repr

structure State where
  bodies : List SBody
  /-- `none`: destroyed -/
  vars : List (Option Var)
deriving DecidableEq, Repr

/-- At the start only include/strval.h:282 -/
def State.init : State := ⟨[nullBody], []⟩

/-- include/array.h:532-533 -/
def SBody.isStatic (b : SBody) : Bool := b.arr.alloc == 0 && b.arr.num > 0

/-- does this variable hold a reference to body `b`? -/
def holds (b : Nat) : Option Var → Bool
  | some x => x.body == b
  | none => false

/-- the permanent reference of include/array.h:528 -/
def ownRef : Option SBody → Nat
  | some x => if x.arr.static then 1 else 0
  | none => 0

/-- `body->GetRefCount()` -/
def refCount (s : State) (b : Nat) : Nat := s.vars.countP (holds b) + ownRef s.bodies[b]?

def getVar (s : State) (v : Nat) : Res Var :=
  match s.vars[v]? with
  | some (some x) => .ok x
  | _ => .error .ub

def getBody (s : State) (b : Nat) : Res SBody :=
  match s.bodies[b]? with
  | some x => .ok x
  | none => .error .ub

def setVar (s : State) (v : Nat) (x : Var) : State := { s with vars := s.vars.set v (some x) }

def newVar (s : State) (x : Var) : State := { s with vars := s.vars ++ [some x] }

def setBody (s : State) (b : Nat) (x : SBody) : State := { s with bodies := s.bodies.set b x }

def addBody (s : State) (x : SBody) : State := { s with bodies := s.bodies ++ [x] }

/-- what a member function of variable `v` sees -/
def getStr (s : State) (v : Nat) : Res Str := do
  let x ← getVar s v
  let b ← getBody s x.body
  .ok ⟨b, x.off, x.num, x.mark⟩

/-- variable `v` gets a new body of its own -/
def ownStr (s : State) (v : Nat) (σ : Str) : State :=
  setVar (addBody s σ.b) v ⟨s.bodies.length, σ.off, σ.num, σ.mark⟩

/-- variable `v` and the body it has are changed in place -/
def putStr (s : State) (v : Nat) (σ : Str) : Res State := do
  let x ← getVar s v
  .ok (setVar (setBody s x.body σ.b) v ⟨x.body, σ.off, σ.num, σ.mark⟩)

/-- a new variable on a new body -/
def newStr (s : State) (σ : Str) : State :=
  newVar (addBody s σ.b) ⟨s.bodies.length, σ.off, σ.num, σ.mark⟩

/-- include/strval.h:811: `must_copy_static` -/
def mustCopyStatic (σ : Str) : Res Bool :=
  if σ.b.isStatic then do
    let b ← σ.b.count
    .ok (decide (σ.off + σ.num < b.nc))
  else .ok false

/-- include/strval.h:807-814 `Unshare`, with 92-93 `isShared` -/
def unshare (s : State) (v : Nat) : Res State := do
  let x ← getVar s v
  let σ ← getStr s v
  let m ← mustCopyStatic σ
  if m || decide (refCount s x.body > 1) then do
    let σ ← σ.copyBody
    .ok (ownStr s v σ)
  else .ok s

/-- `StrVal()`: include/strval.h:301-305, 389 -/
def newEmpty (s : State) : State := newVar s ⟨0, 0, 0, ⟨0, 0⟩⟩

/-- The copy of `StrVal::null` that include/strval.h:469, 477 return: the copy constructor unshares it (390-395). -/
def newNull (s : State) : Res State := unshare (newEmpty s) s.vars.length

/-- include/strval.h:311-316, 401-404: `mem` holds the NUL-terminated data -/
def newC (s : State) (mem : List Byte) : Res State := do
  let c ← rd mem 0
  if c == 0#8 then .ok (newEmpty s)
  else do
    let b ← mkBody mem 0 0 0
    let σ ← Str.ofBody b
    .ok (newStr s σ)

/-- include/strval.h:317-329, 405-409: data at position `p` of `mem` -/
def newData (s : State) (mem : List Byte) (p length allocate : Nat) : Res State :=
  if length == 0 then .ok (newEmpty s)
  else do
    let b ← mkBody mem p length (if allocate ≤ length then 0 else allocate)
    let σ ← Str.ofBody b
    .ok (newStr s σ)

/-- include/strval.h:330-340, 410-412 -/
def newChar (s : State) (c : UCS4) : Res State := do
  let b ← mkBody (utf8Put c ++ [0#8]) 0 (utf8Put c).length 0
  .ok (newStr s ⟨b, 0, 1, ⟨0, 0⟩⟩)

/-- include/strval.h:341-342, 413 on a body for borrowed data (80-90): `data` includes the NUL -/
def newStatic (s : State) (data : List Byte) : Res State := do
  let σ ← Str.ofBody (staticBody data)
  .ok (newStr s σ)

/-- include/strval.h:390-395 and 306-309: the copy constructor -/
def copy (s : State) (w : Nat) : Res State := do
  let x ← getVar s w
  let b ← getBody s x.body
  let s1 := newVar s ⟨x.body, x.off, x.num, ⟨0, 0⟩⟩
  if b.isStatic then unshare s1 s.vars.length else .ok s1

/-- The implicit assignment operator with include/strval.h:344-350: the bookmark is copied too. -/
def assign (s : State) (v w : Nat) : Res State := do
  let _ ← getVar s v
  let x ← getVar s w
  .ok (setVar s v x)

def destroy (s : State) (v : Nat) : Res State := do
  let _ ← getVar s v
  .ok { s with vars := s.vars.set v none }

/-- include/strval.h:465-485 `substr` (a new variable). `at < 0` is never true of an unsigned; `len > length()-at` compares
as unsigned. -/
def substr (s : State) (w at_ : Nat) (len : Int) : Res State := do
  let x ← getVar s w
  if len < -1 || len == 0 || at_ ≥ x.num then newNull s
  else
    let n : Nat := if len > 0 then (if wrap len > x.num - at_ then x.num - at_ else wrap len) else x.num - at_
    .ok (newVar s ⟨x.body, x.off + at_, n, ⟨0, 0⟩⟩)

/-- include/strval.h:486-487 -/
def head (s : State) (w chars : Nat) : Res State := substr s w 0 (toInt chars)

/-- include/strval.h:488-489 -/
def tail (s : State) (w chars : Nat) : Res State := do
  let x ← getVar s w
  substr s w (wrap ((x.num : Int) - chars)) (toInt chars)

/-- include/strval.h:490-491 -/
def shorter (s : State) (w chars : Nat) : Res State := do
  let x ← getVar s w
  substr s w 0 (toInt (wrap ((x.num : Int) - chars)))

/-- include/strval.h:686-706 `insert` (and 707-710 `append`, `prepend`) -/
def insert (s : State) (v pos w : Nat) : Res State := do
  let x ← getVar s v
  let y ← getVar s w
  if pos == x.num && x.body == y.body && x.off + pos == y.off then
    .ok (setVar s v { x with num := x.num + y.num })
  else do
    let s ← unshare s v
    if v == w then .error .ub
    else do
      let x ← getVar s v
      let σ ← getStr s v
      let τ ← getStr s w
      let ab ← τ.bytes
      let σ ← σ.insertOwn (refCount s x.body) pos ab τ.num
      putStr s v σ

/-- include/strval.h:654-661 `operator+=` -/
def addEq (s : State) (v w : Nat) : Res State := do
  let x ← getVar s v
  let y ← getVar s w
  let b ← getBody s y.body
  if x.num == 0 && !b.isStatic then assign s v w else insert s v x.num w

/-- include/strval.h:625-639 `operator+` (a new variable) -/
def plus (s : State) (v w : Nat) : Res State := do
  let x ← getVar s v
  let y ← getVar s w
  if x.body == y.body && x.off + x.num == y.off then .ok (newVar s ⟨x.body, x.off, x.num + y.num, ⟨0, 0⟩⟩)
  else do
    let σ ← getStr s v
    let τ ← getStr s w
    let cp ← σ.nthC 0
    let cp ← deref cp
    let len ← σ.numBytes
    let al ← τ.numBytes
    let s1 ← newData s σ.b.arr.mem cp len (len + al)
    addEq s1 s.vars.length w

/-- include/strval.h:662-674 `operator+=(UCS4)`: the addend is a temporary on borrowed data -/
def addEqChar (s : State) (v : Nat) (c : UCS4) : Res State := do
  let s1 ← newStatic s (utf8Put c ++ [0#8])
  let s2 ← addEq s1 v s.vars.length
  destroy s2 s.vars.length

/-- The loop of include/strval.h:681-682; the result is variable `r` -/
def timesLoop (s : State) (r v : Nat) : Nat → Res State
  | 0 => .ok s
  | n + 1 => do
    let s ← addEq s r v
    timesLoop s r v n

/-- include/strval.h:675-684 `operator*` (a new variable). The non-const `nthChar` may move the bookmark of `v`. -/
def times (s : State) (v : Nat) (repeats : Int) : Res State := do
  let x ← getVar s v
  let σ ← getStr s v
  let r ← σ.nth 0
  let r ← r.1.nth x.num
  let s1 := setVar s v { x with mark := r.1.mark }
  timesLoop (newEmpty s1) s.vars.length v repeats.toNat

/-- include/strval.h:432-438 `asUTF8()` -/
def asUTF8 (s : State) (v : Nat) : Res State := do
  let σ ← getStr s v
  let r ← σ.mustCopy
  if r.2 then do
    let σ ← σ.copyBody
    .ok (ownStr s v σ)
  else .ok s

/-- include/strval.h:950-958 `transform` -/
def transform {S : Type} (s : State) (v : Nat) (x : XForm S) (st : S) (after : Int) : Res State := do
  let s ← unshare s v
  let y ← getVar s v
  let σ ← getStr s v
  let r ← σ.b.transform x st (refCount s y.body) after
  let σ ← σ.showAll r.2
  putStr s v { σ with mark := ⟨0, 0⟩ }

/-- include/strval.h:714-727 `toLower`, `toUpper`: the bookmark is left as it was -/
def toCase (s : State) (v : Nat) (conv : Int → UCS4 → Res (UCS4 × Option Int)) (memo : Int) : Res State := do
  let s ← unshare s v
  let y ← getVar s v
  let σ ← getStr s v
  let b ← σ.b.toCase conv memo (refCount s y.body)
  let σ ← σ.showAll b
  putStr s v σ

/-- The loop of include/strval.h:1219-1220: `joined` is variable `r`, each round uses a temporary -/
def joinLoop (s : State) (r j : Nat) : List Nat → Res State
  | [] => .ok s
  | w :: ws => do
    let t := s.vars.length
    let s ← plus s j w
    let s ← addEq s r t
    let s ← destroy s t
    joinLoop s r j ws

/-- include/strval.h:1207-1222 `StringArray::join`, the elements being variables `ws` (their bookmarks are not kept in an
array); the result is the last new variable. `e0` is the variable before it. -/
def join (s : State) (j : Nat) : List Nat → Res State
  | [] => .ok (newEmpty s)
  | w :: ws => do
    let x ← getVar s w
    let e0 := s.vars.length
    let s ← asUTF8 (newVar s ⟨x.body, x.off, x.num, ⟨0, 0⟩⟩) e0
    let σ ← getStr s e0
    let cp ← σ.nthC 0
    let cp ← deref cp
    let n ← σ.numBytes
    let s ← newData s σ.b.arr.mem cp n 0
    let s ← joinLoop s (e0 + 1) j ws
    destroy s e0

/-- Calls on StrVal variables; those making a value put it in a new variable. -/
inductive Op (S : Type)
  | default
  | ofC (mem : List Byte)
  | ofData (mem : List Byte) (length allocate : Nat)
  | ofChar (c : UCS4)
  | ofStatic (data : List Byte)
  | copy (w : Nat)
  | assign (v w : Nat)
  | destroy (v : Nat)
  | substr (w at_ : Nat) (len : Int)
  | head (w n : Nat)
  | tail (w n : Nat)
  | shorter (w n : Nat)
  | plus (v w : Nat)
  | addEq (v w : Nat)
  | addEqChar (v : Nat) (c : UCS4)
  | insert (v pos w : Nat)
  | times (v : Nat) (n : Int)
  | asUTF8 (v : Nat)
  | toLower (v : Nat) (memo : Int)
  | toUpper (v : Nat) (memo : Int)
  | transform (v : Nat) (x : XForm S) (st : S) (after : Int)
  | join (j : Nat) (ws : List Nat)

def exec {S : Type} (s : State) : Op S → Res State
  | .default => .ok (newEmpty s)
  | .ofC mem => newC s mem
  | .ofData mem length allocate => newData s mem 0 length allocate
  | .ofChar c => newChar s c
  | .ofStatic data => newStatic s data
  | .copy w => copy s w
  | .assign v w => assign s v w
  | .destroy v => destroy s v
  | .substr w at_ len => substr s w at_ len
  | .head w n => head s w n
  | .tail w n => tail s w n
  | .shorter w n => shorter s w n
  | .plus v w => plus s v w
  | .addEq v w => addEq s v w
  | .addEqChar v c => addEqChar s v c
  | .insert v pos w => insert s v pos w
  | .times v n => times s v n
  | .asUTF8 v => asUTF8 s v
  | .toLower v memo => toCase s v ucs4ToLower memo
  | .toUpper v memo => toCase s v ucs4ToUpper memo
  | .transform v x st after => transform s v x st after
  | .join j ws => join s j ws

def execAll {S : Type} (s : State) : List (Op S) → Res State
  | [] => .ok s
  | op :: ops => do
    let s ← exec s op
    execAll s ops

end Strpp.SV
