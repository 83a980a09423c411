import Verif.Model.StrBody
/-!
Model of include/strval.h for strings of raw bytes (StrRawBinary) too: the members of StrBodyI and StrValI that look at `isRawBinary()`,
with both of their branches. Where a body is not raw these are the functions of Model/StrBody.lean (theorem C97_otherwise).

One value at a time: a `Str` has its body in it, and the members that change a body in place are modelled from the point where the body is the
value's own (its reference count is then 1). Sharing is the same as for other strings, see Model/StrVal.lean.
-/
set_option linter.unusedVariables false
namespace Strpp.SV.Raw
open Strpp.Arr

/-- include/strval.h:33, for a 32 bit index -/
def rawMark : Nat := 4294967295

/-- include/strval.h:96-97 -/
def isRaw (b : SBody) : Bool := b.nc == rawMark

/-- include/strval.h:80-90 `StrBodyI(data, StrRawBinary, length, allocate)`, for data at position `p` of a buffer -/
def mkRaw (mem : List Byte) (p length allocate : Nat) : Res SBody := do
  let b ← mkBody mem p length allocate
  .ok { b with nc := rawMark }

/-- include/strval.h:99-106 `numChars`: the body, counted, and the number -/
def numChars (b : SBody) : Res (SBody × Nat) :=
  if isRaw b then .ok (b, b.arr.num - 1)
  else do
    let b ← b.count
    .ok (b, b.nc)

/-- include/strval.h:109-177 `nthChar(char_num, mark)`; 117 is the branch for raw data, without a check of the range -/
def nthChar (b : SBody) (k : Nat) (mark : Mark) : Res (SBody × Mark × Option Nat) :=
  if isRaw b then .ok (b, mark, some k) else SV.nthChar b k mark

/-- include/strval.h:341-342, 413: a value for a whole body, also the end of 311-316 -/
def ofBody (b : SBody) : Res Str := do
  let r ← numChars b
  .ok ⟨r.1, 0, r.2, ⟨0, 0⟩⟩

/-- include/strval.h:311-316, 401-404 with StrRawBinary: `mem` holds the NUL-terminated data. Nothing becomes the null body, which is not raw. -/
def ofC (mem : List Byte) : Res Str := do
  let c ← rd mem 0
  if c == 0#8 then .ok ⟨nullBody, 0, 0, ⟨0, 0⟩⟩
  else do
    let b ← mkRaw mem 0 0 0
    ofBody b

/-- include/strval.h:80-90 and 413: `StrVal(new StrBody(data, StrRawBinary, length))` -/
def ofData (mem : List Byte) (length : Nat) : Res Str := do
  let b ← mkRaw mem 0 length 0
  ofBody b

/-- include/strval.h:775-780 -/
def nth (σ : Str) (k : Nat) : Res (Str × Option Nat) :=
  if k > σ.num then .ok (σ, none)
  else do
    let r ← nthChar σ.b (σ.off + k) σ.mark
    .ok ({ σ with b := r.1, mark := r.2.1 }, r.2.2)

/-- include/strval.h:768-774 -/
def nthC (σ : Str) (k : Nat) : Res (Option Nat) := do
  let r ← nth σ k
  .ok r.2

/-- include/strval.h:415-420 -/
def numBytes (σ : Str) : Res Nat := do
  let ep ← nthC σ σ.num
  assert ep.isSome
  let ep ← deref ep
  let cp ← nthC σ 0
  let cp ← deref cp
  .ok (ep - cp)

/-- include/strval.h:430 and 787-792 `getChar`: a raw byte is a `char`, which is signed, converted to UCS4 -/
def charAt (σ : Str) (p : Nat) : Res UCS4 :=
  if isRaw σ.b then do
    let b ← rd σ.b.arr.mem p
    .ok (b.signExtend 32)
  else do
    let r ← utf8Get σ.b.arr.mem p
    .ok r.1

/-- include/strval.h:423-431 `operator[]` -/
def get (σ : Str) (i : Int) : Res UCS4 :=
  if wrap i == σ.num then .ok 0#32
  else do
    let cp ← nthC σ (wrap i)
    match cp with
    | none => .ok 0xFFFFFFFF#32
    | some p => charAt σ p

/-- include/strval.h:439-445 `asUTF8(bytes) const` -/
def bytes (σ : Str) : Res (List Byte) := do
  let cp ← nthC σ 0
  let ep ← nthC σ σ.num
  let cp ← deref cp
  let ep ← deref ep
  readN σ.b.arr.mem cp (ep - cp)

/-- include/strval.h:801: the new body has the type of the old one -/
def mkLike (raw : Bool) (mem : List Byte) (p length : Nat) : Res SBody :=
  if raw then mkRaw mem p length 0 else mkBody mem p length 0

/-- include/strval.h:793-805 `copyBody` -/
def copyBody (σ : Str) : Res Str := do
  let save := σ.mark
  let r ← nth σ 0
  let cp := r.2
  let r ← nth r.1 σ.num
  let ep := r.2
  let σ := r.1
  let cp ← deref cp
  let ep ← deref ep
  let b ← mkLike (isRaw σ.b) σ.b.arr.mem cp (ep - cp)
  .ok ⟨b, 0, σ.num, ⟨wrap ((save.cn : Int) - σ.off), wrap ((save.bn : Int) - cp)⟩⟩

/-- include/strval.h:432-438 `asUTF8()`: the value, with a body of its own if need be, and where its data begins -/
def asUTF8 (σ : Str) : Res (Str × Nat) := do
  let n ← numChars σ.b
  let z ← n.1.nulTerminated
  let σ : Str := { σ with b := n.1 }
  if decide (σ.off + σ.num < n.2) || !z then do
    let σ ← copyBody σ
    let p ← nth σ 0
    let q ← deref p.2
    .ok (p.1, q)
  else do
    let p ← nth σ 0
    let q ← deref p.2
    .ok (p.1, q)

/-- include/strval.h:465-485 `substr`. Simplification: the null string is returned on the null body, not on a copy of it. -/
def substr (σ : Str) (at_ : Nat) (len : Int) : Str :=
  if len < -1 || len == 0 || at_ ≥ σ.num then ⟨nullBody, 0, 0, ⟨0, 0⟩⟩
  else
    let n : Nat := if len > 0 then (if wrap len > σ.num - at_ then σ.num - at_ else wrap len) else σ.num - at_
    ⟨σ.b, σ.off + at_, n, ⟨0, 0⟩⟩

/-- include/strval.h:857-867 `compare(comparand)`, style CompareRaw -/
def compare (σ τ : Str) : Res Int := do
  let a ← nthC σ 0
  let a ← deref a
  let b ← nthC τ 0
  let b ← deref b
  let n ← numBytes σ
  let c ← memcmp σ.b.arr.mem a τ.b.arr.mem b n
  if c == 0 then do
    let n ← numBytes σ
    let m ← numBytes τ
    .ok (toInt (wrap ((n : Int) - m)))
  else .ok c

/-- include/strval.h:449-451 `operator==` -/
def eq (σ τ : Str) : Res Bool :=
  if σ.num == τ.num then do
    let c ← compare σ τ
    .ok (c == 0)
  else .ok false

/-- The shape of the searches of include/strval.h:499-506, 561-570, 592-603 -/
def findLoop (hit : UCS4 → Res Bool) (σ : Str) : Nat → Nat → Res Int
  | 0, _ => .error .fuel
  | fuel + 1, n => do
    let p ← nthC σ n
    match p with
    | none => .ok (-1)
    | some up => do
      let c ← charAt σ up
      let h ← hit c
      if h then .ok (toInt n) else findLoop hit σ fuel (wrap ((n : Int) + 1))

/-- The shape of the backward searches of include/strval.h:512-519, 576-584, 609-619 -/
def rfindLoop (hit : UCS4 → Res Bool) (σ : Str) : Nat → Nat → Res Int
  | 0, _ => .error .fuel
  | fuel + 1, n => do
    let p ← nthC σ n
    match p with
    | none => .ok (-1)
    | some up => do
      let c ← charAt σ up
      let h ← hit c
      if h then .ok (toInt n) else rfindLoop hit σ fuel (wrap ((n : Int) - 1))

/-- The loop of include/strval.h:564-566 (also 579-581, 595-597, 612-614) -/
def memLoop (s1 : Str) (ch : UCS4) : Nat → Nat → Res Bool
  | 0, _ => .error .fuel
  | fuel + 1, i =>
    if i < s1.num then do
      let c ← get s1 (toInt i)
      if ch == c then .ok true else memLoop s1 ch fuel (i + 1)
    else .ok false

def has (s1 : Str) (ch : UCS4) : Res Bool := memLoop s1 ch (s1.num + 1) 0

def hasNot (s1 : Str) (ch : UCS4) : Res Bool := do
  let h ← has s1 ch
  .ok !h

/-- include/strval.h:495-507 `find(UCS4, after)` -/
def find (σ : Str) (ch : UCS4) (after : Int) : Res Int :=
  findLoop (fun c => .ok (ch == c)) σ (σ.num + 2) (wrap (after + 1))

/-- include/strval.h:508-520 `rfind(UCS4, before)` -/
def rfind (σ : Str) (ch : UCS4) (before : Int) : Res Int :=
  rfindLoop (fun c => .ok (ch == c)) σ (σ.num + 2) (σ.rstart before)

/-- include/strval.h:557-571 `findAny` -/
def findAny (σ s1 : Str) (after : Int) : Res Int := findLoop (has s1) σ (σ.num + 2) (wrap (after + 1))

/-- include/strval.h:572-585 `rfindAny` -/
def rfindAny (σ s1 : Str) (before : Int) : Res Int := rfindLoop (has s1) σ (σ.num + 2) (σ.rstart before)

/-- include/strval.h:588-604 `findNot` -/
def findNot (σ s1 : Str) (after : Int) : Res Int := findLoop (hasNot s1) σ (σ.num + 2) (wrap (after + 1))

/-- include/strval.h:605-620 `rfindNot` -/
def rfindNot (σ s1 : Str) (before : Int) : Res Int := rfindLoop (hasNot s1) σ (σ.num + 2) (σ.rstart before)

/-- The loop of include/strval.h:529-535 -/
def findStrLoop (σ s1 : Str) (s1start last : Nat) : Nat → Nat → Res Int
  | 0, _ => .error .fuel
  | fuel + 1, n =>
    if n ≤ last then do
      let p ← nthC σ n
      match p with
      | none => .ok (-1)
      | some up => do
        let k ← numBytes s1
        let c ← memcmp σ.b.arr.mem up s1.b.arr.mem s1start k
        if c == 0 then .ok (toInt n) else findStrLoop σ s1 s1start last fuel (wrap ((n : Int) + 1))
    else .ok (-1)

/-- include/strval.h:523-537 `find(const StrValI&, after)` -/
def findStr (σ s1 : Str) (after : Int) : Res Int := do
  let p ← nthC s1 0
  let p ← deref p
  findStrLoop σ s1 p (wrap ((σ.num : Int) - s1.num)) (σ.num + 2) (wrap (after + 1))

/-- include/strval.h:182-186 `insertBytes`: raw bodies stay raw, others are to be counted again -/
def insertBytes (rc : Nat) (b : SBody) (pos : Nat) (ab : List Byte) : Res SBody := do
  let arr ← b.arr.insert rc pos ab
  .ok ⟨arr, if isRaw b then rawMark else 0⟩

/-- include/strval.h:699-704, the rest of `insert` once the body is this string's own: `rc` is its reference count,
`ab` and `an` the bytes and the number of characters of the addend -/
def insertOwn (rc : Nat) (σ : Str) (pos : Nat) (ab : List Byte) (an : Nat) : Res Str := do
  let r ← nth σ pos
  let a := r.2
  let r ← nth r.1 0
  let z := r.2
  let σ := r.1
  let a ← deref a
  let z ← deref z
  let b ← insertBytes rc σ.b (wrap ((a : Int) - z)) ab
  .ok { σ with b := b, num := σ.num + an }

/-- include/strval.h:686-706 `insert`, also 707-710 `append` and `prepend`, into a value that has a body of its own, which is not that of the
addend -/
def insert (σ : Str) (pos : Nat) (τ : Str) : Res Str := do
  let ab ← bytes τ
  insertOwn 1 σ pos ab τ.num

/-- include/strval.h:625-639 `operator+` of values with different bodies, the first of them not empty: its bytes become a UTF-8 string (317-329),
and the addend is appended to that (654-661) -/
def plus (σ τ : Str) : Res Str := do
  let cp ← nthC σ 0
  let cp ← deref cp
  let len ← numBytes σ
  let al ← numBytes τ
  let b ← mkBody σ.b.arr.mem cp len (if len + al ≤ len then 0 else len + al)
  let str ← ofBody b
  insert str str.num τ

/-- include/strval.h:714-727 `toLower`, `toUpper` of a value that has a body of its own. The body's transform sets `num_chars` to zero before it
reads anything (895): from then on the body is not raw. -/
def toCase (conv : Int → UCS4 → Res (UCS4 × Option Int)) (memo : Int) (σ : Str) : Res Str := do
  let b ← σ.b.toCase conv memo 1
  let r ← numChars b
  .ok { σ with b := r.1, num := r.2 }

end Strpp.SV.Raw
