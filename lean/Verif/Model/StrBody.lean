import Verif.Model.Utf8
import Verif.Model.CharClass
import Verif.Model.Array
/-!
Model of include/strval.h: StrBodyI (64-282, 886-948) and the members of StrValI that work on one string value
(365-840, 857-878). The level of variables sharing bodies is in Verif/Model/StrVal.lean.

A `Str` is what a member function sees: the body, the slice (`off`, `num`) and the bookmark. Pointers into the body are
positions.

Simplifications. StrRawBinary bodies are modelled apart, in Verif/Model/RawStr.lean (`isRawBinary()` is false here). Merely forming a pointer outside of its
buffer is not a fault (a wrapped bookmark does so), reading through it is. Counts of characters and the sum
`offset+char_num` do not wrap (a body has less than 2^31 bytes). A const member function which counts the characters of the
body stores the count in the body (103-105); the model of const members does not keep this cached count, it is counted
again when next needed. `memcmp` stops reading at the first difference.
-/
namespace Strpp.SV

open Arr (wrap toInt readN copyIn)

/-- include/strval.h:49-55 -/
structure Mark where
  cn : Nat
  bn : Nat
deriving DecidableEq, Repr

/-- include/strval.h:64-66 and 248: `nc` is num_chars, 0 when not counted -/
structure SBody where
  arr : Arr.Body Byte
  nc : Nat
deriving DecidableEq, Repr

/-- One string value: its body and include/strval.h:360-362 and 785 -/
structure Str where
  b : SBody
  off : Nat
  num : Nat
  mark : Mark
deriving DecidableEq, Repr

/-- using a pointer that may be null -/
def deref : Option Nat → Res Nat
  | some p => .ok p
  | none => .error .ub

/-- The loop of include/strval.h:256-264, `ep` is the position of the end of data -/
def countLoop (mem : List Byte) (ep : Nat) : Nat → Nat → Nat → Res Nat
  | 0, _, _ => .error .fuel
  | fuel + 1, cp, nc =>
    if cp < ep then do
      let r ← utf8Get mem cp
      if r.1 == 0xFFFFFFFF#32 || r.2 > ep then .ok nc
      else countLoop mem ep fuel r.2 (nc + 1)
    else .ok nc

/-- include/strval.h:99-106 `numChars` with 249-265 `countChars`: the body with its characters counted -/
def SBody.count (b : SBody) : Res SBody :=
  if b.nc == 0 && b.arr.num > 0 then do
    let n ← countLoop b.arr.mem (b.arr.num - 1) (b.arr.num + 1) 0 0
    .ok { b with nc := n }
  else .ok b

/-- The loop of include/strval.h:154-158: `n` is `char_num - start_char` -/
def fwd (mem : List Byte) (ep : Nat) : Nat → Nat → Res Nat
  | 0, up => .ok up
  | n + 1, up =>
    if up < ep then do
      let l ← utf8LenAt mem up
      fwd mem ep n (up + l)
    else .ok up

/-- The loop of include/strval.h:162-166: `n` is `end_char - char_num` -/
def bwd (mem : List Byte) (up : Nat) : Nat → Nat → Res (Option Nat)
  | 0, ep => .ok (some ep)
  | n + 1, ep =>
    if ep > up then do
      let r ← utf8Backup mem ep (some 0)
      match r with
      | none => .ok none
      | some r => bwd mem up n r.toNat
    else .ok (some ep)

/-- include/strval.h:126-146: `up`, `start_char`, `ep`, `end_char` -/
def searchFrom (b : SBody) (k : Nat) (mark : Mark) : Nat × Nat × Nat × Nat :=
  if mark.cn > 0 then
    if k ≥ mark.cn then (mark.bn, mark.cn, b.arr.num - 1, b.nc) else (0, 0, mark.bn, mark.cn)
  else (0, 0, b.arr.num - 1, b.nc)

/-- include/strval.h:151-168: the search. All of these are compared and subtracted as unsigned. -/
def searchChar (b : SBody) (k : Nat) (f : Nat × Nat × Nat × Nat) : Res (Option Nat) :=
  if wrap ((k : Int) - f.2.1) < wrap ((f.2.2.2 : Int) - k) then do
    let up ← fwd b.arr.mem f.2.2.1 (k - f.2.1) f.1
    .ok (some up)
  else bwd b.arr.mem f.1 (f.2.2.2 - k) f.2.2.1

/-- include/strval.h:171-175 -/
def saveMark (b : SBody) (k : Nat) (mark : Mark) : Option Nat → Mark
  | some up => if k > 3 ∧ k < wrap ((b.nc : Int) - 3) then ⟨k, up⟩ else mark
  | none => mark

/-- include/strval.h:109-177 `nthChar(char_num, mark)`. The assertion at 113 fails when `char_num` is out of range. -/
def nthChar (b : SBody) (k : Nat) (mark : Mark) : Res (SBody × Mark × Option Nat) :=
  if k == 0 || b.nc == b.arr.num - 1 then .ok (b, mark, some k)
  else do
    let b ← b.count
    if k > b.nc then .error .assertion
    else do
      let up ← searchChar b k (searchFrom b k mark)
      .ok (b, saveMark b k mark up, up)

/-- include/strval.h:775-780 `nthChar(char_num)`: the string with its new bookmark, and the pointer -/
def Str.nth (σ : Str) (k : Nat) : Res (Str × Option Nat) :=
  if k > σ.num then .ok (σ, none)
  else do
    let r ← nthChar σ.b (σ.off + k) σ.mark
    .ok ({ σ with b := r.1, mark := r.2.1 }, r.2.2)

/-- include/strval.h:768-774 `nthChar(char_num) const` -/
def Str.nthC (σ : Str) (k : Nat) : Res (Option Nat) := do
  let r ← σ.nth k
  .ok r.2

/-- include/strval.h:415-420 `numBytes`. Subtracting from a null pointer is undefined behaviour. -/
def Str.numBytes (σ : Str) : Res Nat := do
  let ep ← σ.nthC σ.num
  assert ep.isSome
  let ep ← deref ep
  let cp ← σ.nthC 0
  let cp ← deref cp
  .ok (ep - cp)

/-- include/strval.h:423-431 `operator[]` -/
def Str.get (σ : Str) (i : Int) : Res UCS4 :=
  if wrap i == σ.num then .ok 0#32
  else do
    let cp ← σ.nthC (wrap i)
    match cp with
    | none => .ok 0xFFFFFFFF#32
    | some p => do
      let r ← utf8Get σ.b.arr.mem p
      .ok r.1

/-- include/strval.h:439-445 `asUTF8(bytes) const`: the bytes it shows -/
def Str.bytes (σ : Str) : Res (List Byte) := do
  let cp ← σ.nthC 0
  let ep ← σ.nthC σ.num
  let cp ← deref cp
  let ep ← deref ep
  readN σ.b.arr.mem cp (ep - cp)

/-- `strlen` at position `p`; the argument bounds the search by the end of the buffer -/
def strlenLoop (mem : List Byte) (p : Nat) : Nat → Res Nat
  | 0 => .error .ub
  | n + 1 => do
    let c ← rd mem p
    if c == 0#8 then .ok 0
    else do
      let l ← strlenLoop mem (p + 1) n
      .ok (l + 1)

def strlen (mem : List Byte) (p : Nat) : Res Nat := strlenLoop mem p (mem.length - p)

/-- include/strval.h:81: `length == 0 ? strlen(data) : length` -/
def lenOr (mem : List Byte) (p length : Nat) : Res Nat := if length == 0 then strlen mem p else .ok length

/-- include/strval.h:86-87: the bytes of the new body, terminated -/
def terminate (arr : Arr.Body Byte) (length : Nat) : Res (List Byte) :=
  if length == 0 then .ok arr.mem else Arr.wr arr.mem (arr.num - 1) 0#8

/-- include/strval.h:80-90 `StrBodyI(data, StrUTF8, length, allocate)`, for data at position `p` of a buffer. `length+1`
bytes are copied, whatever the last one is. -/
def mkBody (mem : List Byte) (p length allocate : Nat) : Res SBody := do
  let n ← lenOr mem p length
  let data ← readN mem p (n + 1)
  let arr ← Arr.Body.ofData data allocate
  let amem ← terminate arr length
  .ok ⟨{ arr with mem := amem }, 0⟩

/-- include/strval.h:80-90 with StrStatic: `data` is the borrowed buffer with its terminating NUL. Simplification:
unterminated borrowed data is not modelled. -/
def staticBody (data : List Byte) : SBody := ⟨Arr.Body.ofStatic data, 0⟩

/-- include/strval.h:282 -/
def nullBody : SBody := staticBody [0#8]

/-- A value referring to a whole body: include/strval.h:341-342, 413; also the end of 311-329 -/
def Str.ofBody (b : SBody) : Res Str := do
  let b ← b.count
  .ok ⟨b, 0, b.nc, ⟨0, 0⟩⟩

/-- include/strval.h:793-805 `copyBody` -/
def Str.copyBody (σ : Str) : Res Str := do
  let save := σ.mark
  let r ← σ.nth 0
  let cp := r.2
  let r ← r.1.nth σ.num
  let ep := r.2
  let σ := r.1
  let cp ← deref cp
  let ep ← deref ep
  let b ← mkBody σ.b.arr.mem cp (ep - cp) 0
  .ok ⟨b, 0, σ.num, ⟨wrap ((save.cn : Int) - σ.off), wrap ((save.bn : Int) - cp)⟩⟩

/-- include/strval.h:94-95 -/
def SBody.nulTerminated (b : SBody) : Res Bool :=
  if b.arr.alloc > 0 then .ok true
  else do
    let c ← rd b.arr.mem (b.arr.num - 1)
    .ok (c == 0#8)

/-- include/strval.h:432-438 `asUTF8()`: `true` when the body is to be copied first -/
def Str.mustCopy (σ : Str) : Res (Str × Bool) := do
  let b ← σ.b.count
  let z ← b.nulTerminated
  .ok ({ σ with b := b }, decide (σ.off + σ.num < b.nc) || !z)

/-- include/strval.h:699-704, the rest of `insert` once the body is this string's own: `rc` is its reference count,
`ab` and `an` the bytes and the number of characters of the addend -/
def Str.insertOwn (rc : Nat) (σ : Str) (pos : Nat) (ab : List Byte) (an : Nat) : Res Str := do
  let r ← σ.nth pos
  let a := r.2
  let r ← r.1.nth 0
  let z := r.2
  let σ := r.1
  let a ← deref a
  let z ← deref z
  let arr ← σ.b.arr.insert rc (wrap ((a : Int) - z)) ab
  .ok { σ with b := ⟨arr, 0⟩, num := σ.num + an }

/-! ### transform -/

/-- The closure given to `transform`: it sees the old buffer, the pointer it may advance and the end; it returns the
replacement and the advanced pointer. `S` is the closure's own state. -/
abbrev XForm (S : Type) := S → List Byte → Nat → Nat → Res (S × Str × Nat)

/-- The loop of include/strval.h:917-921: the new `up` and `processed_chars` -/
def skipTo (mem : List Byte) (next : Nat) : Nat → Nat → Nat → Res (Nat × Nat)
  | 0, _, _ => .error .fuel
  | fuel + 1, up, n =>
    if up < next then do
      let l ← utf8LenAt mem up
      skipTo mem next fuel (up + l) (n + 1)
    else .ok (up, n)

/-- What changes in the loop of include/strval.h:905-944; `out` is the body being filled, `op` always points to its end -/
structure TState (S : Type) where
  st : S
  out : SBody
  up : Nat
  processed : Nat
  stopped : Bool

/-- include/strval.h:911-929 -/
def xformStep {S : Type} (x : XForm S) (rc : Nat) (old : List Byte) (ep : Nat) (t : TState S) : Res (TState S) := do
  assert (t.up < ep)
  let r ← x t.st old t.up ep
  let repl := r.2.1
  let next := r.2.2
  let u ← skipTo old next (old.length + 1) t.up t.processed
  let rb ← repl.bytes
  let arr ← t.out.arr.insert rc t.out.arr.num rb
  .ok ⟨r.1, ⟨arr, t.out.nc + repl.num⟩, u.1, u.2, t.stopped || next == t.up⟩

/-- include/strval.h:935-939: room for any character and a NUL -/
def room (arr : Arr.Body Byte) : Res (Arr.Body Byte) :=
  if arr.alloc < arr.num + 7 then arr.resize (arr.num + 7) else .ok arr

/-- include/strval.h:933-942 -/
def copyStep {S : Type} (old : List Byte) (t : TState S) : Res (TState S) := do
  let r ← utf8Get old t.up
  let arr ← room t.out.arr
  let mem ← copyIn arr.mem arr.num (utf8Put r.1)
  .ok { t with out := ⟨{ arr with mem := mem, num := arr.num + (utf8Put r.1).length }, t.out.nc + 1⟩,
               up := r.2, processed := t.processed + 1 }

/-- include/strval.h:907-943: one round -/
def transStep {S : Type} (x : XForm S) (rc : Nat) (old : List Byte) (ep : Nat) (after : Int) (t : TState S) : Res (TState S) :=
  if t.processed + 1 > wrap (after + 1) && !t.stopped then xformStep x rc old ep t else copyStep old t

/-- The loop of include/strval.h:905-944 -/
def transLoop {S : Type} (x : XForm S) (rc : Nat) (old : List Byte) (ep : Nat) (after : Int) :
    Nat → TState S → Res (TState S)
  | 0, _ => .error .fuel
  | fuel + 1, t =>
    if t.up < ep then do
      let t ← transStep x rc old ep after t
      transLoop x rc old ep after fuel t
    else .ok t

/-- include/strval.h:886-948 `StrBodyI::transform`. Deleting borrowed data at the end is undefined behaviour. -/
def SBody.transform {S : Type} (x : XForm S) (st : S) (rc : Nat) (b : SBody) (after : Int) : Res (S × SBody) := do
  assert (rc ≤ 1)
  let arr ← (Arr.Body.empty : Arr.Body Byte).resize (b.arr.num + 6)
  let t ← transLoop x rc b.arr.mem (b.arr.num - 1) after (2 * b.arr.num + 2) ⟨st, ⟨arr, 0⟩, 0, 0, false⟩
  let arr ← t.out.arr.insert rc t.out.arr.num [0#8]
  if b.arr.static then .error .ub else .ok (t.st, ⟨arr, t.out.nc⟩)

/-- include/strval.h:202-205: the replacement by one character, on a borrowed body -/
def oneChar (bytes : List Byte) : Res Str := Str.ofBody (staticBody (bytes ++ [0#8]))

/-- The closure of include/strval.h:194-206 (`toLower`) and 217-229 (`toUpper`), whose state is `nonASCII` and the memo of
the conversion function. -/
def caseX (conv : Int → UCS4 → Res (UCS4 × Option Int)) : XForm (Bool × Int) := fun st mem cp _ => do
  let r ← utf8Get mem cp
  let c ← conv st.2 r.1
  let repl ← oneChar (utf8Put c.1)
  .ok ((st.1 || !decide (c.1.toNat < 0x80), c.2.getD st.2), repl, r.2)

/-- include/strval.h:188-233: `toLower` and `toUpper` of a body; `memo` is the conversion function's memo -/
def SBody.toCase (conv : Int → UCS4 → Res (UCS4 × Option Int)) (memo : Int) (rc : Nat) (b : SBody) : Res SBody := do
  let r ← b.transform (caseX conv) (false, memo) rc (-1)
  .ok (if r.1.1 then { r.2 with nc := 0 } else r.2)

/-- include/strval.h:717-718, 724-725, 733-734, 954-955: the value once its body was changed -/
def Str.showAll (σ : Str) (b : SBody) : Res Str := do
  let b ← b.count
  .ok { σ with b := b, num := b.nc }

/-! ### comparison and search -/

/-- `memcmp`; only the sign of the result is specified, this is the difference of the first different bytes -/
def memcmp (m1 : List Byte) (p1 : Nat) (m2 : List Byte) (p2 : Nat) : Nat → Res Int
  | 0 => .ok 0
  | n + 1 => do
    let a ← rd m1 p1
    let b ← rd m2 p2
    if a == b then memcmp m1 (p1 + 1) m2 (p2 + 1) n else .ok ((a.toNat : Int) - b.toNat)

/-- include/strval.h:857-867 `compare(comparand)`, style CompareRaw -/
def Str.compare (σ τ : Str) : Res Int := do
  let a ← σ.nthC 0
  let a ← deref a
  let b ← τ.nthC 0
  let b ← deref b
  let n ← σ.numBytes
  let c ← memcmp σ.b.arr.mem a τ.b.arr.mem b n
  if c == 0 then do
    let n ← σ.numBytes
    let m ← τ.numBytes
    .ok (toInt (wrap ((n : Int) - m)))
  else .ok c

/-- include/strval.h:449-451 `operator==` -/
def Str.eq (σ τ : Str) : Res Bool :=
  if σ.num == τ.num then do
    let c ← σ.compare τ
    .ok (c == 0)
  else .ok false

/-- The shape of the searches of include/strval.h:499-506, 561-570, 592-603: `hit` tells whether the character matches.
`n` is the index looked at. -/
def Str.findLoop (hit : UCS4 → Res Bool) (σ : Str) : Nat → Nat → Res Int
  | 0, _ => .error .fuel
  | fuel + 1, n => do
    let p ← σ.nthC n
    match p with
    | none => .ok (-1)
    | some up => do
      let r ← utf8Get σ.b.arr.mem up
      let h ← hit r.1
      if h then .ok (toInt n) else σ.findLoop hit fuel (wrap ((n : Int) + 1))

/-- The shape of the backward searches of include/strval.h:512-519, 576-584, 609-619 -/
def Str.rfindLoop (hit : UCS4 → Res Bool) (σ : Str) : Nat → Nat → Res Int
  | 0, _ => .error .fuel
  | fuel + 1, n => do
    let p ← σ.nthC n
    match p with
    | none => .ok (-1)
    | some up => do
      let r ← utf8Get σ.b.arr.mem up
      let h ← hit r.1
      if h then .ok (toInt n) else σ.rfindLoop hit fuel (wrap ((n : Int) - 1))

/-- include/strval.h:510, 574, 607: the first index looked at, searching backwards -/
def Str.rstart (σ : Str) (before : Int) : Nat :=
  if before == -1 then wrap ((σ.num : Int) - 1) else wrap (before - 1)

/-- The loop of include/strval.h:564-566 (also 579-581, 595-597, 612-614): is `ch` among the characters of `s1`? -/
def Str.memLoop (s1 : Str) (ch : UCS4) : Nat → Nat → Res Bool
  | 0, _ => .error .fuel
  | fuel + 1, i =>
    if i < s1.num then do
      let c ← s1.get (toInt i)
      if ch == c then .ok true else s1.memLoop ch fuel (i + 1)
    else .ok false

def Str.has (s1 : Str) (ch : UCS4) : Res Bool := s1.memLoop ch (s1.num + 1) 0

def Str.hasNot (s1 : Str) (ch : UCS4) : Res Bool := do
  let h ← s1.has ch
  .ok !h

/-- include/strval.h:495-507 `find(UCS4, after)` -/
def Str.find (σ : Str) (ch : UCS4) (after : Int) : Res Int :=
  σ.findLoop (fun c => .ok (ch == c)) (σ.num + 2) (wrap (after + 1))

/-- include/strval.h:508-520 `rfind(UCS4, before)` -/
def Str.rfind (σ : Str) (ch : UCS4) (before : Int) : Res Int :=
  σ.rfindLoop (fun c => .ok (ch == c)) (σ.num + 2) (σ.rstart before)

/-- include/strval.h:557-571 `findAny` -/
def Str.findAny (σ s1 : Str) (after : Int) : Res Int := σ.findLoop s1.has (σ.num + 2) (wrap (after + 1))

/-- include/strval.h:572-585 `rfindAny` -/
def Str.rfindAny (σ s1 : Str) (before : Int) : Res Int := σ.rfindLoop s1.has (σ.num + 2) (σ.rstart before)

/-- include/strval.h:588-604 `findNot` -/
def Str.findNot (σ s1 : Str) (after : Int) : Res Int := σ.findLoop s1.hasNot (σ.num + 2) (wrap (after + 1))

/-- include/strval.h:605-620 `rfindNot` -/
def Str.rfindNot (σ s1 : Str) (before : Int) : Res Int := σ.rfindLoop s1.hasNot (σ.num + 2) (σ.rstart before)

/-- The loop of include/strval.h:529-535 -/
def Str.findStrLoop (σ s1 : Str) (s1start last : Nat) : Nat → Nat → Res Int
  | 0, _ => .error .fuel
  | fuel + 1, n =>
    if n ≤ last then do
      let p ← σ.nthC n
      match p with
      | none => .ok (-1)
      | some up => do
        let k ← s1.numBytes
        let c ← memcmp σ.b.arr.mem up s1.b.arr.mem s1start k
        if c == 0 then .ok (toInt n) else σ.findStrLoop s1 s1start last fuel (wrap ((n : Int) + 1))
    else .ok (-1)

/-- include/strval.h:523-537 `find(const StrValI&, after)` -/
def Str.findStr (σ s1 : Str) (after : Int) : Res Int := do
  let p ← s1.nthC 0
  let p ← deref p
  σ.findStrLoop s1 p (wrap ((σ.num : Int) - s1.num)) (σ.num + 2) (wrap (after + 1))

/-- The loop of include/strval.h:546-552 -/
def Str.rfindStrLoop (σ s1 : Str) (s1start : Nat) : Nat → Nat → Res Int
  | 0, _ => .error .fuel
  | fuel + 1, n => do
    let p ← σ.nthC n
    match p with
    | none => .ok (-1)
    | some bp => do
      let k ← s1.numBytes
      let c ← memcmp σ.b.arr.mem bp s1.b.arr.mem s1start k
      if c == 0 then .ok (toInt n) else σ.rfindStrLoop s1 s1start fuel (wrap ((n : Int) - 1))

/-- include/strval.h:538-554 `rfind(const StrValI&, before)` -/
def Str.rfindStr (σ s1 : Str) (before : Int) : Res Int := do
  let last := wrap ((σ.num : Int) - s1.num)
  let n := if before == -1 then last else wrap (before - 1)
  let n := if n > last then last else n
  let p ← s1.nthC 0
  let p ← deref p
  σ.rfindStrLoop s1 p (σ.num + 2) n

end Strpp.SV
