import Verif.Model.RxCode
import Verif.Model.CharClass
import Verif.Spec.Utf8
/-!
Model of the matcher, rx/rxmatch.cpp:258-905.

The target string is the list of its characters (`StrVal` as a sequence of characters: C16-C20); `target[i]` is NUL at
the end of the string and UCS4_NONE beyond it (include/strval.h:423-431). A string operand of an instruction is the
list of characters of its bytes.

An `RxResult` is a value here: that its shared body is copied before every change is C50 (Model/RxResult.lean).
Simplifications: offsets and counters are unbounded naturals (a counter is cut to its `short` where it is tested,
`toShort`), and `NORESULT` (all ones) is `none`, so a target of 2^32-1 characters is not covered; `std::vector::at` out of
range (an uncaught exception) is `Fault.assertion`. -/
namespace Strpp.Rx
open Spec (decodeAll)

/-- `target[i]`, include/strval.h:423-431 -/
def chAt (t : List UCS4) (i : Nat) : UCS4 :=
  if i = t.length then 0#32 else (t[i]?).getD 0xFFFFFFFF#32

/-! ### RxCaptures -/

/-- `RxCaptures`, rx/rxmatch.cpp:56-61 -/
structure Caps where
  captureMax : Nat
  counterMax : Nat
  used : Nat
  values : List Nat
  deriving DecidableEq, Repr

/-- rx/rxmatch.cpp:677-682; `counter_max` is an unsigned char (59) -/
def Caps.new (counterMax captureMax : Nat) : Caps := ⟨captureMax, counterMax % 256, 0, []⟩

/-- rx/rxmatch.cpp:684-689. `capture_max` is at least 1 in a compiled NFA; for 0 the size would be negative. -/
def Caps.reserve (c : Caps) : Caps :=
  if c.values.length > 0 then c
  else { c with values := List.replicate ((c.captureMax - 1) * 2 + c.counterMax * 2) 0 }

/-- rx/rxmatch.cpp:57 -/
def Caps.base (c : Caps) : Nat := c.captureMax * 2 - 2

/-- `values.at(i) = v` -/
def Caps.put (c : Caps) (i v : Nat) : Res Caps :=
  if i < c.values.length then .ok { c with values := c.values.set i v } else .error .assertion

/-- `values.at(i)` -/
def Caps.at (c : Caps) (i : Nat) : Res Nat :=
  match c.values[i]? with
  | some v => .ok v
  | none => .error .assertion

/-- rx/rxmatch.cpp:699-709; `counters_used` is an unsigned char (60) -/
def Caps.pushZero (c : Caps) (offset : Nat) : Res Caps := do
  let c := c.reserve
  assert (c.used < c.counterMax * 2)
  let c ← c.put (c.base + c.used) offset
  let c ← c.put (c.base + (c.used + 1) % 256) 0
  .ok { c with used := (c.used + 2) % 256 }

/-- rx/rxmatch.cpp:711-719 -/
def Caps.incr (c : Caps) (offset : Nat) : Res (Nat × Caps) := do
  let c := c.reserve
  assert (c.used > 0)
  let c ← c.put (c.base + c.used - 2) offset
  let n ← c.at (c.base + c.used - 1)
  let c ← c.put (c.base + c.used - 1) (n + 1)
  .ok (n + 1, c)

/-- rx/rxmatch.cpp:721-730 -/
def Caps.pop (c : Caps) : Res Caps := do
  let c := c.reserve
  assert (c.used > 1)
  .ok { c with used := c.used - 2 }

/-- rx/rxmatch.cpp:732-737: offset and count -/
def Caps.top (c : Caps) : Res (Nat × Nat) := do
  assert (c.used > 0)
  let o ← c.at (c.base + c.used - 2)
  let n ← c.at (c.base + c.used - 1)
  .ok (o, n)

/-- rx/rxmatch.cpp:40 -/
def Caps.counterGet (c : Caps) (i : Nat) : Res Nat :=
  if c.values.length > 0 then rd c.values (c.base + c.used - i * 2 - 1) else .ok 0

/-- rx/rxmatch.cpp:745-752 -/
def Caps.capture (c : Caps) (index : Int) : Res Nat := do
  assert (!(index < 1 || index ≥ c.captureMax * 2))
  if index < 2 || index ≥ c.captureMax * 2 || c.values.length == 0 then .ok 0
  else c.at (index - 2).toNat

/-- rx/rxmatch.cpp:754-762 -/
def Caps.captureSet (c : Caps) (index : Int) (val : Nat) : Res Caps := do
  assert (!(index < 1 || index ≥ c.captureMax * 2))
  if index < 2 || index ≥ c.captureMax * 2 then .ok c
  else c.reserve.put (index - 2).toNat val

/-! ### RxResult -/

/-- `RxResult`, rx/strregex.h:218-221; `cap1 = none` is NORESULT, `captures = none` the null reference. -/
structure RVal where
  cap0 : Nat
  cap1 : Option Nat
  captures : Option Caps
  deriving DecidableEq, Repr

/-- rx/rxmatch.cpp:771-776, and `clear`, 793-799 -/
def RVal.fail : RVal := ⟨0, none, none⟩

/-- rx/rxmatch.cpp:764-769 -/
def RVal.new (counterMax captureMax : Nat) : RVal := ⟨0, none, some (Caps.new counterMax captureMax)⟩

/-- rx/rxmatch.cpp:801-806 -/
def RVal.succeeded (r : RVal) : Bool := r.cap1.isSome

/-- rx/strregex.h:196 -/
def RVal.offset (r : RVal) : Nat := r.cap0

/-- rx/strregex.h:197. Unsigned subtraction: the end is never before the start in a result of the matcher. -/
def RVal.length (r : RVal) : Nat :=
  match r.cap1 with
  | some e => e - r.cap0
  | none => 0

/-- rx/rxmatch.cpp:820-824 -/
def RVal.captureMax (r : RVal) : Nat :=
  match r.captures with
  | some c => c.captureMax
  | none => 1

/-- rx/rxmatch.cpp:826-835. A negative index reads `cap1`. -/
def RVal.capture (r : RVal) (index : Int) : Res Nat :=
  if index ≤ 1 then .ok (if index = 0 then r.cap0 else r.cap1.getD 0)
  else match r.captures with
    | none => .ok 0
    | some c => c.capture index

/-- rx/rxmatch.cpp:837-852 -/
def RVal.captureSet (r : RVal) (index : Int) (val : Nat) : Res RVal :=
  if index ≤ 1 then .ok (if index = 0 then { r with cap0 := val } else { r with cap1 := some val })
  else match r.captures with
    | none => .error .assertion
    | some c => do
      let c ← c.captureSet index val
      .ok { r with captures := some c }

/-- rx/rxmatch.cpp:865-869 -/
def RVal.counterNum (r : RVal) : Nat :=
  match r.captures with
  | some c => c.used / 2
  | none => 0

/-- rx/rxmatch.cpp:871-875 -/
def RVal.counterGet (r : RVal) (i : Nat) : Res Nat :=
  match r.captures with
  | some c => c.counterGet i
  | none => .ok 0

/-- The loop of rx/rxmatch.cpp:859-861; `k` iterations remain, `i` is the index -/
def RVal.sameFrom (r o : RVal) : Nat → Nat → Res Bool
  | 0, _ => .ok true
  | k + 1, i => do
    let a ← r.counterGet i
    let b ← o.counterGet i
    if a != b then .ok false else RVal.sameFrom r o k (i + 1)

/-- rx/rxmatch.cpp:854-863 -/
def RVal.countersSame (r o : RVal) : Res Bool :=
  if r.counterNum != o.counterNum then .ok false else r.sameFrom o r.counterNum 0

/-- rx/rxmatch.cpp:877-883; `Unshare` (808-814) copies `*captures`, which is undefined for a null reference. -/
def RVal.pushZero (r : RVal) (offset : Nat) : Res RVal :=
  match r.captures with
  | none => .error .ub
  | some c => do
    let c ← c.pushZero offset
    .ok { r with captures := some c }

/-- rx/rxmatch.cpp:885-891 -/
def RVal.incr (r : RVal) (offset : Nat) : Res (Nat × RVal) :=
  match r.captures with
  | none => .error .ub
  | some c => do
    let x ← c.incr offset
    .ok (x.1, { r with captures := some x.2 })

/-- rx/rxmatch.cpp:893-899 -/
def RVal.pop (r : RVal) : Res RVal :=
  match r.captures with
  | none => .error .ub
  | some c => do
    let c ← c.pop
    .ok { r with captures := some c }

/-- rx/rxmatch.cpp:901-905 -/
def RVal.top (r : RVal) : Res (Nat × Nat) :=
  match r.captures with
  | none => .error .ub
  | some c => c.top

/-! ### Threads -/

/-- `RxMatch::Thread`, rx/rxmatch.cpp:68-77 -/
structure Thr where
  station : Nat
  res : RVal
  deriving DecidableEq, Repr

/-- rx/rxmatch.cpp:324-353: is the new thread a duplicate of one already in `next_threads`? -/
def isDuplicate (th : Thr) (maxDup : Nat) : List Thr → Nat → Res Bool
  | [], _ => .ok false
  | n :: ns, dups =>
    if n.station == th.station then do
      let same ← if maxDup != 0 then th.res.countersSame n.res else .ok false
      if same then .ok true
      else if dups + 1 > maxDup then .ok true
      else isDuplicate th maxDup ns (dups + 1)
    else isDuplicate th maxDup ns dups

/-- A character in the ranges of a class: the loop of rx/rxmatch.cpp:547-553. `expected[i+1]` at the end of a string of
odd length is NUL. -/
def inRanges (ch : UCS4) : List UCS4 → Bool
  | [] => false
  | [lo] => lo.toNat ≤ ch.toNat && ch.toNat ≤ 0
  | lo :: hi :: rest => (lo.toNat ≤ ch.toNat && ch.toNat ≤ hi.toNat) || inRanges ch rest

/-- `UCS4Digit(ch) < 0` is false; the result does not depend on the memo (C10) -/
def isDigit (ch : UCS4) : Bool :=
  match ucs4Digit 0 ch with
  | .ok (v, _) => v ≥ 0
  | .error _ => false

/-- rx/rxmatch.cpp:573-600 -/
def hasProp (ch : UCS4) (name : List UCS4) : Bool :=
  match name with
  | [c] =>
    if c == 0x73#32 then ucs4IsWhite ch
    else if c == 0x64#32 then isDigit ch
    else if c == 0x68#32 then isDigit ch || (0x61 ≤ ch.toNat && ch.toNat ≤ 0x66) || (0x41 ≤ ch.toNat && ch.toNat ≤ 0x46)
    else true
  | _ => true

/-- `step_status` of rx/rxmatch.cpp:496-501; `failed` and `eof` have the same effect -/
inductive Status where
  | stops
  | goesOn (next : Nat)
  | accepts
  deriving DecidableEq, Repr

/-- rx/rxmatch.cpp:511-627: the effect of the instruction at a station on the current character -/
def consume (i : Instr) (ch : UCS4) : Res Status :=
  match i with
  | .accept _ => .ok .accepts
  | .any next => .ok (if ch != 0#32 then .goesOn next else .stops)
  | .char c next => .ok (if ch == c then .goesOn next else .stops)
  | .cls negated text next =>
    if ch == 0#32 then .ok .stops
    else do
      assert ((decodeAll text).length > 0)
      .ok (if inRanges ch (decodeAll text) != negated then .goesOn next else .stops)
  | .prop text next =>
    if ch == 0#32 then .ok .stops
    else do
      assert ((decodeAll text).length > 0)
      .ok (if hasProp ch (decodeAll text) then .goesOn next else .stops)
  | _ => .error .assertion

/-- rx/rxmatch.cpp:641-657: an accepting thread replaces the result if it is better. -/
def better (result : RVal) (th : RVal) (offset : Nat) : Bool :=
  !result.succeeded || th.offset < result.offset
    || (offset - th.offset > result.length && th.offset == result.offset)

/-- The body of the loop over threads, rx/rxmatch.cpp:491-660: `next_threads` and `result`. `add` is `addthread`. -/
def stepThread (P : Prog) (t : List UCS4) (add : Thr → Nat → List Thr → Res (List Thr)) (offset : Nat) (th : Thr)
    (nexts : List Thr) (result : RVal) : Res (List Thr × RVal) := do
  let i ← P.decode th.station
  let st ← consume i (chAt t offset)
  match st with
  | .stops => .ok (nexts, result)
  | .goesOn next => do
    let ns ← add ⟨next, th.res⟩ (offset + 1) nexts
    .ok (ns, result)
  | .accepts =>
    if better result th.res offset then do
      let r ← th.res.captureSet 1 offset
      .ok (nexts, r)
    else .ok (nexts, result)

/-- rx/rxmatch.cpp:491-660: all current threads, in order -/
def cycle (P : Prog) (t : List UCS4) (add : Thr → Nat → List Thr → Res (List Thr)) (offset : Nat) :
    List Thr → List Thr → RVal → Res (List Thr × RVal)
  | [], nexts, result => .ok (nexts, result)
  | th :: ths, nexts, result => do
    let r ← stepThread P t add offset th nexts result
    cycle P t add offset ths r.1 r.2

/-- rx/rxmatch.cpp:488-665: `n` is the number of offsets left up to the end of the target. Returns the result and the
final offset (a reference parameter of `matchAt`). -/
def matchLoop (P : Prog) (t : List UCS4) (add : Thr → Nat → List Thr → Res (List Thr)) :
    Nat → Nat → List Thr → RVal → Res (RVal × Nat)
  | 0, offset, _, result => .ok (result, offset)
  | n + 1, offset, cur, result =>
    if cur.isEmpty then .ok (result, offset)
    else do
      let r ← cycle P t add offset cur [] result
      matchLoop P t add n (offset + 1) r.1 r.2

/-- rx/rxmatch.cpp:475-675 `RxMatch::matchAt` -/
def matchFrom (P : Prog) (t : List UCS4) (add : Thr → Nat → List Thr → Res (List Thr)) (start offset : Nat) :
    Res (RVal × Nat) := do
  let cur ← add ⟨start, RVal.new P.maxCounter P.maxCapture⟩ offset []
  matchLoop P t add (t.length + 1 - offset) offset cur .fail

/-- `short counter = …`, rx/rxmatch.cpp:411: the count as a signed 16-bit number -/
def toShort (n : Nat) : Int := ((n + 32768) % 65536 : Nat) - 32768

/-- rx/rxmatch.cpp:306-469 `RxMatch::addthread`, returning `next_threads`. One unit of fuel per call and per `goto next`
(`entry` is false after a `goto`: the checks at the beginning of the function are not repeated). `shunts` is
the used part of the array; entries at and after `num_shunt` are dead. `junk` is the uninitialised
`instr.repetition.min` of line 442. -/
def addthread (P : Prog) (t : List UCS4) (junk : Nat) :
    Nat → Bool → Thr → Nat → List Nat → Nat → List Thr → Res (List Thr)
  | 0, _, _, _, _, _, _ => .error .fuel
  | fuel + 1, true, th, offset, shunts, maxDup, nexts =>
    if shunts.contains th.station then .ok nexts
    else do
      assert (shunts.length < maxNesting)
      let dup ← isDuplicate th maxDup nexts 0
      if dup then .ok nexts
      else addthread P t junk fuel false th offset (shunts ++ [th.station]) maxDup nexts
  | fuel + 1, false, th, offset, shunts, maxDup, nexts => do
    let i ← P.decode th.station
    match i with
    | .bol next =>
      if offset == 0 || chAt t (offset - 1) == 0x0A#32 then
        addthread P t junk fuel false ⟨next, th.res⟩ offset shunts maxDup nexts
      else .ok nexts
    | .eol next =>
      if offset == t.length || chAt t offset == 0x0A#32 then
        addthread P t junk fuel false ⟨next, th.res⟩ offset shunts maxDup nexts
      else .ok nexts
    | .jump alt _ => addthread P t junk fuel false ⟨alt, th.res⟩ offset shunts maxDup nexts
    | .split alt next => do
      let n1 ← addthread P t junk fuel true ⟨alt, th.res⟩ offset shunts 0 nexts
      addthread P t junk fuel true ⟨next, th.res⟩ offset shunts 0 n1
    | .capStart k next => do
      let r ← th.res.captureSet (k * 2) offset
      addthread P t junk fuel false ⟨next, r⟩ offset shunts maxDup nexts
    | .capEnd k _ => do
      let _ ← th.res.captureSet (k * 2 + 1) offset
      .ok nexts
    | .zero next => do
      let r ← th.res.pushZero offset
      addthread P t junk fuel false ⟨next, r⟩ offset shunts maxDup nexts
    | .count mn mx alt next => do
      let prev ← th.res.top
      let inc ← th.res.incr offset
      let n1 ← if (toShort inc.1 ≤ mx || mx == 0) && prev.1 ≤ offset then
          addthread P t junk fuel true ⟨alt, inc.2⟩ offset shunts mn nexts
        else .ok nexts
      if (toShort inc.1 ≥ mn || prev.1 == offset) && (mx == 0 || toShort inc.1 ≤ mx) then do
        let cont ← inc.2.pop
        addthread P t junk fuel true ⟨next, cont⟩ offset shunts mn n1
      else .ok n1
    | .negLook alt next => do
      let m ← matchFrom P t (fun th off ns => addthread P t junk fuel true th off [] 0 ns) next offset
      if !m.1.succeeded then addthread P t junk fuel true ⟨alt, th.res⟩ m.2 shunts junk nexts
      else .ok nexts
    | _ => do
      assert (nexts.length < P.maxStation)
      .ok (nexts ++ [th])

/-- `RxMatch::matchAt` with `addthread(…, shunts, 0)` -/
def matchRun (P : Prog) (t : List UCS4) (junk fuel start offset : Nat) : Res (RVal × Nat) :=
  matchFrom P t (fun th off ns => addthread P t junk fuel true th off [] 0 ns) start offset

/-- rx/rxmatch.cpp:154-160 `RxProgram::matchAt` -/
def Prog.matchAt (P : Prog) (junk fuel : Nat) (t : List UCS4) (offset : Nat) : Res RVal := do
  let r ← matchRun P t junk fuel P.startStation offset
  .ok r.1

/-- rx/rxmatch.cpp:146-152 `RxProgram::matchAfter` -/
def Prog.matchAfter (P : Prog) (junk fuel : Nat) (t : List UCS4) (offset : Nat) : Res RVal := do
  let r ← matchRun P t junk fuel P.searchStation offset
  .ok r.1

end Strpp.Rx
