import Verif.Model.Utf8
/-!
Model of the byte code of compiled regular expressions: the number packing shared by rx/rxcompile.cpp and
rx/rxmatch.cpp, and `RxProgram` (rx/rxmatch.cpp:104-256).

A `const char* nfa` is a byte list (the whole allocation); a read outside it is `Fault.ub`. Stations are byte offsets,
`uint32_t`: arithmetic on them is modulo 2^32.
-/
namespace Strpp.Rx

/-- The opcodes of rx/strregex.h:54-84 which can be in an NFA. -/
abbrev opNull : Byte := 0x00#8
abbrev opStart : Byte := 0x53#8
abbrev opProp : Byte := 0x50#8
abbrev opBOL : Byte := 0x5E#8
abbrev opEOL : Byte := 0x24#8
abbrev opClass : Byte := 0x4C#8
abbrev opNegClass : Byte := 0x4E#8
abbrev opAny : Byte := 0x2E#8
abbrev opNegLook : Byte := 0x21#8
abbrev opAccept : Byte := 0x23#8
abbrev opChar : Byte := 0x43#8
abbrev opJump : Byte := 0x4A#8
abbrev opSplit : Byte := 0x41#8
abbrev opZero : Byte := 0x5A#8
abbrev opCount : Byte := 0x52#8
abbrev opCapStart : Byte := 0x28#8
abbrev opCapEnd : Byte := 0x29#8

/-- `RxMaxNesting`, rx/strregex.h:86 -/
abbrev maxNesting : Nat := 12

/-- rx/rxcompile.cpp:743-747. `abs(i)<<1` overflows `int` from 2^30 on (undefined in C++11); the model is the
wrapped value, and the theorems are about smaller numbers. -/
def zigzag (i : Int) : UCS4 := BitVec.ofNat 32 (2 * i.natAbs + if i < 0 then 1 else 0)

/-- rx/rxmatch.cpp:99-102 and rx/rxcompile.cpp:749-753: the argument is converted to `int32_t`, `>>` is arithmetic. -/
def zagzig (v : UCS4) : Int := (v.toInt / 2) * (if v.toNat % 2 = 1 then -1 else 1)

/-- The bytes `emit_offset` (rx/rxcompile.cpp:756-763) stores. -/
def offsetBytes (i : Int) : List Byte := utf8Put (zigzag i)

/-- `zagzig(UTF8Get(p))`: rx/rxmatch.cpp:114 (and 116, 214, 219, 225, 232) and `get_offset` rx/rxcompile.cpp:766-770.
The number and the new position. -/
def getOffset (m : List Byte) (p : Nat) : Res (Int × Nat) := do
  let r ← utf8Get m p
  .ok (zagzig r.1, r.2)

/-- Addition of a signed offset to a station number of type `uint32_t` -/
def wrap32 (z : Int) : Nat := (z % 4294967296).toNat

/-- A station given by an offset stored at `p`: rx/rxmatch.cpp:113-114 (and the other places where one is decoded): the
target, and the position after the offset. -/
def getStation (m : List Byte) (p : Nat) : Res (Nat × Nat) := do
  let r ← getOffset m p
  .ok (wrap32 (p + r.1), r.2)

/-- A string operand at `p`: byte count, then the bytes (rx/rxmatch.cpp:200-202 and 124-126). Simplification: the string
is required to be inside the allocation when it is decoded; the code would only fault on using it. -/
def getText (m : List Byte) (p : Nat) : Res (List Byte × Nat) := do
  let r ← utf8Get m p
  if r.2 + r.1.toNat ≤ m.length then .ok ((m.drop r.2).take r.1.toNat, r.2 + r.1.toNat) else .error .ub

/-- `RxProgram`, rx/strregex.h:157-169 -/
structure Prog where
  nfa : List Byte
  startStation : Nat
  searchStation : Nat
  maxStation : Nat
  maxCounter : Nat
  maxCapture : Nat
  names : List (List Byte)
  deriving DecidableEq, Repr

/-- The loop of rx/rxmatch.cpp:122-127 -/
def getNames (m : List Byte) : Nat → Nat → Res (List (List Byte) × Nat)
  | 0, p => .ok ([], p)
  | n + 1, p => do
    let t ← getText m p
    let r ← getNames m n t.2
    .ok (t.1 :: r.1, r.2)

/-- rx/rxmatch.cpp:104-131, the constructor. Simplifications: `max_station` is `int`, here a natural number (a value
of 2^31 or more would be negative); `max_counter` is the signed char, here taken unsigned (the compiler never emits more
than 12). -/
def Prog.load (m : List Byte) : Res Prog := do
  let op ← rd m 0
  assert (op == opStart)
  let search ← getStation m 1
  let start ← getStation m search.2
  let ms ← utf8Get m start.2
  let mc ← rd m ms.2
  let mcap ← rd m (ms.2 + 1)
  let nn ← rd m (ms.2 + 2)
  let names ← getNames m (nn.toNat - 1) (ms.2 + 3)
  assert (start.1 == names.2)
  .ok { nfa := m, startStation := start.1, searchStation := search.1, maxStation := ms.1.toNat,
        maxCounter := mc.toNat, maxCapture := mcap.toNat, names := names.1 }

/-- rx/rxmatch.cpp:138-144 -/
def Prog.groupName (P : Prog) (n : Int) : List Byte :=
  if 0 < n ∧ n ≤ P.names.length then P.names.getD (n.toNat - 1) [] else []

/-- A decoded instruction (`RxDecoded`, rx/rxmatch.cpp:165-179), with the members its opcode sets. -/
inductive Instr where
  | start (next alternate : Nat)
  | char (c : UCS4) (next : Nat)
  | prop (text : List Byte) (next : Nat)
  | cls (negated : Bool) (text : List Byte) (next : Nat)
  | bol (next : Nat)
  | eol (next : Nat)
  | any (next : Nat)
  | accept (next : Nat)
  | zero (next : Nat)
  | negLook (alternate next : Nat)
  | jump (alternate next : Nat)
  | split (alternate next : Nat)
  | count (min max alternate next : Nat)
  | capStart (number : Int) (next : Nat)
  | capEnd (number : Int) (next : Nat)
  | null (next : Nat)
  | token
  deriving DecidableEq, Repr

/-- `*(unsigned char*)nfa_p++ - 1` stored in a `uint16_t` (rx/rxmatch.cpp:229-230) -/
def byteMinus1 (b : Byte) : Nat := if b.toNat = 0 then 65535 else b.toNat - 1

/-- rx/rxmatch.cpp:181-256 -/
def Prog.decode (P : Prog) (s : Nat) : Res Instr := do
  let op ← rd P.nfa s
  let p := s + 1
  if op == opStart then .ok (.start P.startStation P.searchStation)
  else if op == opChar then do
    let r ← utf8Get P.nfa p
    .ok (.char r.1 r.2)
  else if op == opProp then do
    let t ← getText P.nfa p
    .ok (.prop t.1 t.2)
  else if op == opClass then do
    let t ← getText P.nfa p
    .ok (.cls false t.1 t.2)
  else if op == opNegClass then do
    let t ← getText P.nfa p
    .ok (.cls true t.1 t.2)
  else if op == opBOL then .ok (.bol p)
  else if op == opEOL then .ok (.eol p)
  else if op == opAny then .ok (.any p)
  else if op == opAccept then .ok (.accept p)
  else if op == opZero then .ok (.zero p)
  else if op == opNegLook then do
    let r ← getStation P.nfa p
    .ok (.negLook r.1 r.2)
  else if op == opJump then do
    let r ← getStation P.nfa p
    .ok (.jump r.1 r.2)
  else if op == opSplit then do
    let r ← getStation P.nfa p
    .ok (.split r.1 r.2)
  else if op == opCount then do
    let mn ← rd P.nfa p
    let mx ← rd P.nfa (p + 1)
    let r ← getStation P.nfa (p + 2)
    .ok (.count (byteMinus1 mn) (byteMinus1 mx) r.1 r.2)
  else if op == opCapStart then do
    let n ← rd P.nfa p
    .ok (.capStart ((n.toNat : Int) - 1) (p + 1))
  else if op == opCapEnd then do
    let n ← rd P.nfa p
    .ok (.capEnd ((n.toNat : Int) - 1) (p + 1))
  else if op == opNull then .ok (.null p)
  else if op.toNat ≤ 6 then .ok .token
  else .error .assertion

end Strpp.Rx
