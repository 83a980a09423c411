import Verif.Model.RxCode
/-!
Model of rx/rxdump.cpp: the disassembly of a compiled regular expression.

What is printed for an instruction is modelled as a record (`Line`) of the values given to `printf`, the line begins with
its offset. Simplifications: the words around the values are not modelled; strings printed by `%s` are the whole byte
sequence (`printf` would stop at a NUL in it); `nfa_size` is the length of the allocation's used part, which is what
`compile` sets it to (rx/rxcompile.cpp:1116).
-/
namespace Strpp.Rx

/-- The lines `dumpInstruction` prints, with the values in them (rx/rxdump.cpp:86-248). -/
inductive Line where
  | null
  | illegal (op : Byte)
  | start (search start : Int) (stations nesting captures : Nat) (names : List (List Byte))
  | accept
  | char (c : UCS4) (text : List Byte)
  | bol
  | eol
  | any
  | jump (offset target : Int)
  | split (offset target : Int)
  | capStart (name : List Byte) (number : Int)
  | capEnd (name : List Byte) (number : Int)
  | negLook (offset target : Int)
  | prop (text : List Byte)
  | cls (negated : Bool) (text : List Byte)
  | zero
  | count (min max : Int) (offset target : Int)
  /-- one of the `ERROR: ... should not be emitted` lines -/
  | error (op : Byte)
  deriving DecidableEq, Repr

/-- "BAD NAME NUMBER", rx/rxdump.cpp:73 -/
def badName : List Byte :=
  [0x42#8, 0x41#8, 0x44#8, 0x20#8, 0x4E#8, 0x41#8, 0x4D#8, 0x45#8, 0x20#8, 0x4E#8, 0x55#8, 0x4D#8, 0x42#8, 0x45#8, 0x52#8]

/-- The loop of rx/rxdump.cpp:75-79, for `k` preceding names -/
def skipNames (m : List Byte) : Nat → Nat → Res Nat
  | 0, p => .ok p
  | k + 1, p => do
    let r ← utf8Get m p
    skipNames m k (r.2 + r.1.toNat)

/-- `get_name`, rx/rxdump.cpp:60-83. The copy made by `StrVal(nfa, byte_count)` reads the bytes of the name. -/
def dumpName (m : List Byte) (i : Int) : Res (List Byte) :=
  if i = 0 then .ok []
  else do
    let op ← rd m 0
    assert (op == opStart)
    let a ← getOffset m 1
    let b ← getOffset m a.2
    let c ← utf8Get m b.2
    let nn ← rd m (c.2 + 2)
    if i ≤ 0 ∨ (nn.toNat : Int) - 1 < i then .ok badName
    else do
      let p ← skipNames m (i.toNat - 1) (c.2 + 3)
      let r ← utf8Get m p
      assert (decide (0 < r.1.toNat))
      if r.2 + r.1.toNat ≤ m.length then .ok ((m.drop r.2).take r.1.toNat) else .error .ub

/-- The case `RxoStart`, rx/rxdump.cpp:96-126; `p` is the position after the opcode. -/
def dumpStart (m : List Byte) (p : Nat) : Res (Line × Nat × Bool) := do
  let search ← getOffset m p
  let start ← getOffset m search.2
  let st ← utf8Get m start.2
  let nest ← rd m st.2
  let cap ← rd m (st.2 + 1)
  let nn ← rd m (st.2 + 2)
  let names ← getNames m (nn.toNat - 1) (st.2 + 3)
  .ok (.start (p + search.1) (search.2 + start.1) st.1.toNat nest.toNat cap.toNat names.1, names.2, true)

/-- The cases of tokens, rx/rxdump.cpp:197-234, which should not be in a program: the position after their operands.
Simplification: the values of the operands are not in the line. -/
def dumpToken (m : List Byte) (op : Byte) (p : Nat) : Res (Line × Nat × Bool) :=
  if op == 0x05#8 then .ok (.error op, p, true)
  else if op == 0x04#8 || op == 0x02#8 then do
    let r ← utf8Get m p
    .ok (.error op, r.2, true)
  else if op == 0x03#8 then do
    let r ← utf8Get m p
    let n ← rd m r.2
    let _ ← dumpName m ((n.toNat : Int) - 1)
    .ok (.error op, r.2 + 1, true)
  else if op == 0x01#8 then do
    let t ← getText m p
    .ok (.error op, t.2, true)
  else do
    let _ ← rd m p
    let _ ← rd m (p + 1)
    .ok (.error op, p + 2, true)

/-- `dumpInstruction`, rx/rxdump.cpp:31-250, at position `s`: the line, the new position and the result. -/
def dumpInstruction (m : List Byte) (s : Nat) : Res (Line × Nat × Bool) := do
  let op ← rd m s
  let p := s + 1
  if op == opNull then .ok (.null, p, false)
  else if op == opStart then dumpStart m p
  else if op == opAccept then .ok (.accept, p, true)
  else if op == opChar then do
    let r ← utf8Get m p
    .ok (.char r.1 ((m.drop p).take (r.2 - p)), r.2, true)
  else if op == opBOL then .ok (.bol, p, true)
  else if op == opEOL then .ok (.eol, p, true)
  else if op == opAny then .ok (.any, p, true)
  else if op == opJump then do
    let r ← getOffset m p
    .ok (.jump r.1 (s + 1 + r.1), r.2, true)
  else if op == opSplit then do
    let r ← getOffset m p
    .ok (.split r.1 (s + 1 + r.1), r.2, true)
  else if op == opCapStart then do
    let n ← rd m p
    let name ← dumpName m ((n.toNat : Int) - 1)
    .ok (.capStart name ((n.toNat : Int) - 1), p + 1, true)
  else if op == opCapEnd then do
    let n ← rd m p
    let name ← dumpName m ((n.toNat : Int) - 1)
    .ok (.capEnd name ((n.toNat : Int) - 1), p + 1, true)
  else if op == opNegLook then do
    let r ← getOffset m p
    .ok (.negLook r.1 (s + 1 + r.1), r.2, true)
  else if op == opProp then do
    let t ← getText m p
    .ok (.prop t.1, t.2, true)
  else if op == opClass then do
    let t ← getText m p
    .ok (.cls false t.1, t.2, true)
  else if op == opNegClass then do
    let t ← getText m p
    .ok (.cls true t.1, t.2, true)
  else if op == opZero then .ok (.zero, p, true)
  else if op == opCount then do
    let mn ← rd m p
    let mx ← rd m (p + 1)
    let r ← getOffset m (p + 2)
    .ok (.count ((mn.toNat : Int) - 1) ((mx.toNat : Int) - 1) r.1 (s + 3 + r.1), r.2, true)
  else if op.toNat ≤ 6 then dumpToken m op p
  else .ok (.illegal op, p, false)

/-- The loop of `dump`, rx/rxdump.cpp:16-19: the lines printed, each with its offset. -/
def dumpFrom (m : List Byte) : Nat → Nat → Res (List (Nat × Line))
  | 0, _ => .error .fuel
  | fuel + 1, s =>
    if s < m.length then do
      let r ← dumpInstruction m s
      if r.2.2 then do
        let ls ← dumpFrom m fuel r.2.1
        .ok ((s, r.1) :: ls)
      else .ok [(s, r.1)]
    else .ok []

/-- `RxCompiler::dump`, rx/rxdump.cpp:11-20, without the hexadecimal part. There are at most as many rounds as bytes, and
one which ends the loop. -/
def dump (m : List Byte) : Res (List (Nat × Line)) := dumpFrom m (m.length + 1) 0

/-- A hexadecimal digit as `%02X` prints it -/
def hexDigit (n : Nat) : Byte := if n < 10 then BitVec.ofNat 8 (0x30 + n) else BitVec.ofNat 8 (0x37 + n)

/-- The loop of `dumpHex`, rx/rxdump.cpp:22-29, from byte number `i` on -/
def dumpHexFrom : Nat → List Byte → List Byte
  | _, [] => [0x0A#8]
  | i, b :: bs =>
    hexDigit (b.toNat / 16) :: hexDigit (b.toNat % 16) ::
      ((if (i + 1) % 5 ≠ 0 then [0x20#8] else [0x20#8, 0x20#8, 0x20#8]) ++ dumpHexFrom (i + 1) bs)

/-- `RxCompiler::dumpHex`, rx/rxdump.cpp:22-29 -/
def dumpHex (m : List Byte) : List Byte := dumpHexFrom 0 m

end Strpp.Rx
