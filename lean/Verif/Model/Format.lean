import Verif.Model.Variant
/-!
Model of include/strformat.h: `StrVal::format`.

Simplification: strings are lists of characters, arrays lists of elements, as in Verif/Model/Variant.lean. `args[n]` is a copy
of the element (include/array.h:63-67), so that conversions of it do not change the caller's arguments.
-/
namespace Strpp.Fmt

open SV Var

/-- `f[i]` (include/strval.h:423-431, C25): NUL at the end, UCS4_NONE beyond -/
def charAt (f : List UCS4) (i : Nat) : UCS4 :=
  match f[i]? with
  | some c => c
  | none => if i = f.length then 0#32 else 0xFFFFFFFF#32

/-- `size*10 + d` in `int` -/
def addDigit (n d : Int) : Res Int := if n * 10 + d > 2147483647 then .error .ub else .ok (n * 10 + d)

/-- The loops of include/strformat.h:41-42 and 56-57: the position, character and number reached -/
def digitLoop (memo : Int) (f : List UCS4) : Nat → Nat → UCS4 → Int → Res (Nat × UCS4 × Int)
  | 0, _, _, _ => .error .fuel
  | fuel + 1, i, c, n =>
    if i < f.length then do
      let d ← digit memo (charAt f (i + 1)) 10
      if d ≥ 0 then do
        let n ← addDigit n d
        digitLoop memo f fuel (i + 1) (charAt f (i + 1)) n
      else .ok (i + 1, charAt f (i + 1), n)
    else .ok (i, c, n)

/-- include/strformat.h:33-43 and 50-58: a size or precision, -1 for a star (which is not skipped) -/
def sizeAt (memo : Int) (f : List UCS4) (i : Nat) (c : UCS4) : Res (Nat × UCS4 × Int) :=
  if c == 0x2A#32 then .ok (i, c, -1)
  else do
    let d ← digit memo c 10
    if d ≥ 0 then digitLoop memo f (f.length + 1) i c d else .ok (i, c, 0)

/-- include/strformat.h:23-30: an argument number, which is not used; `c = f[++i]` then skips one more character -/
def numbered (memo : Int) (f : List UCS4) (i : Nat) (c : UCS4) : Res (Nat × UCS4) := do
  let d ← digit memo c 10
  if i + 2 < f.length && (d > 0 && charAt f (i + 1) == 0x24#32) then .ok (i + 3, charAt f (i + 3)) else .ok (i, c)

/-- include/strformat.h:45-60 -/
def precAt (memo : Int) (f : List UCS4) (i : Nat) (c : UCS4) : Res (Nat × UCS4 × Int) :=
  if i < f.length && charAt f i == 0x2E#32 then sizeAt memo f (i + 1) (charAt f (i + 1)) else .ok (i, c, 0)

/-- `args[a]` -/
def arg (args : List Variant) (a : Nat) : Res Variant :=
  match args[a]? with
  | some v => .ok v
  | none => .error .assertion

/-- include/strformat.h:62-65: a star takes an argument -/
def star (memo : Int) (junk : BitVec 64) (args : List Variant) (n : Int) (a : Nat) : Res Nat :=
  if n == -1 then do
    let v ← arg args a
    let _ ← asInt memo junk v
    .ok (a + 1)
  else .ok a

/-- include/strformat.h:68-84: the argument index and the text produced -/
def conversion (memo : Int) (junk : BitVec 64) (args : List Variant) (c : UCS4) (a : Nat) : Res (Nat × List UCS4) :=
  if c == 0x73#32 then do
    let v ← arg args a
    let t ← asStrval memo junk v
    .ok (a + 1, t.2)
  else if c == 0x64#32 || (c == 0x66#32 || c == 0x67#32) then do
    let v ← arg args a
    let t ← asJson (-1) v
    .ok (a + 1, t)
  else .ok (a, [])

/-- include/strformat.h:21-84: a directive whose percent sign is at `i`; the position of its last character, the argument
index and the text produced -/
def directive (memo : Int) (junk : BitVec 64) (f : List UCS4) (args : List Variant) (i a : Nat) : Res (Nat × Nat × List UCS4) := do
  let p ← numbered memo f (i + 1) (charAt f (i + 1))
  let s ← sizeAt memo f p.1 p.2
  let q ← precAt memo f s.1 s.2.1
  let a ← star memo junk args s.2.2 a
  let a ← star memo junk args q.2.2 a
  let r ← conversion memo junk args q.2.1 a
  .ok (q.1, r.1, r.2)

/-- The loop of include/strformat.h:14-85 -/
def formatLoop (memo : Int) (junk : BitVec 64) (f : List UCS4) (args : List Variant) : Nat → Nat → Nat → Res (List UCS4)
  | 0, _, _ => .error .fuel
  | fuel + 1, i, a =>
    if i < f.length then
      if charAt f i != 0x25#32 || i == f.length - 1 then do
        let r ← formatLoop memo junk f args fuel (i + 1) a
        .ok (charAt f i :: r)
      else do
        let d ← directive memo junk f args i a
        let r ← formatLoop memo junk f args fuel (d.1 + 1) d.2.1
        .ok (d.2.2 ++ r)
    else .ok []

/-- include/strformat.h:5-88 -/
def format (memo : Int) (junk : BitVec 64) (f : List UCS4) (args : List Variant) : Res (List UCS4) :=
  formatLoop memo junk f args (f.length + 1) 0 0

end Strpp.Fmt
