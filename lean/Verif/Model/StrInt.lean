import Verif.Model.StrBody
import Verif.Model.ErrNum
/-!
Model of include/strval.h:816-838 and 960-1101: StrVal::asInt32.

Simplification: `UCS4Digit` is called with one value of its memo throughout (its result does not depend on the memo, C12).
`err_return` and `scanned` are always given.
-/
namespace Strpp.SV

open Arr (wrap)

/-- include/strval.h:41-45, with 983, 1055, 1069, 1078, 1090, 1097: `ErrNum(STRERR_SET, STRERR_...)`, where the macro
itself is an ErrNum -/
def strErr (n : BitVec 32) : BitVec 32 := ErrNum.mk 1#32 (ErrNum.toInt32 (ErrNum.mk 1#32 n))

/-- The value returned, `*err_return` and `*scanned` -/
structure NumRes where
  val : Int
  err : BitVec 32
  scanned : Nat
deriving DecidableEq, Repr

/-- include/strval.h:816-821 -/
def hexAlpha (ch : UCS4) : Int :=
  if (ch.toNat ≥ 0x61 && ch.toNat ≤ 0x7A) || (ch.toNat ≥ 0x41 && ch.toNat ≤ 0x5A)
  then ((ch &&& ~~~0x20#32).toNat : Int) - 0x41 + 10 else -1

/-- include/strval.h:834-837 -/
def digitFits (d radix : Int) : Int := if d < radix || (d == 1 && radix == 1) then d else -1

/-- include/strval.h:823-838 -/
def digit (memo : Int) (ch : UCS4) (radix : Int) : Res Int := do
  let d ← ucs4Digit memo ch
  if d.1 < 0 then
    if radix > 10 then
      if hexAlpha ch < 0 then .ok (-1) else .ok (digitFits (hexAlpha ch) radix)
    else .ok (digitFits d.1 radix)
  else .ok (digitFits d.1 radix)

/-- The loops of include/strval.h:990-991, 1000-1001, 1066-1067: position and character reached -/
def Str.skipWhite (σ : Str) : Nat → Nat → UCS4 → Res (Nat × UCS4)
  | 0, _, _ => .error .fuel
  | fuel + 1, i, ch =>
    if i < σ.num then do
      let c ← σ.get i
      if ucs4IsWhite c then σ.skipWhite fuel (i + 1) c else .ok (i, c)
    else .ok (i, ch)

/-- The loop of include/strval.h:1047-1060: from position `i`, with `l` and the digit `d`; `none` is an overflow. Gives the
position reached and the number. `unsigned long` has 64 bits. -/
def Str.digits (σ : Str) (memo radix : Int) (max : Nat) : Nat → Nat → Nat → Int → Res (Nat × Option Nat)
  | 0, _, _, _ => .error .fuel
  | fuel + 1, i, l, d =>
    let i := i + 1
    let n := (l * radix.toNat + d.toNat) % 18446744073709551616
    if l > max || n < l then .ok (i, none)
    else if i < σ.num then do
      let c ← σ.get i
      let d ← digit memo c radix
      if d ≥ 0 then σ.digits memo radix max fuel i n d else .ok (i, some n)
    else .ok (i, some n)

/-- Conversion of a 64-bit `long` to the `int32_t` returned (gcc: reduction modulo 2^32) -/
def toInt32 (x : Int) : Int := (x + 2147483648) % 4294967296 - 2147483648

/-- Conversion of `unsigned long` to `long` -/
def toLong (l : Nat) : Int := if l < 9223372036854775808 then l else (l : Int) - 18446744073709551616

/-- include/strval.h:1081-1085: negating LONG_MIN is undefined -/
def signed (negative : Bool) (l : Nat) : Res Int :=
  if negative then
    if toLong l == -9223372036854775808 then .error .ub else .ok (toInt32 (-toLong l))
  else .ok (toInt32 (toLong l))

/-- include/strval.h:1040-1085 -/
def Str.convertInt (σ : Str) (memo radix : Int) (negative : Bool) (i : Nat) (ch : UCS4) : Res NumRes := do
  let d ← digit memo ch radix
  if d < 0 then .ok ⟨0, strErr 4#32, i⟩
  else do
    let r ← σ.digits memo radix (18446744073709551614 / radix.toNat + 1) (σ.num + 1) i 0 d
    match r.2 with
    | none => .ok ⟨0, strErr 3#32, r.1⟩
    | some l => do
      let w ← σ.skipWhite (σ.num + 1) r.1 ch
      let v ← signed negative l
      .ok ⟨v, if l > 9223372036854775807 + (if negative then 1 else 0) then strErr 3#32
              else if w.1 != σ.num then strErr 1#32 else 0#32, w.1⟩

/-- include/strval.h:1004-1037 when radix is 0: the radix, position and character reached -/
def Str.detectRadix (σ : Str) (memo : Int) (i : Nat) (ch : UCS4) : Res (Int × Nat × UCS4) := do
  let z ← ucs4Digit memo ch
  if z.1 == 0 && i + 1 < σ.num then do
    let c ← σ.get ((i : Int) + 1)
    if c == 0x62#32 || c == 0x42#32 then do
      let ch ← σ.get ((i : Int) + 2)
      .ok (2, i + 2, ch)
    else if c == 0x78#32 || c == 0x58#32 then do
      let ch ← σ.get ((i : Int) + 2)
      .ok (16, i + 2, ch)
    else .ok (8, i, ch)
  else .ok (10, i, ch)

/-- include/strval.h:1004-1101 -/
def Str.afterSign (σ : Str) (memo radix : Int) (negative : Bool) (i : Nat) (ch : UCS4) : Res NumRes :=
  if i == σ.num then .ok ⟨0, strErr 2#32, i⟩
  else if radix == 0 then do
    let r ← σ.detectRadix memo i ch
    if r.2.1 == σ.num then .ok ⟨0, strErr 2#32, r.2.1⟩
    else σ.convertInt memo r.1 negative r.2.1 r.2.2
  else σ.convertInt memo radix negative i ch

/-- include/strval.h:960-1101 -/
def Str.asInt32 (σ : Str) (memo radix : Int) : Res NumRes :=
  if radix < 0 || radix > 36 then .ok ⟨0, strErr 5#32, 0⟩
  else do
    let w ← σ.skipWhite (σ.num + 1) 0 0#32
    if w.1 == σ.num then .ok ⟨0, strErr 2#32, w.1⟩
    else if w.2 == 0x2B#32 || w.2 == 0x2D#32 then do
      let u ← σ.skipWhite (σ.num + 1) (w.1 + 1) w.2
      σ.afterSign memo radix (w.2 == 0x2D#32) u.1 u.2
    else σ.afterSign memo radix false w.1 w.2

end Strpp.SV
