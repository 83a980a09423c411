import Verif.Model.StrInt
import Verif.Model.StrJson
import Verif.Spec.Utf8
/-!
Model of include/variant.h: Variant's numbers, coercions (147-163, 268-385) and JSON output (168-236).

Simplifications. A string is the list of its characters, an array or a map the list of its elements: that the counted,
copy-on-write classes behave as such values is the subject of C18-C30 and C52, within the limits shown there. A map is listed
in the order its iterator visits it. The union is 64 bits wide where a number is kept (LP64, little-endian: `u.i` is the low
half of `u.l` and `u.ll`). Constructors, copy and assignment of a Variant then are those of Lean values.
-/
namespace Strpp.Var

open SV

/-- include/variant.h:32-44 -/
inductive Ty where
  | none | integer | long | longLong | string | strArray | varArray | strVarMap
deriving DecidableEq, Repr

/-- include/variant.h:387-401: the type and what the union holds. For the three number types this is the word `u.ll`. -/
inductive Variant where
  | none
  | integer (w : BitVec 64)
  | long (w : BitVec 64)
  | longLong (w : BitVec 64)
  | string (t : List UCS4)
  | strArray (a : List (List UCS4))
  | varArray (a : List Variant)
  | strVarMap (m : List (List UCS4 × Variant))

/-- include/variant.h:46 -/
def Variant.type : Variant → Ty
  | .none => .none
  | .integer _ => .integer
  | .long _ => .long
  | .longLong _ => .longLong
  | .string _ => .string
  | .strArray _ => .strArray
  | .varArray _ => .varArray
  | .strVarMap _ => .strVarMap

/-- `u.i` read from the word -/
def loInt (w : BitVec 64) : Int := (w.setWidth 32).toInt

/-- `u.i = x` in the word -/
def setInt (w : BitVec 64) (x : Int) : BitVec 64 := (w >>> 32) ++ (BitVec.ofInt 32 x) |>.setWidth 64

/-- include/variant.h:62-67 (the union is zeroed first, 398) -/
def ofInt (x : Int) : Variant := .integer (setInt 0#64 x)
def ofLong (x : Int) : Variant := .long (BitVec.ofInt 64 x)
def ofLongLong (x : Int) : Variant := .longLong (BitVec.ofInt 64 x)

/-- The decimal digits of `n`, as `snprintf` gives them -/
def decimalNat (n : Nat) : List UCS4 :=
  if n < 10 then [BitVec.ofNat 32 (0x30 + n)] else decimalNat (n / 10) ++ [BitVec.ofNat 32 (0x30 + n % 10)]
termination_by n

/-- `snprintf(buf, size, "%lld", x)`: cut off to leave room for the NUL -/
def snprintf (size : Nat) (x : Int) : List UCS4 :=
  (if x < 0 then 0x2D#32 :: decimalNat x.natAbs else decimalNat x.natAbs).take (size - 1)

/-- A string value with these characters, for `asInt32`, which (C31) does not depend on how they are stored -/
def ofText (t : List UCS4) : Str :=
  ⟨⟨⟨t.flatMap utf8Put ++ [0#8], (t.flatMap utf8Put).length + 1, (t.flatMap utf8Put).length + 1, false⟩, 0⟩, 0, t.length, ⟨0, 0⟩⟩

/-- include/variant.h:379-385 -/
def mustBe (v : Variant) (t : Ty) : Res Variant := if v.type = t then .ok v else .error .assertion

/-- include/variant.h:286-306. `junk` is what the pointer in `u.str` was, `memo` the state of UCS4Digit. -/
def coerceInteger (memo : Int) (junk : BitVec 64) (v : Variant) : Res Variant :=
  match v with
  | .integer w => .ok (.integer w)
  | .long w => if w.toInt ≠ loInt w then mustBe v .integer else .ok (.long (setInt w (loInt w)))
  | .longLong w => if w.toInt ≠ loInt w then mustBe v .integer else .ok (.longLong (setInt w (loInt w)))
  | .string t => do
    let r ← (ofText t).asInt32 memo 0
    if r.err = 0#32 then mustBe v .integer else .ok (.integer (setInt junk r.val))
  | v => mustBe v .integer

/-- include/variant.h:308-327 -/
def coerceLong (memo : Int) (v : Variant) : Res Variant :=
  match v with
  | .integer w => .ok (.integer (BitVec.ofInt 64 (loInt w)))
  | .long w => .ok (.long w)
  | .longLong w => .ok (.longLong w)
  | .string t => do
    let r ← (ofText t).asInt32 memo 0
    if r.err = 0#32 then mustBe v .long else .ok (.long (BitVec.ofInt 64 r.val))
  | v => mustBe v .long

/-- include/variant.h:329-347 -/
def coerceLongLong (memo : Int) (v : Variant) : Res Variant :=
  match v with
  | .integer w => .ok (.integer (BitVec.ofInt 64 (loInt w)))
  | .long w => .ok (.long w)
  | .longLong w => .ok (.longLong w)
  | .string t => do
    let r ← (ofText t).asInt32 memo 0
    if r.err ≠ 0#32 then mustBe v .longLong else .ok (.longLong (BitVec.ofInt 64 r.val))
  | v => mustBe v .longLong

/-- include/variant.h:349-369: `buf` has 24 bytes -/
def coerceString (v : Variant) : Res Variant :=
  match v with
  | .integer w => .ok (.string (snprintf 24 (loInt w)))
  | .long w => .ok (.string (snprintf 24 w.toInt))
  | .longLong w => .ok (.string (snprintf 24 w.toInt))
  | .string t => .ok (.string t)
  | v => mustBe v .string

/-- include/variant.h:268-376 -/
def coerce (memo : Int) (junk : BitVec 64) (v : Variant) (ty : Ty) : Res Variant :=
  match ty with
  | .none => .ok .none
  | .integer => coerceInteger memo junk v
  | .long => coerceLong memo v
  | .longLong => coerceLongLong memo v
  | .string => coerceString v
  | .strArray => mustBe v .strArray
  | .varArray => mustBe v .varArray
  | .strVarMap => mustBe v .strVarMap

/-- The word in the union, whatever the type says -/
def word : Variant → Res (BitVec 64)
  | .integer w | .long w | .longLong w => .ok w
  | _ => .error .ub

/-- include/variant.h:157-159: the variant afterwards and the number returned -/
def asInt (memo : Int) (junk : BitVec 64) (v : Variant) : Res (Variant × Int) := do
  let v ← coerce memo junk v .integer
  let w ← word v
  .ok (v, loInt w)

def asLong (memo : Int) (junk : BitVec 64) (v : Variant) : Res (Variant × Int) := do
  let v ← coerce memo junk v .long
  let w ← word v
  .ok (v, w.toInt)

def asLongLong (memo : Int) (junk : BitVec 64) (v : Variant) : Res (Variant × Int) := do
  let v ← coerce memo junk v .longLong
  let w ← word v
  .ok (v, w.toInt)

/-- include/variant.h:160-163: the variant afterwards and what is returned -/
def asStrval (memo : Int) (junk : BitVec 64) (v : Variant) : Res (Variant × List UCS4) := do
  let v ← coerce memo junk v .string
  match v with
  | .string t => .ok (v, t)
  | _ => .error .ub

def asStringArray (memo : Int) (junk : BitVec 64) (v : Variant) : Res (Variant × List (List UCS4)) := do
  let v ← coerce memo junk v .strArray
  match v with
  | .strArray a => .ok (v, a)
  | _ => .error .ub

def asVariantArray (memo : Int) (junk : BitVec 64) (v : Variant) : Res (Variant × List Variant) := do
  let v ← coerce memo junk v .varArray
  match v with
  | .varArray a => .ok (v, a)
  | _ => .error .ub

def asVariantMap (memo : Int) (junk : BitVec 64) (v : Variant) : Res (Variant × List (List UCS4 × Variant)) := do
  let v ← coerce memo junk v .strVarMap
  match v with
  | .strVarMap m => .ok (v, m)
  | _ => .error .ub

/-- include/strval.h:465-485 and 497-500 on characters (C25): `substr(1)`, and `shorter(n)`, whose length wraps around -/
def substr1 (t : List UCS4) : List UCS4 := t.drop 1

def shorter (t : List UCS4) (n : Nat) : List UCS4 :=
  let len := Arr.toInt (Arr.wrap ((t.length : Int) - n))
  if len < -1 then [] else if len = -1 then t else t.take len.toNat

/-- include/strval.h:675-684 on characters: nothing for a negative count -/
def times (t : List UCS4) (n : Int) : List UCS4 := (List.replicate n.toNat t).flatten

/-- include/variant.h:170-179: the separator and the indent of what is nested (which does not reach INT_MAX) -/
def separator (indent : Int) : List UCS4 × Int :=
  if indent = -2 then ([0x2C#32], indent)
  else if indent = -1 then ([0x2C#32, 0x20#32], indent)
  else ([0x2C#32, 0x0A#32] ++ times [0x20#32, 0x20#32] (indent + 1), indent + 1)

/-- include/strval.h:729-736 on characters (C32): each character escaped -/
def asJSON (t : List UCS4) : Res (List UCS4) := do
  let bytes ← t.mapM escape
  .ok (Spec.decodeAll bytes.flatten)

/-- include/variant.h:202-203 -/
def quoted (t : List UCS4) : Res (List UCS4) := do
  let j ← asJSON t
  .ok ([0x22#32] ++ j ++ [0x22#32])

/-- include/variant.h:208-210: the elements, the first at `i = 0` -/
def stringItems (sep : List UCS4) (i : Nat) : List (List UCS4) → Res (List UCS4)
  | [] => .ok []
  | t :: ts => do
    let j ← quoted t
    let r ← stringItems sep (i + 1) ts
    .ok ((if i > 0 then sep else []) ++ j ++ r)

mutual
/-- include/variant.h:168-236: `buf` has 2+8*5/2 = 22 bytes -/
def asJson (indent : Int) : Variant → Res (List UCS4)
  | .none => .ok [0x6E#32, 0x75#32, 0x6C#32, 0x6C#32]
  | .integer w => .ok (snprintf 22 (loInt w))
  | .long w => .ok (snprintf 22 w.toInt)
  | .longLong w => .ok (snprintf 22 w.toInt)
  | .string t => quoted t
  | .strArray a => do
    let s := separator indent
    let items ← stringItems s.1 0 a
    .ok ([0x5B#32] ++ substr1 s.1 ++ items ++ shorter (substr1 s.1) 2 ++ [0x5D#32])
  | .varArray a => do
    let s := separator indent
    let items ← jsonItems s.1 s.2 0 a
    .ok ([0x5B#32] ++ substr1 s.1 ++ items ++ shorter (substr1 s.1) 2 ++ [0x5D#32])
  | .strVarMap m => do
    let s := separator indent
    let items ← jsonMembers s.1 (if indent = -2 then [0x3A#32] else [0x3A#32, 0x20#32]) s.2 0 m
    .ok ([0x7B#32] ++ substr1 s.1 ++ items ++ shorter (substr1 s.1) 2 ++ [0x7D#32])

/-- include/variant.h:217-219 -/
def jsonItems (sep : List UCS4) (indent : Int) (i : Nat) : List Variant → Res (List UCS4)
  | [] => .ok []
  | v :: vs => do
    let j ← asJson indent v
    let r ← jsonItems sep indent (i + 1) vs
    .ok ((if i > 0 then sep else []) ++ j ++ r)

/-- include/variant.h:226-232 -/
def jsonMembers (sep colon : List UCS4) (indent : Int) (i : Nat) : List (List UCS4 × Variant) → Res (List UCS4)
  | [] => .ok []
  | (k, v) :: ms => do
    let q ← quoted k
    let j ← asJson indent v
    let r ← jsonMembers sep colon indent (i + 1) ms
    .ok ((if i > 0 then sep else []) ++ q ++ colon ++ j ++ r)
end

end Strpp.Var
