import Verif.Basic
/-!
Model of the UTF-8 part of include/char_encoding.h (lines 91-321).

A `const UTF8*` is a position in a byte buffer; a read outside of the buffer is `Fault.ub`.
UTF8 is `char`; every use masks or casts to unsigned, so bytes are `BitVec 8`.
-/
namespace Strpp

/-- include/char_encoding.h:91-95 -/
def ucs4IsIllegal (ch : UCS4) : Bool :=
  (ch &&& 0xFFFFFF00#32) == 0x80000000#32 || ch == 0xFFFFFFFF#32

/-- include/char_encoding.h:97-101 -/
def utf8EncodeIllegal (b : Byte) : UCS4 := 0x80000000#32 ||| b.zeroExtend 32

/-- include/char_encoding.h:103-107 -/
def utf8Is1st (b : Byte) : Bool := (b &&& 0xC0#8) != 0x80#8

/-- include/char_encoding.h:109-113 -/
def utf8Is2nd (b : Byte) : Bool := (b &&& 0xC0#8) == 0x80#8

/-- include/char_encoding.h:115-138, `UTF8Len(UCS4)`. UCS4 is unsigned so `ch < 0` is never true. -/
def utf8LenCh (ch : UCS4) : Nat :=
  if (ch &&& 0x80000000#32) != 0#32 then
    if ucs4IsIllegal ch then 1 else 6
  else if ch.toNat < 2 ^ 7 then 1
  else if ch.toNat < 2 ^ 11 then 2
  else if ch.toNat < 2 ^ 16 then 3
  else if ch.toNat < 2 ^ 21 then 4
  else if ucs4IsIllegal ch then 1
  else if ch.toNat < 2 ^ 26 then 5
  else 6

/-- include/char_encoding.h:140-152 -/
def utf8CorrectLen (c : Byte) : Nat :=
  if c.toNat < 0x80 then 1
  else if c.toNat < 0xC0 then 0
  else if c.toNat < 0xE0 then 2
  else if c.toNat < 0xF0 then 3
  else if c.toNat < 0xF8 then 4
  else if c.toNat < 0xFC then 5
  else 6

/-- The fall-through switch of include/char_encoding.h:158-181: at `case k` check `cp[k-1]`, down to `case 2`. -/
def utf8LenFall (m : List Byte) (p len : Nat) : Nat → Res Nat
  | 0 => .ok 1
  | 1 => .ok len
  | k + 2 => do
    let b ← rd m (p + (k + 1))
    if utf8Is1st b then .ok 1 else utf8LenFall m p len (k + 1)

/-- include/char_encoding.h:154-182, `UTF8Len(const UTF8*)` -/
def utf8LenAt (m : List Byte) (p : Nat) : Res Nat := do
  let c ← rd m p
  utf8LenFall m p (utf8CorrectLen c) (utf8CorrectLen c)

/-- The `masks` table, include/char_encoding.h:189 -/
def utf8Mask : Nat → UCS4
  | 0 => 0xFF#32
  | 1 => 0x7F#32
  | 2 => 0x1F#32
  | 3 => 0x0F#32
  | 4 => 0x07#32
  | 5 => 0x03#32
  | _ => 0x03#32

/-- `ch = (ch << 6) | (*cp&0x3F)`, include/char_encoding.h:197 (and 201, 205, 209, 213) -/
def utf8Acc (ch : UCS4) (b : Byte) : UCS4 := (ch <<< 6) ||| (b &&& 0x3F#8).zeroExtend 32

/-- include/char_encoding.h:193-228: `case k` of the fall-through switch, with `cp` the current and `sp` the
initial pointer. -/
def utf8GetFall (m : List Byte) (sp : Nat) (b0 : Byte) : Nat → UCS4 → Nat → Res (UCS4 × Nat)
  | 0, _, _ => .ok (utf8EncodeIllegal b0, sp + 1)
  | 1, ch, cp => .ok (ch, cp + 1)
  | k + 2, ch, cp => do
    let b ← rd m (cp + 1)
    if utf8Is1st b then .ok (utf8EncodeIllegal b0, sp + 1)
    else utf8GetFall m sp b0 (k + 1) (utf8Acc ch b) (cp + 1)

/-- include/char_encoding.h:184-229, `UTF8Get`: the character and the new value of the pointer. The sign extension of
`ch = *cp` is removed by the mask. -/
def utf8Get (m : List Byte) (p : Nat) : Res (UCS4 × Nat) := do
  let b0 ← rd m p
  let len := utf8CorrectLen b0
  utf8GetFall m p b0 len (b0.signExtend 32 &&& utf8Mask len) p

/-- include/char_encoding.h:231-237 -/
def utf8Peek (m : List Byte) (p : Nat) : Res UCS4 := do
  let r ← utf8Get m p
  .ok r.1

/-- The loop of include/char_encoding.h:249-256. `back` is `cp - sp`; `n` iterations remain until `sp < limit`. -/
def utf8BackupLoop (m : List Byte) (cp : Int) : Nat → Nat → Res Int
  | 0, _ => .ok (cp - 1)
  | n + 1, back => do
    let b ← rdI m (cp - back)
    if utf8Is1st b then
      if utf8CorrectLen b ≥ back then .ok (cp - back) else .ok (cp - 1)
    else utf8BackupLoop m cp n (back + 1)

/-- include/char_encoding.h:239-257. `none` is the null pointer. Positions are integers: with no limit the code may
look before the buffer. -/
def utf8Backup (m : List Byte) (cp : Int) (limit : Option Int := none) : Res (Option Int) :=
  let lim : Int := match limit with
    | none => cp - 6
    | some l => if cp - l > 6 then cp - 6 else l
  if lim ≥ cp then .ok none
  else do
    let r ← utf8BackupLoop m cp (cp - lim).toNat 1
    .ok (some r)

/-- `(UTF8)((ch >> n) & mask)` with a tag or-ed in: one written byte, include/char_encoding.h:286-318 -/
def putByte (tag : Byte) (mask : UCS4) (n : Nat) (ch : UCS4) : Byte :=
  tag ||| ((ch >>> n) &&& mask).truncate 8

/-- include/char_encoding.h:273-321, `UTF8Put`: the bytes stored at `cp` (which then points after them). -/
def utf8Put (ch : UCS4) : List Byte :=
  match utf8LenCh ch with
  | 1 => [ch.truncate 8]
  | 2 => [putByte 0xC0#8 0x1F#32 6 ch, putByte 0x80#8 0x3F#32 0 ch]
  | 3 => [putByte 0xE0#8 0x0F#32 12 ch, putByte 0x80#8 0x3F#32 6 ch, putByte 0x80#8 0x3F#32 0 ch]
  | 4 => [putByte 0xF0#8 0x07#32 18 ch, putByte 0x80#8 0x3F#32 12 ch, putByte 0x80#8 0x3F#32 6 ch, putByte 0x80#8 0x3F#32 0 ch]
  | 5 => [putByte 0xF8#8 0x03#32 24 ch, putByte 0x80#8 0x3F#32 18 ch, putByte 0x80#8 0x3F#32 12 ch, putByte 0x80#8 0x3F#32 6 ch,
          putByte 0x80#8 0x3F#32 0 ch]
  | 6 => [putByte 0xFC#8 0x03#32 30 ch, putByte 0x80#8 0x3F#32 24 ch, putByte 0x80#8 0x3F#32 18 ch, putByte 0x80#8 0x3F#32 12 ch,
          putByte 0x80#8 0x3F#32 6 ch, putByte 0x80#8 0x3F#32 0 ch]
  | _ => []

/-- include/char_encoding.h:259-271, `UTF8PutPaddedZero`. The string literal has 6 bytes and a terminator, so index 6
is its NUL. A negative or too large `length` fails the assertion. -/
def utf8PutPaddedZero (length : Int) : Res (List Byte) := do
  assert (0 ≤ length && length ≤ 6)
  if length > 1 then do
    let lead ← rdI [0x00#8, 0xC0#8, 0xE0#8, 0xF0#8, 0xF8#8, 0xFC#8, 0x00#8] length
    .ok (lead :: List.replicate (length.toNat - 1) 0x80#8)
  else .ok [0#8]

end Strpp
