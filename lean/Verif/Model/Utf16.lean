import Verif.Basic
/-! Model of the UTF-16 part of include/char_encoding.h (lines 323-444). A `const UTF16*` is a position in a buffer of
16-bit units. -/
namespace Strpp

/-- include/char_encoding.h:80 -/
def ucs4IsUnicode (ch : UCS4) : Bool := ch.toNat < 0x00110000

/-- include/char_encoding.h:335-339 -/
def utf16IsSurrogate (c : UTF16) : Bool := (c &&& 0xF800#16) == 0xD800#16
/-- include/char_encoding.h:341-345 -/
def utf16Is1st (c : UTF16) : Bool := (c &&& 0xFC00#16) == 0xD800#16
/-- include/char_encoding.h:347-351 -/
def utf16Is2nd (c : UTF16) : Bool := (c &&& 0xFC00#16) == 0xDC00#16

/-- include/char_encoding.h:353-357 -/
def ucs4HighSurrogate (ch : UCS4) : UTF16 := 0xD800#16 + ((ch - 0x10000#32) >>> 10).truncate 16
/-- include/char_encoding.h:359-363 -/
def ucs4LowSurrogate (ch : UCS4) : UTF16 := 0xDC00#16 + (ch &&& 0x3FF#32).truncate 16

/-- include/char_encoding.h:365-372 -/
def utf16Swab (x : UTF16) : UTF16 := ((x &&& 0x00ff#16) <<< 8) ||| ((x &&& 0xff00#16) >>> 8)

/-- `swap ? UTF16Swab(x) : x` -/
def utf16Sw (swap : Bool) (x : UTF16) : UTF16 := if swap then utf16Swab x else x

/-- UCS4_REPLACEMENT, include/char_encoding.h:52 -/
def ucs4Replacement : UCS4 := 0x0000FFFD#32

/-- include/char_encoding.h:374-404, `UTF16Get` -/
def utf16Get (m : List UTF16) (p : Nat) (swap : Bool := false) : Res (UCS4 × Nat) := do
  let u1 ← rd m p
  let c1 := utf16Sw swap u1
  if !utf16IsSurrogate c1 then .ok (c1.zeroExtend 32, p + 1)
  else do
    assert (utf16Is1st c1)
    if utf16Is1st c1 then do
      let u2 ← rd m (p + 1)
      let c2 := utf16Sw swap u2
      assert (utf16Is2nd c2)
      if utf16Is2nd c2 then
        .ok (((c1.zeroExtend 32 &&& ~~~0xD800#32) <<< 10) + (c2.zeroExtend 32 &&& ~~~0xDC00#32) + 0x10000#32, p + 2)
      else .ok (ucs4Replacement, p + 1)
    else .ok (ucs4Replacement, p + 1)

/-- include/char_encoding.h:406-414, `UTF16Len(UCS4)` -/
def utf16LenCh (ch : UCS4) : Res Nat := do
  assert (ucs4IsUnicode ch)
  if ucs4IsUnicode ch then .ok (if ch.toNat > 0x0000FFFF then 2 else 1) else .ok 1

/-- include/char_encoding.h:416-420, `UTF16Len(const UTF16*, swap)` -/
def utf16LenAt (m : List UTF16) (p : Nat) (swap : Bool := false) : Res Nat := do
  let u ← rd m p
  .ok (if utf16Is1st (utf16Sw swap u) then 2 else 1)

/-- include/char_encoding.h:422-444, `UTF16Put`: the units written -/
def utf16Put (ch : UCS4) (swap : Bool := false) : Res (List UTF16) :=
  if ch.toNat ≤ 0xFFFF then .ok [utf16Sw swap (ch.truncate 16)]
  else do
    assert (ucs4IsUnicode ch)
    if ucs4IsUnicode ch then .ok [utf16Sw swap (ucs4HighSurrogate ch), utf16Sw swap (ucs4LowSurrogate ch)]
    else .ok [utf16Sw swap (ucs4Replacement.truncate 16)]

end Strpp
