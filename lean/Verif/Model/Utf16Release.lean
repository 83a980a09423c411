import Verif.Model.Utf16
/-! The UTF-16 functions of include/char_encoding.h as they are in a build with NDEBUG defined: `assert` does nothing.
(The Makefiles of the repository do not define it; Model/Utf16.lean has the build they make.) -/
namespace Strpp

/-- include/char_encoding.h:374-404, `UTF16Get`, with NDEBUG -/
def utf16GetRelease (m : List UTF16) (p : Nat) (swap : Bool := false) : Res (UCS4 × Nat) := do
  let u1 ← rd m p
  let c1 := utf16Sw swap u1
  if !utf16IsSurrogate c1 then .ok (c1.zeroExtend 32, p + 1)
  else if utf16Is1st c1 then do
    let u2 ← rd m (p + 1)
    let c2 := utf16Sw swap u2
    if utf16Is2nd c2 then
      .ok (((c1.zeroExtend 32 &&& ~~~0xD800#32) <<< 10) + (c2.zeroExtend 32 &&& ~~~0xDC00#32) + 0x10000#32, p + 2)
    else .ok (ucs4Replacement, p + 1)
  else .ok (ucs4Replacement, p + 1)

/-- include/char_encoding.h:406-414, `UTF16Len(UCS4)`, with NDEBUG -/
def utf16LenChRelease (ch : UCS4) : Nat :=
  if ucs4IsUnicode ch then (if ch.toNat > 0x0000FFFF then 2 else 1) else 1

/-- include/char_encoding.h:422-444, `UTF16Put`, with NDEBUG: the units written -/
def utf16PutRelease (ch : UCS4) (swap : Bool := false) : List UTF16 :=
  if ch.toNat ≤ 0xFFFF then [utf16Sw swap (ch.truncate 16)]
  else if ucs4IsUnicode ch then [utf16Sw swap (ucs4HighSurrogate ch), utf16Sw swap (ucs4LowSurrogate ch)]
  else [utf16Sw swap (ucs4Replacement.truncate 16)]

end Strpp
