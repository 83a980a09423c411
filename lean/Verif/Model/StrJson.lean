import Verif.Model.StrVal
import Verif.Model.Utf16
/-!
Model of include/strval.h:729-736 and 1103-1186: StrBodyI::toJSON, StrValI::toJSON and asJSON.

Simplification: StrRawBinary bodies are not modelled, so `isRawBinary()` is false and `putChar` is UTF8Put. `std::function`
and the borrowed `temp_body` are as for `toLower` (Model/StrBody.lean, `caseX`).
-/
namespace Strpp.SV

/-- include/strval.h:1114 -/
def hexTable : List Byte := [0x30#8, 0x31#8, 0x32#8, 0x33#8, 0x34#8, 0x35#8, 0x36#8, 0x37#8, 0x38#8, 0x39#8, 0x41#8, 0x42#8, 0x43#8,
  0x44#8, 0x45#8, 0x46#8]

/-- include/strval.h:1157-1164, the bytes written; `u` is an `unsigned short` -/
def u4 (u : BitVec 16) : Res (List Byte) := do
  let a ← rd hexTable ((u >>> 12) &&& 0xF#16).toNat
  let b ← rd hexTable ((u >>> 8) &&& 0xF#16).toNat
  let c ← rd hexTable ((u >>> 4) &&& 0xF#16).toNat
  let d ← rd hexTable (u &&& 0xF#16).toNat
  .ok [0x5C#8, 0x75#8, a, b, c, d]

/-- include/strval.h:1122-1177: the bytes written for a character -/
def escape (ch : UCS4) : Res (List Byte) :=
  if ch == 0#32 then .ok [0x5C#8, 0x30#8]
  else if ch == 0x22#32 then .ok [0x5C#8, 0x22#8]
  else if ch == 0x5C#32 then .ok [0x5C#8, 0x5C#8]
  else if ch == 0x2F#32 then .ok [0x5C#8, 0x2F#8]
  else if ch == 0x08#32 then .ok [0x5C#8, 0x62#8]
  else if ch == 0x0C#32 then .ok [0x5C#8, 0x66#8]
  else if ch == 0x0A#32 then .ok [0x5C#8, 0x6E#8]
  else if ch == 0x0D#32 then .ok [0x5C#8, 0x72#8]
  else if ch == 0x09#32 then .ok [0x5C#8, 0x74#8]
  else if ch.toNat ≥ 0x20 && (ch.toNat ≤ 0xFFFF && !utf16IsSurrogate (ch.setWidth 16)) then .ok (utf8Put ch)
  else if ch.toNat ≤ 0xFFFF then u4 (ch.setWidth 16)
  else do
    assert (ch.toNat ≤ 0xFFFFF)
    let hi ← u4 (0xD800#16 + ((ch >>> 10) &&& 0x3FF#32).setWidth 16)
    let lo ← u4 (0xDC00#16 + (ch &&& 0x3FF#32).setWidth 16)
    .ok (hi ++ lo)

/-- include/strval.h:1112 and 1178: `one_char` has 14 bytes, and gets a NUL too -/
def inOneChar (bytes : List Byte) : Res (List Byte) := if bytes.length + 1 ≤ 14 then .ok bytes else .error .ub

/-- The closure of include/strval.h:1117-1183 -/
def jsonX : XForm Unit := fun st mem cp _ => do
  let r ← utf8Get mem cp
  let bytes ← escape r.1
  let bytes ← inOneChar bytes
  let repl ← oneChar bytes
  .ok (st, repl, r.2)

/-- include/strval.h:1110-1186 -/
def SBody.toJSON (rc : Nat) (b : SBody) : Res SBody := do
  let r ← b.transform jsonX () rc (-1)
  .ok r.2

/-- include/strval.h:730-736: the bookmark is left as it was -/
def toJSON (s : State) (v : Nat) : Res State := do
  let s ← unshare s v
  let y ← getVar s v
  let σ ← getStr s v
  let b ← σ.b.toJSON (refCount s y.body)
  let σ ← σ.showAll b
  putStr s v σ

/-- include/strval.h:729: a copy, converted; the result is the new variable -/
def asJSON (s : State) (w : Nat) : Res State := do
  let r := s.vars.length
  let s ← copy s w
  toJSON s r

end Strpp.SV
