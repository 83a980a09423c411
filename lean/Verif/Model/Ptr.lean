import Verif.Model.Utf8
/-!
Model of include/char_ptr.h and include/utf8_ptr.h. The pointed-to text is a byte buffer; `data` and `origin` are
positions in it (integers, so that a position outside of the buffer is representable; reading there is `Fault.ub`).
C++ pointer arithmetic outside of the object is itself undefined, so a *position* outside [0, length] is a fault of the
program even before it is read; theorems speak of the positions.

Which function an operator calls is decided by the static class: nothing here is `virtual`.
-/
namespace Strpp

/-- `*s` as an unsigned byte -/
def atNul (m : List Byte) (s : Int) : Res Bool := do
  let b ← rdI m s
  .ok (b == 0#8)

/-! ### NulGuardedCharPtr, include/char_ptr.h:58-90 -/

/-- `while (i > 0 && *s != '\0') { s++; i--;}` of include/char_ptr.h:73 and 111: the final `s` and what is left of `i`.
The argument is `i` when positive. -/
def cpAdvance (m : List Byte) : Nat → Int → Res (Int × Nat)
  | 0, s => .ok (s, 0)
  | n + 1, s => do
    if ← atNul m s then .ok (s, n + 1) else cpAdvance m n (s + 1)

/-- include/char_ptr.h:71-76, `NulGuardedCharPtr::operator+=(int)`. For `i < 0` the loop does nothing and
`s -= i` is executed (sic). -/
def nulCharAdd (m : List Byte) (data : Int) (i : Int) : Res Int := do
  let (s, _) ← cpAdvance m i.toNat data
  if i < 0 then .ok (s - i) else .ok s

/-- include/char_ptr.h:78, `operator-=(int i)  { return *this += -i; }` -/
def nulCharSub (m : List Byte) (data : Int) (i : Int) : Res Int := nulCharAdd m data (-i)

/-- include/char_ptr.h:82, `preincr` (and 87, `operator++()`) -/
def nulCharIncr (m : List Byte) (data : Int) : Res Int := do
  if ← atNul m data then .ok data else .ok (data + 1)

/-- include/char_ptr.h:46 and 52: `operator--()` is inherited unguarded by all three classes -/
def charDecr (data : Int) : Int := data - 1

/-! ### GuardedCharPtr, include/char_ptr.h:93-118 -/

/-- include/char_ptr.h:109-117, `GuardedCharPtr::operator+=(int)`. After the loop `i` is what is left of it. -/
def guardedCharAdd (m : List Byte) (origin data : Int) (i : Int) : Res Int := do
  let (s, left) ← cpAdvance m i.toNat data
  let i' : Int := if i > 0 then left else i
  if -i' > s - origin then .ok origin else .ok (s + i')

/-! ### NulGuardedUTF8Ptr, include/utf8_ptr.h:12-66 -/

/-- `UTF8Get(s)` at an integer position -/
def utf8GetI (m : List Byte) (s : Int) : Res (UCS4 × Int) :=
  if s < 0 then .error .ub
  else do
    let r ← utf8Get m s.toNat
    .ok (r.1, (r.2 : Int))

/-- include/utf8_ptr.h:28-29 -/
def utf8Deref (m : List Byte) (data : Int) : Res UCS4 := do
  let r ← utf8GetI m data
  .ok r.1

/-- include/utf8_ptr.h:25-26 -/
def utf8AtEof (m : List Byte) (data : Int) : Res Bool := do
  let ch ← utf8Deref m data
  .ok (ch == 0#32)

/-- `while (i > 0 && *s != '\0') { UTF8Get(s); i--;}` include/utf8_ptr.h:45 and 82 -/
def utf8Advance (m : List Byte) : Nat → Int → Res Int
  | 0, s => .ok s
  | n + 1, s => do
    if ← atNul m s then .ok s
    else do
      let r ← utf8GetI m s
      utf8Advance m n r.2

/-- `while (i < 0) { s = UTF8Backup(s); i++;}` include/utf8_ptr.h:46. With no limit `UTF8Backup` never returns null. -/
def utf8BackN (m : List Byte) : Nat → Int → Res Int
  | 0, s => .ok s
  | n + 1, s => do
    match ← utf8Backup m s none with
    | none => .error .ub
    | some s' => utf8BackN m n s'

/-- include/utf8_ptr.h:43-48 `NulGuardedUTF8Ptr::operator+=(int)` -/
def nulUtf8Add (m : List Byte) (data : Int) (i : Int) : Res Int := do
  let s ← utf8Advance m i.toNat data
  utf8BackN m (-i).toNat s

/-- include/utf8_ptr.h:55 `preincr` -/
def nulUtf8Incr (m : List Byte) (data : Int) : Res Int := do
  if ← utf8AtEof m data then .ok data
  else do
    let r ← utf8GetI m data
    .ok r.2

/-- include/utf8_ptr.h:57 `predecr` -/
def nulUtf8Decr (m : List Byte) (data : Int) : Res Int := utf8BackN m 1 data

/-! ### GuardedUTF8Ptr, include/utf8_ptr.h:69-89 -/

/-- `while (i < 0 && s > origin) { s = UTF8Backup(s); i++;}` include/utf8_ptr.h:83 -/
def utf8BackToOrigin (m : List Byte) (origin : Int) : Nat → Int → Res Int
  | 0, s => .ok s
  | n + 1, s =>
    if s > origin then do
      match ← utf8Backup m s none with
      | none => .error .ub
      | some s' => utf8BackToOrigin m origin n s'
    else .ok s

/-- include/utf8_ptr.h:80-85 `GuardedUTF8Ptr::operator+=(int)` -/
def guardedUtf8Add (m : List Byte) (origin data : Int) (i : Int) : Res Int := do
  let s ← utf8Advance m i.toNat data
  utf8BackToOrigin m origin (-i).toNat s

/-- include/utf8_ptr.h:86 `GuardedUTF8Ptr::predecr` (but `--p` calls the inherited one, include/utf8_ptr.h:63) -/
def guardedUtf8Predecr (m : List Byte) (origin data : Int) : Res Int :=
  if data == origin then .ok data else utf8BackN m 1 data

end Strpp
