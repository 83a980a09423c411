import Verif.Model.Pegexp
import Verif.Model.StrVal
import Verif.Spec.Source
/-!
Model of the class PegexpPointerSource of include/pegexp.h as a user of it sees it: null sources too, both sizes of `_Char`, the
comparisons, and `string_to`. `Pex.Src` (Model/Pegexp.lean) is the part that matching uses; C96_matching shows that the two agree.

`data` is a position in one buffer, `none` the null pointer. `narrow` says that `sizeof(Char) == 1`; such a `char` is represented by
the UCS4 that it is extended to. Simplification: the counts, of type off_t, do not overflow (they are below the size of the buffer).
-/
set_option linter.unusedVariables false
namespace Strpp.Source

/-- include/pegexp.h:166-170 -/
structure Source where
  data : Option Nat
  byteCount : Int
  line : Int
  col : Int
deriving DecidableEq, Repr

/-- include/pegexp.h:101-106: the null source -/
def null : Source := ⟨none, 0, 1, 1⟩

/-- include/pegexp.h:107 -/
def isNull (s : Source) : Bool := s.data == none

/-- include/pegexp.h:110-115; null if the pointer is -/
def ofPtr (cp : Option Nat) : Source := ⟨cp, 0, 1, 1⟩

/-- include/pegexp.h:118-123: the copy constructor; the implicit assignment does the same -/
def copyOf (s : Source) : Source := ⟨s.data, s.byteCount, s.line, s.col⟩

/-- include/pegexp.h:143-144 -/
def atEof (m : List Byte) (s : Source) : Res Bool :=
  match s.data with
  | none => .ok true
  | some p => do
    let b ← rd m p
    .ok (b == 0#8)

/-- include/pegexp.h:145-146 -/
def atBol (s : Source) : Bool := s.col == 1

/-- include/pegexp.h:172-181 -/
def bump (s : Source) (c : UCS4) : Source :=
  if c == 0x0A#32 then { s with line := s.line + 1, col := 1 } else { s with col := s.col + 1 }

/-- `*data` and the like through the pointer -/
def ptr (s : Source) : Res Nat :=
  match s.data with
  | none => .error .ub
  | some p => .ok p

/-- include/pegexp.h:125-132 -/
def getByte (m : List Byte) (s : Source) : Res (Byte × Source) := do
  let e ← atEof m s
  if e then .ok (0#8, s)
  else do
    let p ← ptr s
    let b ← rd m p
    .ok (b, bump { s with data := some (p + 1), byteCount := s.byteCount + 1 } (b.signExtend 32))

/-- include/pegexp.h:133-142 -/
def getChar (narrow : Bool) (m : List Byte) (s : Source) : Res (UCS4 × Source) :=
  if narrow then do
    let r ← getByte m s
    .ok (r.1.signExtend 32, r.2)
  else do
    let e ← atEof m s
    if e then .ok (0xFFFFFFFF#32, s)
    else do
      let start ← ptr s
      let r ← utf8Get m start
      .ok (r.1, bump { s with data := some r.2, byteCount := s.byteCount + ((r.2 : Int) - start) } r.1)

/-- include/pegexp.h:149-150 -/
def same (s other : Source) : Bool := s.data == other.data

/-- include/pegexp.h:151-152: the difference as a size_t -/
def bytesFrom (s origin : Source) : Nat := ((s.byteCount - origin.byteCount) % 18446744073709551616).toNat

/-- the assertion of include/pegexp.h:154 and 156 -/
def bothOrNone (s other : Source) : Bool := (!isNull s && !isNull other) || (isNull s && isNull other)

/-- A pointer as a number: null pointers are equal to each other, and their difference is 0 -/
def addr (s : Source) : Int :=
  match s.data with
  | none => 0
  | some p => p

/-- include/pegexp.h:153-154 -/
def lt (s other : Source) : Res Bool := do
  assert (bothOrNone s other)
  .ok (addr s < addr other)

/-- include/pegexp.h:155-156 -/
def minus (s other : Source) : Res Int := do
  assert (bothOrNone s other)
  .ok (addr s - addr other)

/-- include/pegexp.h:159 -/
def currentByte (s : Source) : Int := s.byteCount

/-- include/pegexp.h:160 -/
def currentLine (s : Source) : Int := s.line

/-- include/pegexp.h:161 -/
def currentColumn (s : Source) : Int := s.col

/-- include/pegexp.h:163-164: the length is converted to int, and to the type of a StrVal's length. The new StrVal is a new variable of the
strings' state. Subtraction of a null pointer from another one is undefined. -/
def stringTo (m : List Byte) (st : SV.State) (s other : Source) : Res SV.State :=
  match s.data, other.data with
  | some p, some q => SV.newData st m p (Arr.wrap ((q : Int) - p)) 0
  | none, none => .ok (SV.newEmpty st)
  | _, _ => .error .ub

def nth (ss : List Source) (v : Nat) : Res Source :=
  match ss[v]? with
  | none => .error .ub
  | some s => .ok s

/-- One call. Every source is a variable, numbered in the order in which they were made. -/
def step (narrow : Bool) (m : List Byte) (ss : List Source) : Spec.SrcOp → Res (List Source)
  | .null => .ok (ss ++ [null])
  | .start => .ok (ss ++ [ofPtr (some 0)])
  | .copy v => do
    let s ← nth ss v
    .ok (ss ++ [copyOf s])
  | .assign v w => do
    let _ ← nth ss v
    let s ← nth ss w
    .ok (ss.set v (copyOf s))
  | .read v .byte => do
    let s ← nth ss v
    let r ← getByte m s
    .ok (ss.set v r.2)
  | .read v .char => do
    let s ← nth ss v
    let r ← getChar narrow m s
    .ok (ss.set v r.2)

def run (narrow : Bool) (m : List Byte) : List Source → List Spec.SrcOp → Res (List Source)
  | ss, [] => .ok ss
  | ss, o :: os => do
    let ss ← step narrow m ss o
    run narrow m ss os

end Strpp.Source
