import Verif.Model.StrVal
/-!
Model of how far the code walks to find a character of a string by its index: for each loop of include/strval.h:109-177
(`nthChar`) and 249-265 (`countChars`), in the functions of Verif/Model/StrBody.lean, the number of its rounds. Each round
looks at one character.
-/
namespace Strpp.SV

open Arr

/-- include/strval.h:256-264: rounds of the counting loop -/
def countRounds (mem : List Byte) (ep : Nat) : Nat → Nat → Nat
  | 0, _ => 0
  | fuel + 1, cp =>
    if cp < ep then
      match utf8Get mem cp with
      | .ok r => if r.1 == 0xFFFFFFFF#32 || r.2 > ep then 1 else 1 + countRounds mem ep fuel r.2
      | .error _ => 1
    else 0

/-- include/strval.h:154-158: rounds of the forward search -/
def fwdRounds (mem : List Byte) (ep : Nat) : Nat → Nat → Nat
  | 0, _ => 0
  | n + 1, up =>
    if up < ep then
      match utf8LenAt mem up with
      | .ok l => 1 + fwdRounds mem ep n (up + l)
      | .error _ => 1
    else 0

/-- include/strval.h:162-166: rounds of the backward search -/
def bwdRounds (mem : List Byte) (up : Nat) : Nat → Nat → Nat
  | 0, _ => 0
  | n + 1, ep =>
    if ep > up then
      match utf8Backup mem ep (some 0) with
      | .ok (some r) => 1 + bwdRounds mem up n r.toNat
      | _ => 1
    else 0

/-- include/strval.h:151-168 -/
def searchRounds (b : SBody) (k : Nat) (f : Nat × Nat × Nat × Nat) : Nat :=
  if wrap ((k : Int) - f.2.1) < wrap ((f.2.2.2 : Int) - k) then fwdRounds b.arr.mem f.2.2.1 (k - f.2.1) f.1
  else bwdRounds b.arr.mem f.1 (f.2.2.2 - k) f.2.2.1

/-- include/strval.h:109-177: the rounds of `nthChar` -/
def nthRounds (b : SBody) (k : Nat) (mark : Mark) : Nat :=
  if k == 0 || b.nc == b.arr.num - 1 then 0
  else
    (if b.nc == 0 && b.arr.num > 0 then countRounds b.arr.mem (b.arr.num - 1) (b.arr.num + 1) 0 else 0) +
    match b.count with
    | .ok b => searchRounds b k (searchFrom b k mark)
    | .error _ => 0

/-- include/strval.h:423-431 `operator[]`, through 768-774 `nthChar(char_num) const`: the bookmark that is searched from
is a copy, so the next access begins from the same one -/
def Str.getRounds (σ : Str) (k : Nat) : Nat :=
  if k ≥ σ.num then 0 else nthRounds σ.b (σ.off + k) σ.mark

/-- reading characters 0 to `n-1` one after the other with `operator[]` -/
def Str.scanRounds (σ : Str) : Nat → Nat
  | 0 => 0
  | n + 1 => σ.scanRounds n + σ.getRounds n

end Strpp.SV
