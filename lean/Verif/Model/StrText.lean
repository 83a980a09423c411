import Verif.Model.StrVal
/-!
Model of include/strval.h:880-884 (a literal `+` a string), of 640-651 (a string `+` a character), of 396-399 (a string from a StrRef) and of the StringArray constructor from an Array of C strings
(1200-1205), on the state of Verif/Model/StrVal.lean. As for `join` (1207-1222) the elements of a StringArray are variables
of their own; the Array that holds them is the subject of Verif/Model/Array.lean.
-/
namespace Strpp.SV

/-- include/strval.h:881-884: the argument is passed by value; `StrValI(cp)` is a temporary. Those two end destroyed, the
result is the third new variable. -/
def textPlus (s : State) (mem : List Byte) (w : Nat) : Res State := do
  let n := s.vars.length
  let s ← copy s w
  let s ← newC s mem
  let s ← plus s (n + 1) n
  let s ← destroy s (n + 1)
  destroy s n

/-- include/strval.h:640-651 `operator+(UCS4) const`: the addend is a temporary on data borrowed from the stack, which is
gone when the call returns; it is the first new variable, ends destroyed, and the result is the second. -/
def plusChar (s : State) (v : Nat) (c : UCS4) : Res State := do
  let n := s.vars.length
  let s ← newStatic s (utf8Put c ++ [0#8])
  let s ← plus s v n
  destroy s n

/-- include/strval.h:306-309 and 396-399: `StrVal(StrRef(w))`. Neither constructor unshares, whatever the body; the new
string has no bookmark. The StrRef is a temporary. -/
def viaRef (s : State) (w : Nat) : Res State := do
  let x ← getVar s w
  .ok (newVar s ⟨x.body, x.off, x.num, ⟨0, 0⟩⟩)

/-- include/strval.h:1204: one element is made of each C string, in order -/
def ofTexts (s : State) : List (List Byte) → Res State
  | [] => .ok s
  | mem :: mems => do
    let s ← newC s mem
    ofTexts s mems

/-- `StringArray(texts).join(j)` -/
def joinTexts (s : State) (j : Nat) (mems : List (List Byte)) : Res State := do
  let n := s.vars.length
  let s ← ofTexts s mems
  join s j (List.range' n mems.length)

end Strpp.SV
