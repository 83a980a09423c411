import Verif.Model.RxDump
/-! What the disassembly of a program should show: what the matcher reads at the same place. -/
namespace Strpp.Spec
open Rx (Prog Line Instr)

/-- two numbers which are the same in 32 bits -/
def Same32 (a : Int) (b : Nat) : Prop := a % 4294967296 = b

/-- two numbers which are the same in 16 bits -/
def Same16 (a : Int) (b : Nat) : Prop := a % 65536 = b

/-- the name of a group as it should be shown -/
def NameOf (P : Prog) (k : Int) (name : List Byte) : Prop :=
  if k = 0 then name = []
  else if 1 ≤ k ∧ k ≤ P.names.length then P.names[k.toNat - 1]? = some name
  else name = "BAD NAME NUMBER".toUTF8.toList.map UInt8.toBitVec

/-- `ShowsInstr P s l i`: the line `l` at offset `s` says of the matcher's instruction `i` what it does, with the same
operands; a place in the program is shown both relative to the operand and absolutely -/
def ShowsInstr (P : Prog) (s : Nat) : Line → Instr → Prop
  | .start search start stations nesting captures names, .start next alternate =>
    s = 0 → Same32 search alternate ∧ Same32 start next ∧ stations = P.maxStation ∧ nesting = P.maxCounter ∧
      captures = P.maxCapture ∧ names = P.names
  | .accept, .accept _ | .bol, .bol _ | .eol, .eol _ | .any, .any _ | .zero, .zero _ | .null, .null _ => True
  | .char c text, .char c' n => c = c' ∧ text = (P.nfa.drop (s + 1)).take (n - (s + 1))
  | .jump o target, .jump alternate _ => target = s + 1 + o ∧ Same32 target alternate
  | .split o target, .split alternate _ => target = s + 1 + o ∧ Same32 target alternate
  | .negLook o target, .negLook alternate _ => target = s + 1 + o ∧ Same32 target alternate
  | .count mn mx o target, .count mn' mx' alternate _ => Same16 mn mn' ∧ Same16 mx mx' ∧ target = s + 3 + o ∧ Same32 target alternate
  | .capStart name k, .capStart k' _ => k = k' ∧ NameOf P k name
  | .capEnd name k, .capEnd k' _ => k = k' ∧ NameOf P k name
  | .prop text, .prop text' _ => text = text'
  | .cls neg text, .cls neg' text' _ => neg = neg' ∧ text = text'
  | .error op, .token => P.nfa[s]? = some op
  | _, _ => False

/-- The instruction that follows in the program -/
def following : Instr → Option Nat
  | .start n _ | .char _ n | .prop _ n | .cls _ _ n | .bol n | .eol n | .any n | .accept n | .zero n | .negLook _ n
  | .jump _ n | .split _ n | .count _ _ _ n | .capStart _ n | .capEnd _ n => some n
  | .null _ | .token => none

/-- The places in the program an instruction names or goes to -/
def mentions : Instr → List Nat
  | .start n a => [n, a]
  | .char _ n | .prop _ n | .cls _ _ n | .bol n | .eol n | .any n | .zero n | .capStart _ n | .capEnd _ n => [n]
  | .negLook a n | .split a n | .count _ _ a n => [a, n]
  | .jump a _ => [a]
  | .accept _ | .null _ | .token => []

/-- The places shown on a line -/
def targets : Line → List Int
  | .start search start _ _ _ _ => [search, start]
  | .jump _ t | .split _ t | .negLook _ t | .count _ _ _ t => [t]
  | _ => []

/-- The value of a hexadecimal digit -/
def hexValue (c : Byte) : Option Nat :=
  if 0x30 ≤ c.toNat ∧ c.toNat ≤ 0x39 then some (c.toNat - 0x30)
  else if 0x41 ≤ c.toNat ∧ c.toNat ≤ 0x46 then some (c.toNat - 0x41 + 10)
  else none

/-- Reading pairs of hexadecimal digits, separated by spaces, up to the end of the line -/
def readHex : List Byte → Option (List Byte)
  | [] => none
  | [c] => if c = 0x0A#8 then some [] else none
  | c :: d :: rest =>
    if c = 0x20#8 then readHex (d :: rest)
    else match hexValue c, hexValue d with
      | some x, some y => (readHex rest).map (BitVec.ofNat 8 (16 * x + y) :: ·)
      | _, _ => none

end Strpp.Spec
