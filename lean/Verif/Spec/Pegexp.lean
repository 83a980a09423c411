import Verif.Spec.Utf8
/-!
What is said about Pegexp's sources and patterns, apart from the model.
-/
namespace Strpp.Pex
open Spec

/-- A source after reading the first `k` characters of a text: the number of bytes read, the line and column. -/
structure Where where
  bytes : Nat
  line : Nat
  col : Nat

/-- The number of bytes taken by the first `k` characters -/
def bytesOf : Nat → List Byte → Nat
  | 0, _ => 0
  | k + 1, bs =>
    match decode1 bs with
    | some (_, n) => n + bytesOf k (bs.drop n)
    | none => 0

/-- Lines are counted from 1, columns from 1 after the last newline -/
def whereIs (t : List Byte) (k : Nat) : Where where
  bytes := bytesOf k t
  line := 1 + ((decodeAll t).take k).count 0x0A#32
  col := 1 + (((decodeAll t).take k).reverse.takeWhile (· ≠ 0x0A#32)).length

/-- The letters that name a character property after a backslash: a d h L U s w -/
def isPropLetter (b : Byte) : Bool :=
  b == 0x61#8 || b == 0x64#8 || b == 0x68#8 || b == 0x4C#8 || b == 0x55#8 || b == 0x73#8 || b == 0x77#8

/-- What may follow `\x`: not a backslash; and if a brace, then something other than a backslash -/
def tidyHex : List Byte → Bool
  | [] => true
  | b :: rest => b != 0x5C#8 && (b != 0x7B#8 || (match rest with | [] => false | c :: _ => c != 0x5C#8))

/-- A tidy pattern does not end in the middle of an escape or after `&` or `!`. With `props = false` it uses no character
properties. -/
def tidy (props : Bool) : List Byte → Bool
  | [] => true
  | b :: rest =>
    if b == 0x5C#8 then
      match rest with
      | [] => false
      | c :: rest' => (props || !isPropLetter c) && ((c != 0x78#8 || tidyHex rest') && tidy props rest')
    else
      match rest with
      | [] => b != 0x26#8 && b != 0x21#8
      | _ :: _ => tidy props rest

/-- A character the functions of <cctype> accept -/
def InCtype (c : UCS4) : Prop := -128 ≤ c.toInt ∧ c.toInt ≤ 255

end Strpp.Pex
