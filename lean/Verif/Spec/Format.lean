import Verif.Model.Variant
import Verif.Spec.StrInt
/-! What a format string means. -/
namespace Strpp.Fmt
open Spec Var

/-- Format strings are made of text and directives: %, a size, a precision, a conversion. -/
inductive Piece where
  | text (t : List UCS4)
  | dir (size : List UCS4) (prec : Option (List UCS4)) (conv : UCS4)

def Piece.render : Piece → List UCS4
  | .text t => t
  | .dir size none conv => 0x25#32 :: (size ++ [conv])
  | .dir size (some p) conv => 0x25#32 :: (size ++ 0x2E#32 :: (p ++ [conv]))

/-- decimal digits (of any script, possibly none) of a number that an `int` can hold -/
def AreDigits (t : List UCS4) : Prop := ∃ vs, Digits 10 t vs ∧ numeral 10 vs ≤ 2147483647

/-- The pieces that mean what they should: text without %, and directives whose conversion is none of digit, `.`, `*` and `$`. -/
def Piece.Valid : Piece → Prop
  | .text t => 0x25#32 ∉ t
  | .dir size prec conv => AreDigits size ∧ (∀ p, prec = some p → AreDigits p) ∧
      (∀ v, ¬ IsDigit conv.toNat v) ∧ conv ≠ 0x2E#32 ∧ conv ≠ 0x2A#32 ∧ conv ≠ 0x24#32

/-- The text a piece becomes, and the arguments left: `s` takes the next argument as a string, `d`, `f` and `g` as JSON; any
other conversion takes and gives nothing. There must be an argument left. -/
def Piece.expand (memo : Int) (junk : BitVec 64) : Piece → List Variant → Res (List UCS4 × List Variant)
  | .text t, args => .ok (t, args)
  | .dir _ _ conv, args =>
    if conv = 0x73#32 then
      match args with
      | [] => .error .assertion
      | v :: args => do let r ← asStrval memo junk v; .ok (r.2, args)
    else if conv = 0x64#32 ∨ conv = 0x66#32 ∨ conv = 0x67#32 then
      match args with
      | [] => .error .assertion
      | v :: args => do let t ← asJson (-1) v; .ok (t, args)
    else .ok ([], args)

/-- All pieces, in order. -/
def expandAll (memo : Int) (junk : BitVec 64) : List Piece → List Variant → Res (List UCS4)
  | [], _ => .ok []
  | p :: ps, args => do
    let r ← p.expand memo junk args
    let rest ← expandAll memo junk ps r.2
    .ok (r.1 ++ rest)

def renderAll (ps : List Piece) : List UCS4 := (ps.map Piece.render).flatten

end Strpp.Fmt
