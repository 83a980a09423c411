import Verif.Spec.VariantExact
/-! What `format` gives for any format string whatever, exactly: the code's mistakes included. -/
namespace Strpp.Spec
open Var

/-- What comes after the percent sign, without an argument number. This is a single digit above 0 and a dollar sign, followed by
another character, which is lost with it. -/
inductive AfterNumber : List UCS4 → List UCS4 → Prop
  | skip (d x : UCS4) (r : List UCS4) (v : Nat) : HasDigit 10 d v → 0 < v → AfterNumber (d :: 0x24#32 :: x :: r) r
  | keep (r : List UCS4) : (∀ d x r' v, r = d :: 0x24#32 :: x :: r' → HasDigit 10 d v → v = 0) → AfterNumber r r

/-- As many digits as there are, the number they make and what follows them. -/
def NumberAt (r : List UCS4) (n : Nat) (rest : List UCS4) : Prop :=
  ∃ ds vs, r = ds ++ rest ∧ Digits 10 ds vs ∧ NoDigit 10 rest ∧ n = numeral 10 vs

inductive Action where
  /-- a size or a precision overflows -/
  | overflow
  /-- a star: an argument is taken, nothing is printed -/
  | star
  /-- a conversion (no character at the end of the string) -/
  | convert (c : Option UCS4)

/-- What a directive does, and the rest of the format string after it. A star ends the directive. -/
inductive Directive : List UCS4 → Action → List UCS4 → Prop
  | sizeStar {r rest} : AfterNumber r (0x2A#32 :: rest) → Directive r .star rest
  | sizeOverflow {r r1 r2 n} : AfterNumber r r1 → NumberAt r1 n r2 → 2147483647 < n → Directive r .overflow []
  | plain {r r1 r2 n} : AfterNumber r r1 → r1.head? ≠ some 0x2A#32 → NumberAt r1 n r2 → n ≤ 2147483647 → r2.head? ≠ some 0x2E#32 →
      Directive r (.convert r2.head?) r2.tail
  | precStar {r r1 n rest} : AfterNumber r r1 → NumberAt r1 n (0x2E#32 :: 0x2A#32 :: rest) → n ≤ 2147483647 → Directive r .star rest
  | precOverflow {r r1 n r3 p r4} : AfterNumber r r1 → NumberAt r1 n (0x2E#32 :: r3) → n ≤ 2147483647 → NumberAt r3 p r4 → 2147483647 < p →
      Directive r .overflow []
  | prec {r r1 n r3 p r4} : AfterNumber r r1 → NumberAt r1 n (0x2E#32 :: r3) → n ≤ 2147483647 → r3.head? ≠ some 0x2A#32 → NumberAt r3 p r4 →
      p ≤ 2147483647 → Directive r (.convert r4.head?) r4.tail

/-- The text an argument becomes: `s` coerces it to a string (C83); `d`, `f`, `g` give its JSON text (C84). -/
inductive Converted (v : Variant) : UCS4 → Except Fault (List UCS4) → Prop
  | string (t) : Coerced (seen v) .string (.ok (.text t)) → Converted v 0x73#32 (.ok t)
  | noString (f) : Coerced (seen v) .string (.error f) → Converted v 0x73#32 (.error f)
  | json (c t) : c ∈ [0x64#32, 0x66#32, 0x67#32] → jsonTextOf (-1) v = some (t.map BitVec.toNat) → Converted v c (.ok t)
  | noJson (c) : c ∈ [0x64#32, 0x66#32, 0x67#32] → jsonTextOf (-1) v = none → Converted v c (.error .assertion)

/-- the conversions that take an argument -/
def TakesArgument (c : UCS4) : Prop := c ∈ [0x73#32, 0x64#32, 0x66#32, 0x67#32]

/-- The result of `format` with the arguments that are left. -/
inductive Formatted : List UCS4 → List Variant → Except Fault (List UCS4) → Prop
  | empty (args) : Formatted [] args (.ok [])
  | lastPercent (args) : Formatted [0x25#32] args (.ok [0x25#32])
  | text (c r args o) : c ≠ 0x25#32 → Formatted r args o → Formatted (c :: r) args (o.map fun t => c :: t)
  | overflow (r args rest) : r ≠ [] → Directive r .overflow rest → Formatted (0x25#32 :: r) args (.error .ub)
  | starMissing (r rest) : r ≠ [] → Directive r .star rest → Formatted (0x25#32 :: r) [] (.error .assertion)
  | starBad (r rest v args f) : r ≠ [] → Directive r .star rest → Coerced (seen v) .integer (.error f) →
      Formatted (0x25#32 :: r) (v :: args) (.error f)
  | star (r rest v args s o) : r ≠ [] → Directive r .star rest → Coerced (seen v) .integer (.ok s) → Formatted rest args o →
      Formatted (0x25#32 :: r) (v :: args) o
  | missing (r rest c) : r ≠ [] → Directive r (.convert (some c)) rest → TakesArgument c → Formatted (0x25#32 :: r) [] (.error .assertion)
  | bad (r rest c v args f) : r ≠ [] → Directive r (.convert (some c)) rest → Converted v c (.error f) →
      Formatted (0x25#32 :: r) (v :: args) (.error f)
  | converted (r rest c v args t o) : r ≠ [] → Directive r (.convert (some c)) rest → Converted v c (.ok t) → Formatted rest args o →
      Formatted (0x25#32 :: r) (v :: args) (o.map fun u => t ++ u)
  | other (r rest c args o) : r ≠ [] → Directive r (.convert c) rest → (∀ x, c = some x → ¬ TakesArgument x) → Formatted rest args o →
      Formatted (0x25#32 :: r) args o

end Strpp.Spec
