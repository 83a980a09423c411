import Verif.Basic
import Verif.Spec.CharClass
/-! What reading an integer means, on a plain list of characters. -/
namespace Strpp.Spec

/-- `ch` is a digit of value `v` in the given radix: a decimal digit of some script or, beyond radix 10, an ASCII letter;
below the radix. Radix 1 has the digits 0 and 1. -/
def HasDigit (radix : Nat) (ch : UCS4) (v : Nat) : Prop :=
  (IsDigit ch.toNat v ∨ (10 < radix ∧ 10 ≤ v ∧ v < 36 ∧ (ch.toNat = 0x61 + (v - 10) ∨ ch.toNat = 0x41 + (v - 10)))) ∧
  (v < radix ∨ (v = 1 ∧ radix = 1))

/-- `ch` is white space -/
def White (ch : UCS4) : Prop := ch.toNat ∈ whites

/-- the number the digit values denote -/
def numeral (radix : Nat) (vs : List Nat) : Nat := vs.foldl (fun n v => n * radix + v) 0

/-- The characters `ds` are digits of values `vs`. -/
def Digits (radix : Nat) : List UCS4 → List Nat → Prop
  | [], [] => True
  | c :: ds, v :: vs => HasDigit radix c v ∧ Digits radix ds vs
  | _, _ => False

/-- a text that does not begin with a digit -/
def NoDigit (radix : Nat) : List UCS4 → Prop
  | [] => True
  | c :: _ => ∀ v, ¬ HasDigit radix c v

/-- a text that does not begin with white space -/
def NoWhite : List UCS4 → Prop
  | [] => True
  | c :: _ => ¬ White c

/-- A sign: none, plus or minus. -/
inductive Sign : List UCS4 → Bool → Prop
  | none : Sign [] false
  | plus : Sign [0x2B#32] false
  | minus : Sign [0x2D#32] true

/-- The radix in use and the text that follows a radix prefix: with radix 0, "0b" means 2, "0x" means 16, another zero
followed by something means 8, anything else 10. -/
inductive Radix : Nat → List UCS4 → Nat → List UCS4 → Prop
  | given (r : Nat) (t : List UCS4) : r ≠ 0 → Radix r t r t
  | binary (z c : UCS4) (t : List UCS4) : IsDigit z.toNat 0 → (c = 0x62#32 ∨ c = 0x42#32) → Radix 0 (z :: c :: t) 2 t
  | hex (z c : UCS4) (t : List UCS4) : IsDigit z.toNat 0 → (c = 0x78#32 ∨ c = 0x58#32) → Radix 0 (z :: c :: t) 16 t
  | octal (z c : UCS4) (t : List UCS4) : IsDigit z.toNat 0 → c ≠ 0x62#32 → c ≠ 0x42#32 → c ≠ 0x78#32 → c ≠ 0x58#32 →
      Radix 0 (z :: c :: t) 8 (z :: c :: t)
  | empty : Radix 0 [] 10 []
  | single (z : UCS4) : IsDigit z.toNat 0 → Radix 0 [z] 10 [z]
  | decimal (c : UCS4) (t : List UCS4) : ¬ IsDigit c.toNat 0 → Radix 0 (c :: t) 10 (c :: t)

/-- The beginning of a number: white space, a sign, white space, a radix prefix; `r` is the radix in use and `c` what
follows. -/
def Start (radix : Nat) (t : List UCS4) (neg : Bool) (r : Nat) (c : List UCS4) : Prop :=
  ∃ w1 sg w2 b, t = w1 ++ sg ++ w2 ++ b ∧ (∀ x ∈ w1, White x) ∧ Sign sg neg ∧ (∀ x ∈ w2, White x) ∧ NoWhite b ∧
    (sg = [] → w2 = [] ∧ b.head? ≠ some 0x2B#32 ∧ b.head? ≠ some 0x2D#32) ∧ NoWhite (sg ++ b) ∧ Radix radix b r c

end Strpp.Spec
