import Verif.Spec.StrInt
/-! Reading an integer from any text whatever: how the text is taken apart, and the value, error and count that result. -/
namespace Strpp.Spec

/-- The text `t` taken apart: white space, sign, white space and radix prefix (`Start`), then as many digits as there are,
`ds` with the values `vs` in the radix `r`, then as much white space `w` as there is, then `rest`. -/
structure Reads (radix : Nat) (t : List UCS4) (neg : Bool) (r : Nat) (ds : List UCS4) (vs : List Nat) (w rest : List UCS4) : Prop where
  start : Start radix t neg r (ds ++ (w ++ rest))
  digits : Digits r ds vs
  noMore : NoDigit r (w ++ rest)
  white : ∀ x ∈ w, White x
  noWhite : NoWhite rest

/-- The number of digits up to and including the one with which the number reaches 2^64, beginning with `n`. -/
def overAt (r : Nat) : Nat → List Nat → Nat
  | _, [] => 0
  | n, v :: vs => if 2 ^ 64 ≤ n * r + v then 1 else 1 + overAt r (n * r + v) vs

/-- The value returned, the number of the error (0 for success) and the number of characters scanned, for a text of
`len` characters taken apart as in `Reads`; `none` is undefined behaviour. -/
def intOutcome (len : Nat) (neg : Bool) (r : Nat) (vs : List Nat) (w rest : List UCS4) : Option (Int × Nat × Nat) :=
  let n := numeral r vs
  let begin := len - (vs.length + (w.length + rest.length))     -- where the digits begin
  if vs = [] then
    if begin = len then some (0, 2, len) else some (0, 4, begin)
  else if 2 ^ 64 ≤ n then some (0, 3, begin + overAt r 0 vs)
  else if neg ∧ n = 2 ^ 63 then none
  else some ((if neg then -(n : Int) else n).bmod (2 ^ 32),
    if 2 ^ 63 ≤ n then 3 else if rest = [] then 0 else 1, len - rest.length)

end Strpp.Spec
