import Verif.Spec.StrInt
import Verif.Spec.Utf8
/-! Texts for a regular expression, and those with a number that cannot be negated as a 64-bit integer. -/
namespace Strpp.Rx
open Spec

/-- The text begins with `-9223372036854775808` (or the same in digits of another script, or with zeros in front of
the number or white space before or after the sign), which does not go on with another digit -/
def LongMin (s : List UCS4) : Prop :=
  ∃ ds rest vs, Start 10 s true 10 (ds ++ rest) ∧ Digits 10 ds vs ∧ NoDigit 10 rest ∧ numeral 10 vs = 2 ^ 63

/-- Texts of characters that can be in a string, of less than 2^27 characters (their bytes are counted as `int`) -/
def Fits (s : List UCS4) : Prop := (∀ c ∈ s, ¬ Reserved c) ∧ s.length < 2 ^ 27

end Strpp.Rx
