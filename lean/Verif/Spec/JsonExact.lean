import Verif.Spec.Json
/-! What `asJSON` writes for a character, exactly. -/
namespace Strpp.Spec

/-- the digit `d` below 16 in upper-case hexadecimal -/
def upperHex (d : Nat) : Nat := if d < 10 then 0x30 + d else 0x41 + (d - 10)

/-- `\u` and four hexadecimal digits -/
def hexEscape (n : Nat) : List Nat := [0x5C, 0x75, upperHex (n / 4096), upperHex (n / 256 % 16), upperHex (n / 16 % 16), upperHex (n % 16)]

/-- The characters written for the character number `n`; `none`: the call aborts. -/
def jsonWritten (n : Nat) : Option (List Nat) :=
  if n = 0 then some [0x5C, 0x30]                             -- NUL: \0, which is not JSON
  else if n = 0x22 ∨ n = 0x5C ∨ n = 0x2F then some [0x5C, n]  -- " \ /
  else if n = 0x08 then some [0x5C, 0x62]                     -- \b
  else if n = 0x0C then some [0x5C, 0x66]                     -- \f
  else if n = 0x0A then some [0x5C, 0x6E]                     -- \n
  else if n = 0x0D then some [0x5C, 0x72]                     -- \r
  else if n = 0x09 then some [0x5C, 0x74]                     -- \t
  else if n < 0x20 ∨ (0xD800 ≤ n ∧ n < 0xE000) then some (hexEscape n)
  else if n ≤ 0xFFFF then some [n]
  else if n ≤ 0xFFFFF then some (hexEscape (0xD800 + n / 1024) ++ hexEscape (0xDC00 + n % 1024))  -- the pair of n + 0x10000
  else none

end Strpp.Spec
