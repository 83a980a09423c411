/-! JSON strings (RFC 8259, section 7): what the text between the quotes means. Characters are code points. -/
namespace Strpp.Spec

/-- the value of a hexadecimal digit -/
def jsonHex (c : Nat) : Option Nat :=
  if 0x30 ≤ c ∧ c ≤ 0x39 then some (c - 0x30)
  else if 0x41 ≤ c ∧ c ≤ 0x46 then some (c - 0x41 + 10)
  else if 0x61 ≤ c ∧ c ≤ 0x66 then some (c - 0x61 + 10)
  else none

/-- the two-character escapes -/
def jsonSimple (e : Nat) : Option Nat :=
  if e = 0x22 then some 0x22 else if e = 0x5C then some 0x5C else if e = 0x2F then some 0x2F
  else if e = 0x62 then some 0x08 else if e = 0x66 then some 0x0C else if e = 0x6E then some 0x0A
  else if e = 0x72 then some 0x0D else if e = 0x74 then some 0x09 else none

/-- The characters and escapes, each replaced by its value (a UTF-16 code unit for \u); `none` if this is not JSON. -/
def jsonTokens : List Nat → Option (List Nat)
  | [] => some []
  | c :: rest =>
    if c = 0x5C then
      match rest with
      | [] => none
      | e :: rest =>
        if e = 0x75 then
          match rest with
          | h1 :: h2 :: h3 :: h4 :: rest => do
            let a ← jsonHex h1
            let b ← jsonHex h2
            let c ← jsonHex h3
            let d ← jsonHex h4
            let ts ← jsonTokens rest
            some ((((a * 16 + b) * 16 + c) * 16 + d) :: ts)
          | _ => none
        else do
          let v ← jsonSimple e
          let ts ← jsonTokens rest
          some (v :: ts)
    else if c < 0x20 ∨ c = 0x22 ∨ 0x10FFFF < c then none
    else do
      let ts ← jsonTokens rest
      some (c :: ts)

def IsHigh (c : Nat) : Prop := 0xD800 ≤ c ∧ c < 0xDC00
def IsLow (c : Nat) : Prop := 0xDC00 ≤ c ∧ c < 0xE000
instance (c : Nat) : Decidable (IsHigh c) := inferInstanceAs (Decidable (_ ∧ _))
instance (c : Nat) : Decidable (IsLow c) := inferInstanceAs (Decidable (_ ∧ _))

/-- Surrogate pairs combined. -/
def jsonCombine : List Nat → List Nat
  | h :: l :: rest =>
    if IsHigh h ∧ IsLow l then (0x10000 + (h - 0xD800) * 1024 + (l - 0xDC00)) :: jsonCombine rest else h :: jsonCombine (l :: rest)
  | l => l

/-- The characters a JSON string denotes, given the text between the quotes. -/
def jsonString (text : List Nat) : Option (List Nat) := (jsonTokens text).map jsonCombine

/-- No high surrogate is directly followed by a low one (true of every text without surrogates). -/
def NoPair : List Nat → Prop
  | h :: l :: rest => ¬ (IsHigh h ∧ IsLow l) ∧ NoPair (l :: rest)
  | _ => True

end Strpp.Spec
