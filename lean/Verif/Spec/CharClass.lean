import Verif.Model.CaseTables
/-! What the character tables mean, by linear lookup. -/
namespace Strpp.Spec

/-- Case conversion by a table: the entry whose range contains the character gives the offset. -/
def convert (tbl : List CaseRange) (ch : UCS4) : UCS4 :=
  match tbl.find? (fun r => r.first ≤ ch.toNat && ch.toNat ≤ r.last) with
  | some r => ch + BitVec.ofInt 32 r.delta
  | none => ch

/-- The listed blocks of decimal digits (first code, value of the first). Two blocks have no zero. -/
def digitBlocks : List (Nat × Nat) := [
  (0x0030, 0), (0x0660, 0), (0x06F0, 0), (0x0966, 0), (0x09E6, 0), (0x0A66, 0), (0x0AE7, 1), (0x0B66, 0), (0x0BE6, 0),
  (0x0C66, 0), (0x0CE6, 0), (0x0D66, 0), (0x0E50, 0), (0x0ED0, 0), (0x0F20, 0), (0x1040, 0), (0x1369, 1), (0x17E0, 0),
  (0x1810, 0), (0xFF10, 0)]

/-- `ch` is the digit of value `v` in one of the blocks. -/
def IsDigit (ch : Nat) (v : Nat) : Prop := ∃ b ∈ digitBlocks, b.2 ≤ v ∧ v ≤ 9 ∧ ch = b.1 + (v - b.2)

/-- The characters listed as white space: blank, tab, newline, return, no-break space, the Unicode spaces of the General
Punctuation block with the zero-width space, the line and paragraph separators, and the ideographic space. -/
def whites : List Nat := [
  0x20, 0x09, 0x0A, 0x0D, 0xA0, 0x2000, 0x2001, 0x2002, 0x2003, 0x2004, 0x2005, 0x2006, 0x2007, 0x2008, 0x2009, 0x200A,
  0x200B, 0x2028, 0x2029, 0x3000]

end Strpp.Spec
