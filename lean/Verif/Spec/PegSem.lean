import Verif.Spec.Pegexp
/-!
Parsing expressions: abstract syntax, how they are written as Pegexp patterns, and their meaning (the big-step semantics of PEGs).
Nothing here depends on the model.
-/
namespace Strpp.Pex
open Spec

/-! ### Characters -/

/-- Ways to write one character -/
inductive Written where
  | plain (b : Byte)
  /-- a backslash and a byte -/
  | back (b : Byte)
  /-- a backslash and three octal digits -/
  | oct (a b c : Byte)
  /-- `\xHH`, or `\x{HH}` -/
  | hex (braces : Bool) (a b : Byte)
  /-- `\uHHHH` -/
  | uni (a b c d : Byte)
  /-- `\u{H...}` -/
  | uniBraces (ds : List Byte)
deriving DecidableEq

def octalDigit (b : Byte) : Bool := 0x30 ≤ b.toNat && b.toNat ≤ 0x37

/-- the value of a hexadecimal digit -/
def hexDigit (b : Byte) : Option Nat :=
  if 0x30 ≤ b.toNat ∧ b.toNat ≤ 0x39 then some (b.toNat - 0x30)
  else if 0x41 ≤ b.toNat ∧ b.toNat ≤ 0x46 then some (b.toNat - 0x41 + 10)
  else if 0x61 ≤ b.toNat ∧ b.toNat ≤ 0x66 then some (b.toNat - 0x61 + 10)
  else none

def hexNumber (ds : List Byte) : Nat := ds.foldl (fun n d => 16 * n + (hexDigit d).getD 0) 0

def Written.bytes : Written → List Byte
  | .plain b => [b]
  | .back b => [0x5C#8, b]
  | .oct a b c => [0x5C#8, a, b, c]
  | .hex false a b => [0x5C#8, 0x78#8, a, b]
  | .hex true a b => [0x5C#8, 0x78#8, 0x7B#8, a, b, 0x7D#8]
  | .uni a b c d => [0x5C#8, 0x75#8, a, b, c, d]
  | .uniBraces ds => [0x5C#8, 0x75#8, 0x7B#8] ++ ds ++ [0x7D#8]

/-- the character a backslash and a letter stand for: n t r b e f are control characters, others themselves -/
def escaped (b : Byte) : Nat :=
  if b = 0x6E#8 then 10 else if b = 0x74#8 then 9 else if b = 0x72#8 then 13
  else if b = 0x62#8 then 8 else if b = 0x65#8 then 27 else if b = 0x66#8 then 12 else b.toNat

def Written.value : Written → Nat
  | .plain b => b.toNat
  | .back b => escaped b
  | .oct a b c => 64 * (a.toNat - 0x30) + 8 * (b.toNat - 0x30) + (c.toNat - 0x30)
  | .hex _ a b => hexNumber [a, b]
  | .uni a b c d => hexNumber [a, b, c, d]
  | .uniBraces ds => hexNumber ds

/-- well written; `isPlain` are the bytes that stand for themselves -/
def Written.ok (isPlain : Byte → Bool) : Written → Prop
  | .plain b => isPlain b = true ∧ b.toNat < 0x80
  | .back b => b ≠ 0#8 ∧ b.toNat < 0x80 ∧ octalDigit b = false ∧ b ≠ 0x78#8 ∧ b ≠ 0x75#8 ∧ isPropLetter b = false
  | .oct a b c => octalDigit a = true ∧ octalDigit b = true ∧ octalDigit c = true
  | .hex _ a b => hexDigit a ≠ none ∧ hexDigit b ≠ none
  | .uni a b c d => hexDigit a ≠ none ∧ hexDigit b ≠ none ∧ hexDigit c ≠ none ∧ hexDigit d ≠ none
  | .uniBraces ds => 1 ≤ ds.length ∧ ds.length ≤ 8 ∧ ∀ d ∈ ds, hexDigit d ≠ none

/-- What the letter of a property says of a character (of ASCII) -/
def hasProp (letter : Byte) (c : UCS4) : Bool :=
  let n := c.toNat
  let upper := decide (0x41 ≤ n ∧ n ≤ 0x5A)
  let lower := decide (0x61 ≤ n ∧ n ≤ 0x7A)
  let digit := decide (0x30 ≤ n ∧ n ≤ 0x39)
  if letter = 0x61#8 then upper || lower
  else if letter = 0x64#8 then digit
  else if letter = 0x68#8 then digit || decide (0x41 ≤ n ∧ n ≤ 0x46) || decide (0x61 ≤ n ∧ n ≤ 0x66)
  else if letter = 0x4C#8 then lower
  else if letter = 0x55#8 then upper
  else if letter = 0x73#8 then decide (n = 0x20 ∨ (0x09 ≤ n ∧ n ≤ 0x0D))
  else if letter = 0x77#8 then upper || lower || digit
  else false

/-- An element of a character class -/
inductive Item where
  | single (w : Written)
  | range (w w' : Written)
  | prop (letter : Byte)
deriving DecidableEq

def Item.bytes : Item → List Byte
  | .single w => w.bytes
  | .range w w' => w.bytes ++ 0x2D#8 :: w'.bytes
  | .prop l => [0x5C#8, l]

def Item.has : Item → UCS4 → Bool
  | .single w, c => c.toNat == w.value
  | .range w w', c => decide (w.value ≤ c.toNat ∧ c.toNat ≤ w'.value)
  | .prop l, c => hasProp l c

/-- bytes that stand for themselves in a class (`^` does so too, but not first) -/
def plainInClass (b : Byte) : Bool := b != 0#8 && b != 0x5C#8 && b != 0x5D#8 && b != 0x2D#8 && b != 0x5E#8

/-- `\n` and the like do not start a range -/
def startsRange : Written → Prop
  | .back b => ¬ ((0x41 ≤ b.toNat ∧ b.toNat ≤ 0x5A) ∨ (0x61 ≤ b.toNat ∧ b.toNat ≤ 0x7A))
  | _ => True

def Item.ok : Item → Prop
  | .single w => w.ok plainInClass
  | .range w w' => w.ok plainInClass ∧ w'.ok plainInClass ∧ startsRange w
  | .prop l => isPropLetter l = true

/-- A test of one character -/
inductive One where
  | lit (w : Written)
  | prop (letter : Byte)
  | cls (neg : Bool) (items : List Item)
  | any
deriving DecidableEq

def One.has : One → UCS4 → Bool
  | .lit w, c => c.toNat == w.value
  | .prop l, c => hasProp l c
  | .cls neg items, c => (items.any (·.has c)) != neg
  | .any, _ => true

def One.bytes : One → List Byte
  | .lit w => w.bytes
  | .prop l => [0x5C#8, l]
  | .cls neg items => 0x5B#8 :: (if neg then [0x5E#8] else []) ++ items.flatMap Item.bytes ++ [0x5D#8]
  | .any => [0x2E#8]

/-! ### Expressions -/

inductive Expr where
  | one (o : One)
  /-- at the beginning of a line -/
  | bol
  /-- at the end of a line -/
  | eol
  | grp (e : Expr)
  | opt (e : Expr)
  | star (e : Expr)
  | plus (e : Expr)
  | and (e : Expr)
  | not (e : Expr)
  | label (e : Expr) (name : List Byte)
  /-- a call of a rule, perhaps labelled -/
  | call (name : List Byte) (lab : Option (List Byte))
  | empty
  | seq (a b : Expr)
  /-- the last alternate -/
  | bar (e : Expr)
  /-- an alternate and further ones -/
  | alt (a b : Expr)
deriving DecidableEq

/-- How an expression is written: operators are prefixes, alternates each have a bar in front. -/
def Expr.bytes : Expr → List Byte
  | .one o => o.bytes
  | .bol => [0x5E#8]
  | .eol => [0x24#8]
  | .grp e => 0x28#8 :: e.bytes ++ [0x29#8]
  | .opt e => 0x3F#8 :: e.bytes
  | .star e => 0x2A#8 :: e.bytes
  | .plus e => 0x2B#8 :: e.bytes
  | .and e => 0x26#8 :: e.bytes
  | .not e => 0x21#8 :: e.bytes
  | .label e name => e.bytes ++ 0x3A#8 :: name ++ [0x3A#8]
  | .call name none => 0x3C#8 :: name ++ [0x3E#8]
  | .call name (some lab) => 0x3C#8 :: name ++ [0x3E#8] ++ 0x3A#8 :: lab ++ [0x3A#8]
  | .empty => []
  | .seq a b => a.bytes ++ b.bytes
  | .bar e => 0x7C#8 :: e.bytes
  | .alt a b => 0x7C#8 :: a.bytes ++ b.bytes

/-- The meaning: at character `k` of `cs`, `e` fails (`none`) or matches up to character `k'` (`some k'`). `C` says what calls do. -/
inductive Sem (C : List Byte → Nat → Option Nat → Prop) (cs : List UCS4) : Expr → Nat → Option Nat → Prop
  | one_yes {o k c} : cs[k]? = some c → o.has c = true → Sem C cs (.one o) k (some (k + 1))
  | one_no {o k} : (∀ c, cs[k]? = some c → o.has c = false) → Sem C cs (.one o) k none
  | bol_yes {k} : k = 0 ∨ cs[k - 1]? = some 0x0A#32 → Sem C cs .bol k (some k)
  | bol_no {k} : ¬ (k = 0 ∨ cs[k - 1]? = some 0x0A#32) → Sem C cs .bol k none
  | eol_yes {k} : cs[k]? = none ∨ cs[k]? = some 0x0A#32 → Sem C cs .eol k (some k)
  | eol_no {k} : ¬ (cs[k]? = none ∨ cs[k]? = some 0x0A#32) → Sem C cs .eol k none
  | grp {e k r} : Sem C cs e k r → Sem C cs (.grp e) k r
  | label {e n k r} : Sem C cs e k r → Sem C cs (.label e n) k r
  | opt_yes {e k k'} : Sem C cs e k (some k') → Sem C cs (.opt e) k (some k')
  | opt_no {e k} : Sem C cs e k none → Sem C cs (.opt e) k (some k)
  | star_end {e k} : Sem C cs e k none → Sem C cs (.star e) k (some k)
  | star_stay {e k} : Sem C cs e k (some k) → Sem C cs (.star e) k (some k)
  | star_more {e k k' r} : Sem C cs e k (some k') → k < k' → Sem C cs (.star e) k' r → Sem C cs (.star e) k r
  | plus_no {e k} : Sem C cs e k none → Sem C cs (.plus e) k none
  | plus_yes {e k k' r} : Sem C cs e k (some k') → Sem C cs (.star e) k' r → Sem C cs (.plus e) k r
  | and_yes {e k k'} : Sem C cs e k (some k') → Sem C cs (.and e) k (some k)
  | and_no {e k} : Sem C cs e k none → Sem C cs (.and e) k none
  | not_yes {e k} : Sem C cs e k none → Sem C cs (.not e) k (some k)
  | not_no {e k k'} : Sem C cs e k (some k') → Sem C cs (.not e) k none
  | call {n l k r} : C n k r → Sem C cs (.call n l) k r
  | empty {k} : Sem C cs .empty k (some k)
  | seq_no {a b k} : Sem C cs a k none → Sem C cs (.seq a b) k none
  | seq_yes {a b k k' r} : Sem C cs a k (some k') → Sem C cs b k' r → Sem C cs (.seq a b) k r
  | bar {e k r} : Sem C cs e k r → Sem C cs (.bar e) k r
  | alt_first {a b k k'} : Sem C cs a k (some k') → Sem C cs (.alt a b) k (some k')
  | alt_next {a b k r} : Sem C cs a k none → Sem C cs b k r → Sem C cs (.alt a b) k r

/-! ### Which expressions are written as the syntax of Pegexp wants -/

/-- bytes that stand for themselves outside of a class: not an operator, and not one of `special` -/
def plainOutside (special : Byte → Bool) (b : Byte) : Bool :=
  b != 0#8 && b != 0x5C#8 && b != 0x5E#8 && b != 0x24#8 && b != 0x2E#8 && b != 0x5B#8 && b != 0x3F#8 && b != 0x2A#8 && b != 0x2B#8 &&
    b != 0x28#8 && b != 0x29#8 && b != 0x7C#8 && b != 0x26#8 && b != 0x21#8 && b != 0x3A#8 && !special b

def One.ok (special : Byte → Bool) : One → Prop
  | .lit w => w.ok (plainOutside special)
  | .prop l => isPropLetter l = true
  | .cls _ items => ∀ i ∈ items, i.ok
  | .any => True

/-- letters, digits and underscores -/
def nameByte (b : Byte) : Bool :=
  (0x41 ≤ b.toNat && b.toNat ≤ 0x5A) || (0x61 ≤ b.toNat && b.toNat ≤ 0x7A) || (0x30 ≤ b.toNat && b.toNat ≤ 0x39) || b == 0x5F#8

/-- what `?`, `*`, `+`, `&` and `!` can be applied to: an expression that begins with one of ?, * and + needs parentheses -/
def Expr.single : Expr → Bool
  | .one _ | .bol | .eol | .grp _ | .call _ _ | .label _ _ => true
  | .and e | .not e => e.single
  | _ => false

def Expr.optional : Expr → Bool
  | .opt _ | .star _ => true
  | _ => false

/-- what a label can be put on -/
def Expr.labelled : Expr → Bool
  | .one _ | .bol | .eol | .grp _ => true
  | _ => false

def Expr.alternates : Expr → Bool
  | .bar _ | .alt _ _ => true
  | _ => false

inductive Place where
  /-- one item of a sequence -/
  | atom
  /-- the whole of a pattern or of a group -/
  | body
  /-- the rest of an alternate -/
  | tail

/-- Well-formed, in its place. Alternation takes up the rest of a group or of the pattern, and has no empty alternates. -/
def Expr.wf (special : Byte → Bool) (calls : Bool) : Place → Expr → Prop
  | .atom, .one o => o.ok special
  | .atom, .bol => True
  | .atom, .eol => True
  | .atom, .grp e => e.wf special calls .body
  | .atom, .opt e => e.wf special calls .atom ∧ (e.single || e.optional) = true
  | .atom, .star e => e.wf special calls .atom ∧ (e.single || e.optional) = true
  | .atom, .plus e => e.wf special calls .atom ∧ (e.single || e.optional) = true
  | .atom, .and e => e.wf special calls .atom ∧ e.single = true
  | .atom, .not e => e.wf special calls .atom ∧ e.single = true
  | .atom, .label e name => e.wf special calls .atom ∧ e.labelled = true ∧ ∀ b ∈ name, nameByte b = true
  | .atom, .call name lab => calls = true ∧ name ≠ [] ∧ (∀ b ∈ name, nameByte b = true) ∧ ∀ l, lab = some l → ∀ b ∈ l, nameByte b = true
  | .body, .empty => True
  | .body, .seq a b => a.wf special calls .atom ∧ b.wf special calls .body
  | .body, .bar e => e ≠ .empty ∧ e.wf special calls .tail
  | .body, .alt a b => a ≠ .empty ∧ a.wf special calls .tail ∧ b.alternates = true ∧ b.wf special calls .body
  | .tail, .empty => True
  | .tail, .seq a b => a.wf special calls .atom ∧ b.wf special calls .tail
  | _, _ => False

/-- uses no character property -/
def Item.noProps : Item → Bool
  | .prop _ => false
  | _ => true

def One.noProps : One → Bool
  | .prop _ => false
  | .cls _ items => items.all Item.noProps
  | _ => true

def Expr.noProps : Expr → Bool
  | .one o => o.noProps
  | .grp e | .opt e | .star e | .plus e | .and e | .not e | .label e _ | .bar e => e.noProps
  | .seq a b | .alt a b => a.noProps && b.noProps
  | _ => true

end Strpp.Pex
