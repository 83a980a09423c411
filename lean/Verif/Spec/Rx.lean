import Verif.Spec.Utf8
import Verif.Spec.CharClass
import Verif.Spec.StrInt
/-!
Regular expressions as a mathematical object: syntax trees, how they are written, and which stretches of a text they
match. Independent of the compiler and the matcher.

Not in this syntax: negative lookahead `(?!…)`, named groups `(?<name>…)`, names other than
`s`, `d` and `h` in `\p{…}`, and codes of characters with fewer digits than the most.
-/
namespace Strpp.Spec

/-- How a character is written: as it is, after a backslash, as a backslash and a letter (`\n`), or as a backslash and
its code (`\101`, `\x41`, `\u00041`) -/
inductive Spelling where
  | plain
  | quoted
  | letter (l : UCS4)
  | code (w : List UCS4)
  deriving DecidableEq, Repr

/-- `\s`, `\d`, `\h` -/
inductive Shorthand where
  | space | digit | hex
  deriving DecidableEq, Repr

inductive Re where
  | empty
  | chr (s : Spelling) (c : UCS4)
  | any
  | bol
  | eol
  /-- `[…]` or `[^…]`: what is written in the brackets and the ranges it means -/
  | cls (negated : Bool) (text : List UCS4) (ranges : List (UCS4 × UCS4))
  /-- `\s`, or `\p{s}` -/
  | prop (braces : Bool) (p : Shorthand)
  | seq (a b : Re)
  | alt (a b : Re)
  | star (a : Re)
  | plus (a : Re)
  | opt (a : Re)
  /-- `a{…}`: what is written in the braces, and how often at least and at most (`none`: any number of times) -/
  | rep (w : List UCS4) (least : Nat) (most : Option Nat) (a : Re)
  /-- `(…)`, or `(?:…)` -/
  | grp (noncapturing : Bool) (a : Re)
  deriving DecidableEq, Repr

/-! ### Writing -/

/-- `^ $ . ? * + { \ [ | ( )` -/
def metaChars : List UCS4 := [0x5E#32, 0x24#32, 0x2E#32, 0x3F#32, 0x2A#32, 0x2B#32, 0x7B#32, 0x5C#32, 0x5B#32, 0x7C#32,
  0x28#32, 0x29#32]

/-- the letters with a meaning of their own after a backslash: `b e f n t r x u s d h p` and `0`-`7` -/
def escapeLetters : List UCS4 := [0x62#32, 0x65#32, 0x66#32, 0x6E#32, 0x74#32, 0x72#32, 0x78#32, 0x75#32, 0x73#32, 0x64#32,
  0x68#32, 0x70#32, 0x30#32, 0x31#32, 0x32#32, 0x33#32, 0x34#32, 0x35#32, 0x36#32, 0x37#32]

/-- `\b \e \f \n \t \r` -/
def letterMeanings : List (UCS4 × UCS4) :=
  [(0x62#32, 0x08#32), (0x65#32, 0x1B#32), (0x66#32, 0x0C#32), (0x6E#32, 0x0A#32), (0x74#32, 0x09#32), (0x72#32, 0x0D#32)]

/-- a character that can be in a string and is not NUL -/
def Writable (c : UCS4) : Prop := c ≠ 0#32 ∧ ¬ Reserved c

/-- What follows the backslash in `\101`, `\x41` and `\u00041`: three octal digits, two or five hexadecimal ones -/
def CodeOf (w : List UCS4) (c : UCS4) : Prop :=
  ∃ (radix : Nat) (pre ds : List UCS4) (vs : List Nat), w = pre ++ ds ∧ (∀ d ∈ ds, d.toNat < 128) ∧ Digits radix ds vs ∧
    ((radix = 8 ∧ pre = [] ∧ ds.length = 3) ∨ (radix = 16 ∧ pre = [0x78#32] ∧ ds.length = 2) ∨
      (radix = 16 ∧ pre = [0x75#32] ∧ ds.length = 5)) ∧ c.toNat = numeral radix vs

def Spelling.ok (s : Spelling) (c : UCS4) : Prop :=
  match s with
  | .plain => c ∉ metaChars
  | .quoted => c ∉ escapeLetters
  | .letter l => (l, c) ∈ letterMeanings
  | .code w => CodeOf w c

/-- A character in brackets: as it is, unless it is `]` or `\`, or after a backslash. -/
inductive InBrackets : UCS4 → List UCS4 → Prop
  | bare (c : UCS4) : c ≠ 0x5D#32 → c ≠ 0x5C#32 → InBrackets c [c]
  | quoted (c : UCS4) : InBrackets c [0x5C#32, c]

/-- What is written in brackets, and the ranges it means; not at the beginning. A `-` that means itself has a backslash
in front or is the last character. -/
inductive Ranges : List (UCS4 × UCS4) → List UCS4 → Prop
  | nil : Ranges [] []
  | minus : Ranges [(0x2D#32, 0x2D#32)] [0x2D#32]
  | one (c : UCS4) (w : List UCS4) (rs : List (UCS4 × UCS4)) (t : List UCS4) : InBrackets c w → w ≠ [0x2D#32] → Ranges rs t →
      Ranges ((c, c) :: rs) (w ++ t)
  | range (a b : UCS4) (v w : List UCS4) (rs : List (UCS4 × UCS4)) (t : List UCS4) : InBrackets a v → v ≠ [0x2D#32] →
      InBrackets b w → Ranges rs t → Ranges ((a, b) :: rs) (v ++ 0x2D#32 :: w ++ t)

/-- All that is written in brackets, after `[` or `[^`: first there may be a `]` or a `-` that means itself. A `^` that
is the first after `[` does not mean itself. -/
inductive Brackets (negated : Bool) : List (UCS4 × UCS4) → List UCS4 → Prop
  | special (c : UCS4) (rs : List (UCS4 × UCS4)) (t : List UCS4) : (c = 0x5D#32 ∨ c = 0x2D#32) → Ranges rs t →
      Brackets negated ((c, c) :: rs) (c :: t)
  | usual (rs : List (UCS4 × UCS4)) (t : List UCS4) : rs ≠ [] → t.head? ≠ some 0x2D#32 →
      (t.head? = some 0x5E#32 → negated = true) → Ranges rs t → Brackets negated rs t

def Shorthand.code : Shorthand → UCS4
  | .space => 0x73#32
  | .digit => 0x64#32
  | .hex => 0x68#32

/-- The regular expression as it is written -/
def Re.write : Re → List UCS4
  | .empty => []
  | .chr .plain c => [c]
  | .chr .quoted c => [0x5C#32, c]
  | .chr (.letter l) _ => [0x5C#32, l]
  | .chr (.code w) _ => 0x5C#32 :: w
  | .any => [0x2E#32]
  | .bol => [0x5E#32]
  | .eol => [0x24#32]
  | .cls neg text _ => 0x5B#32 :: (if neg then [0x5E#32] else []) ++ text ++ [0x5D#32]
  | .prop false p => [0x5C#32, p.code]
  | .prop true p => [0x5C#32, 0x70#32, 0x7B#32, p.code, 0x7D#32]
  | .seq a b => a.write ++ b.write
  | .alt a b => a.write ++ 0x7C#32 :: b.write
  | .star a => a.write ++ [0x2A#32]
  | .plus a => a.write ++ [0x2B#32]
  | .opt a => a.write ++ [0x3F#32]
  | .rep w _ _ a => a.write ++ 0x7B#32 :: w ++ [0x7D#32]
  | .grp nc a => 0x28#32 :: (if nc then [0x3F#32, 0x3A#32] else []) ++ a.write ++ [0x29#32]

/-- What can be repeated without parentheses -/
def Re.isAtom : Re → Bool
  | .chr .. | .any | .cls .. | .prop .. | .grp .. => true
  | _ => false

/-- A number in braces: ASCII digits, and at most 254 -/
def CountOf (w : List UCS4) (n : Nat) : Prop :=
  w ≠ [] ∧ w.length < 1000 ∧ (∀ d ∈ w, d.toNat < 128) ∧ (∃ vs, Digits 10 w vs ∧ n = numeral 10 vs) ∧ n ≤ 254

/-- What is written in braces, and what it means: `{3}`, `{3,}`, `{,5}`, `{3,5}` and `{,}`. `{0}` is not here: it is taken
for `{0,}`. -/
inductive Braces : List UCS4 → Nat → Option Nat → Prop
  | exactly (w : List UCS4) (n : Nat) : CountOf w n → n ≠ 0 → Braces w n (some n)
  | atLeast (w : List UCS4) (n : Nat) : CountOf w n → Braces (w ++ [0x2C#32]) n none
  | atMost (w : List UCS4) (m : Nat) : CountOf w m → m ≠ 0 → Braces (0x2C#32 :: w) 0 (some m)
  | between (v w : List UCS4) (n m : Nat) : CountOf v n → CountOf w m → n ≤ m → m ≠ 0 → Braces (v ++ 0x2C#32 :: w) n (some m)
  | any : Braces [0x2C#32] 0 none

/-- There is a count without a comma (`{3}`) -/
def Re.exact : Re → Bool
  | .rep w _ _ a => !w.contains 0x2C#32 || a.exact
  | .seq a b | .alt a b => a.exact || b.exact
  | .star a | .plus a | .opt a | .grp _ a => a.exact
  | _ => false

/-- There is a counted repetition -/
def Re.counted : Re → Bool
  | .rep .. => true
  | .seq a b | .alt a b => a.counted || b.counted
  | .star a | .plus a | .opt a | .grp _ a => a.counted
  | _ => false

/-- The tree is the one a reader sees in what is written: a repetition is of one atom, and `|` (in the tree `alt`,
grouped to the right) is only at the top and in parentheses. After a count without a comma there is no comma anywhere (the
compiler would take it for the one of that count). -/
def Re.wf (top : Bool) : Re → Prop
  | .chr s c => s.ok c ∧ Writable c
  | .cls neg text rs => Brackets neg rs text ∧ ∀ r ∈ rs, Writable r.1 ∧ Writable r.2
  | .seq a b => a.wf false ∧ b.wf false ∧ (a.exact = true → 0x2C#32 ∉ b.write)
  | .alt a b => top = true ∧ a.wf false ∧ b.wf true ∧ (a.exact = true → 0x2C#32 ∉ b.write)
  | .star a | .plus a | .opt a => a.isAtom = true ∧ a.wf false
  | .rep w mn mx a => a.isAtom = true ∧ a.wf false ∧ Braces w mn mx ∧ (a.exact = true → 0x2C#32 ∉ w)
  | .grp _ a => a.wf true
  | _ => True

/-! ### Sizes -/

/-- No `|`, `^` and `$` -/
def Re.plain : Re → Bool
  | .bol | .eol | .alt .. => false
  | .seq a b => a.plain && b.plain
  | .star a | .plus a | .opt a | .rep _ _ _ a | .grp _ a => a.plain
  | _ => true

/-- The number of characters and classes -/
def Re.chars : Re → Nat
  | .chr .. | .any | .cls .. | .prop .. => 1
  | .seq a b | .alt a b => a.chars + b.chars
  | .star a | .plus a | .opt a | .rep _ _ _ a | .grp _ a => a.chars
  | _ => 0

/-! ### Meaning -/

def Shorthand.has (p : Shorthand) (c : UCS4) : Prop :=
  match p with
  | .space => c.toNat ∈ whites
  | .digit => ∃ v, IsDigit c.toNat v
  | .hex => (∃ v, IsDigit c.toNat v) ∨ (0x61 ≤ c.toNat ∧ c.toNat ≤ 0x66) ∨ (0x41 ≤ c.toNat ∧ c.toNat ≤ 0x46)

/-- `r` matches the characters `i` to `j` (exclusive) of the text. A NUL in the text is matched by nothing. -/
inductive Matches (t : List UCS4) : Re → Nat → Nat → Prop
  | empty (i : Nat) : Matches t .empty i i
  | chr (i : Nat) (s : Spelling) (c : UCS4) : t[i]? = some c → Matches t (.chr s c) i (i + 1)
  | any (i : Nat) (c : UCS4) : t[i]? = some c → c ≠ 0#32 → Matches t .any i (i + 1)
  | bol (i : Nat) : (i = 0 ∨ t[i - 1]? = some 0x0A#32) → Matches t .bol i i
  | eol (i : Nat) : (i = t.length ∨ t[i]? = some 0x0A#32) → Matches t .eol i i
  | cls (i : Nat) (neg : Bool) (text : List UCS4) (rs : List (UCS4 × UCS4)) (c : UCS4) : t[i]? = some c → c ≠ 0#32 →
      ((∃ r ∈ rs, r.1.toNat ≤ c.toNat ∧ c.toNat ≤ r.2.toNat) ↔ neg = false) → Matches t (.cls neg text rs) i (i + 1)
  | prop (i : Nat) (b : Bool) (p : Shorthand) (c : UCS4) : t[i]? = some c → c ≠ 0#32 → p.has c → Matches t (.prop b p) i (i + 1)
  | seq (i j k : Nat) (a b : Re) : Matches t a i j → Matches t b j k → Matches t (.seq a b) i k
  | altL (i j : Nat) (a b : Re) : Matches t a i j → Matches t (.alt a b) i j
  | altR (i j : Nat) (a b : Re) : Matches t b i j → Matches t (.alt a b) i j
  | starNone (i : Nat) (a : Re) : Matches t (.star a) i i
  | starMore (i j k : Nat) (a : Re) : Matches t a i j → Matches t (.star a) j k → Matches t (.star a) i k
  | plusOne (i j : Nat) (a : Re) : Matches t a i j → Matches t (.plus a) i j
  | plusMore (i j k : Nat) (a : Re) : Matches t a i j → Matches t (.plus a) j k → Matches t (.plus a) i k
  | optNone (i : Nat) (a : Re) : Matches t (.opt a) i i
  | optOne (i j : Nat) (a : Re) : Matches t a i j → Matches t (.opt a) i j
  /-- `n` matches in a row, at the places `f 0`, `f 1`, ... -/
  | rep (n : Nat) (f : Nat → Nat) (w : List UCS4) (mn : Nat) (mx : Option Nat) (a : Re) :
      (∀ m, m < n → Matches t a (f m) (f (m + 1))) → mn ≤ n → (∀ m, mx = some m → n ≤ m) → Matches t (.rep w mn mx a) (f 0) (f n)
  | grp (i j : Nat) (nc : Bool) (a : Re) : Matches t a i j → Matches t (.grp nc a) i j

end Strpp.Spec
