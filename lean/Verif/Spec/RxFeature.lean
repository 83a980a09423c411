import Verif.Spec.Rx
import Verif.Model.RxCompile
/-!
How regular expressions are written when the features of the language are chosen: the constructor of RxCompiler takes
a set of enabled and a set of rejected features (`Cfg`, of which only `features` and `rejected` are used here).
-/
namespace Strpp.Spec
open Rx (Cfg Feature)

/-- A feature is on if it is enabled and not rejected, and off if it is neither -/
def On (cfg : Cfg) (f : Feature) : Prop := cfg.features f = true ∧ cfg.rejected f = false
def Off (cfg : Cfg) (f : Feature) : Prop := cfg.features f = false ∧ cfg.rejected f = false

/-- `^ $ [ | ( )` and the features that make them special. (`* + {` end the literal in front of them even if they are
not special; they are left out.) -/
def specialIf : List (UCS4 × Feature) :=
  [(0x5E#32, .bol), (0x24#32, .eol), (0x5B#32, .charClasses), (0x7C#32, .alternates), (0x28#32, .group), (0x29#32, .group)]

/-- The letters and digits that are special after a backslash, and the features that make them so -/
def escapeIf : List (UCS4 × Feature) :=
  [(0x62#32, .cEscapes), (0x65#32, .cEscapes), (0x66#32, .cEscapes), (0x6E#32, .cEscapes), (0x74#32, .cEscapes), (0x72#32, .cEscapes),
   (0x78#32, .hexChar), (0x75#32, .unicodeChar), (0x73#32, .shorthand), (0x64#32, .shorthand), (0x68#32, .shorthand),
   (0x70#32, .propertyChars),
   (0x30#32, .octalChar), (0x31#32, .octalChar), (0x32#32, .octalChar), (0x33#32, .octalChar), (0x34#32, .octalChar),
   (0x35#32, .octalChar), (0x36#32, .octalChar), (0x37#32, .octalChar)]

/-- space, tab, newline, carriage return -/
def blanks : List UCS4 := [0x20#32, 0x09#32, 0x0A#32, 0x0D#32]

/-- A character that means itself: not one of those that are special, or one whose feature is off; `.` if `?` is the
any character; in an extended expression neither white space nor `#`. -/
def PlainIn (cfg : Cfg) (c : UCS4) : Prop :=
  c ∉ [0x3F#32, 0x2A#32, 0x2B#32, 0x7B#32, 0x5C#32] ∧ (∀ f, (c, f) ∈ specialIf → Off cfg f) ∧
  (c = 0x2E#32 → On cfg .anyIsQuest) ∧ (c ∈ 0x23#32 :: blanks → ¬ On cfg .extendedRE)

/-- How a character may be written -/
def Spelling.okIn (cfg : Cfg) (s : Spelling) (c : UCS4) : Prop :=
  match s with
  | .plain => PlainIn cfg c
  | .quoted => ∀ f, (c, f) ∈ escapeIf → ¬ On cfg f
  | .letter l => (l, c) ∈ letterMeanings ∧ On cfg .cEscapes
  | .code w => CodeOf w c ∧ (w.head? = some 0x78#32 → On cfg .hexChar) ∧ (w.head? = some 0x75#32 → On cfg .unicodeChar) ∧
      (w.head? ≠ some 0x78#32 → w.head? ≠ some 0x75#32 → On cfg .octalChar)

/-- White space and comments, which are ignored in an extended expression: a comment starts with a `#` that directly
follows a white space, and ends with its line -/
inductive Blank (cfg : Cfg) : List UCS4 → Prop
  | nil : Blank cfg []
  | white (c : UCS4) (w : List UCS4) : On cfg .extendedRE → c ∈ blanks → Blank cfg w → Blank cfg (c :: w)
  | comment (c : UCS4) (x w : List UCS4) : On cfg .extendedRE → c ∈ blanks → 0x0A#32 ∉ x → Blank cfg w →
      Blank cfg (c :: 0x23#32 :: x ++ 0x0A#32 :: w)

/-- What may follow the expression: white space, and a comment that does not end -/
inductive Trailer (cfg : Cfg) : List UCS4 → Prop
  | blank (w : List UCS4) : Blank cfg w → Trailer cfg w
  | comment (w : List UCS4) (c : UCS4) (x : List UCS4) : Blank cfg w → On cfg .extendedRE → c ∈ blanks → 0x0A#32 ∉ x →
      Trailer cfg (w ++ c :: 0x23#32 :: x)

/-- The texts for an expression; `top` is as in `Re.wf`. White space may be in front of everything but a repetition. -/
inductive Written (cfg : Cfg) : Bool → Re → List UCS4 → Prop
  | blank (top : Bool) (r : Re) (w u : List UCS4) : Blank cfg w → Written cfg top r u → Written cfg top r (w ++ u)
  | empty (top : Bool) : Written cfg top .empty []
  | chr (top : Bool) (s : Spelling) (c : UCS4) : s.okIn cfg c → Writable c → Written cfg top (.chr s c) (Re.chr s c).write
  | any (top : Bool) : ¬ On cfg .anyIsQuest → Written cfg top .any [0x2E#32]
  | bol (top : Bool) : On cfg .bol → Written cfg top .bol [0x5E#32]
  | eol (top : Bool) : On cfg .eol → Written cfg top .eol [0x24#32]
  | cls (top neg : Bool) (text : List UCS4) (rs : List (UCS4 × UCS4)) : On cfg .charClasses → Brackets neg rs text →
      (∀ r ∈ rs, Writable r.1 ∧ Writable r.2) → Written cfg top (.cls neg text rs) (Re.cls neg text rs).write
  | prop (top : Bool) (p : Shorthand) : On cfg .shorthand → Written cfg top (.prop false p) (Re.prop false p).write
  | braces (top : Bool) (p : Shorthand) : On cfg .propertyChars → Written cfg top (.prop true p) (Re.prop true p).write
  | seq (top : Bool) (a b : Re) (u v : List UCS4) : Written cfg false a u → Written cfg false b v →
      (a.exact = true → 0x2C#32 ∉ v) → Written cfg top (.seq a b) (u ++ v)
  | alt (a b : Re) (u w v : List UCS4) : On cfg .alternates → Written cfg false a u → Blank cfg w → Written cfg true b v →
      (a.exact = true → 0x2C#32 ∉ w ++ v) →
      Written cfg true (.alt a b) (u ++ w ++ 0x7C#32 :: v)
  | star (top : Bool) (a : Re) (u : List UCS4) : On cfg .zeroOrMore → ¬ On cfg .zeroOrMoreAny → a.isAtom = true →
      Written cfg false a u → Written cfg top (.star a) (u ++ [0x2A#32])
  | plus (top : Bool) (a : Re) (u : List UCS4) : On cfg .oneOrMore → a.isAtom = true → Written cfg false a u →
      Written cfg top (.plus a) (u ++ [0x2B#32])
  | opt (top : Bool) (a : Re) (u : List UCS4) : ¬ On cfg .anyIsQuest → a.isAtom = true → Written cfg false a u →
      Written cfg top (.opt a) (u ++ [0x3F#32])
  | rep (top : Bool) (w : List UCS4) (mn : Nat) (mx : Option Nat) (a : Re) (u : List UCS4) : On cfg .countRepetition →
      a.isAtom = true → Written cfg false a u → Braces w mn mx → (a.exact = true → 0x2C#32 ∉ w) →
      Written cfg top (.rep w mn mx a) (u ++ 0x7B#32 :: w ++ [0x7D#32])
  | grp (top : Bool) (a : Re) (u w : List UCS4) : On cfg .group → Written cfg true a u → Blank cfg w →
      (a.exact = true → 0x2C#32 ∉ w) →
      Written cfg top (.grp false a) (0x28#32 :: u ++ w ++ [0x29#32])
  | group (top : Bool) (a : Re) (u w : List UCS4) : On cfg .group → On cfg .nonCapture → cfg.rejected .capture = false →
      Written cfg true a u → Blank cfg w → (a.exact = true → 0x2C#32 ∉ w) →
      Written cfg top (.grp true a) (0x28#32 :: 0x3F#32 :: 0x3A#32 :: u ++ w ++ [0x29#32])

/-- The same tree, whatever its characters and classes look like in writing -/
inductive Same : Re → Re → Prop
  | empty : Same .empty .empty
  | chr (s s' : Spelling) (c : UCS4) : Same (.chr s c) (.chr s' c)
  | any : Same .any .any
  | bol : Same .bol .bol
  | eol : Same .eol .eol
  | cls (neg : Bool) (t t' : List UCS4) (rs : List (UCS4 × UCS4)) : Same (.cls neg t rs) (.cls neg t' rs)
  | prop (b b' : Bool) (p : Shorthand) : Same (.prop b p) (.prop b' p)
  | seq (a a' b b' : Re) : Same a a' → Same b b' → Same (.seq a b) (.seq a' b')
  | alt (a a' b b' : Re) : Same a a' → Same b b' → Same (.alt a b) (.alt a' b')
  | star (a a' : Re) : Same a a' → Same (.star a) (.star a')
  | plus (a a' : Re) : Same a a' → Same (.plus a) (.plus a')
  | opt (a a' : Re) : Same a a' → Same (.opt a) (.opt a')
  | rep (w w' : List UCS4) (mn : Nat) (mx : Option Nat) (a a' : Re) : Same a a' → Same (.rep w mn mx a) (.rep w' mn mx a')
  | grp (nc nc' : Bool) (a a' : Re) : Same a a' → Same (.grp nc a) (.grp nc' a')

/-- Characters special in the expression unless they are off, for `Rejected` -/
def rejectable : List (UCS4 × Feature) :=
  [(0x5E#32, .bol), (0x24#32, .eol), (0x5B#32, .charClasses), (0x7C#32, .alternates), (0x28#32, .group),
   (0x2A#32, .zeroOrMore), (0x2B#32, .oneOrMore), (0x7B#32, .countRepetition)]

end Strpp.Spec
