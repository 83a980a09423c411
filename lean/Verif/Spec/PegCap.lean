import Verif.Spec.Peg
import Verif.Model.Variant
/-!
What a grammar captures: the meaning of parsing expressions (Spec/PegSem.lean) together with the list of captures. Of the model
only the data type `Variant` is used, the type of what Peg returns.
-/
namespace Strpp.Pex
open Var (Variant)

/-- a capture: the name, the value, and whether it is in a repetition -/
structure CapEvent where
  key : List UCS4
  value : Variant
  rep : Bool

def emptyText : Variant → Bool
  | .string [] => true
  | _ => false

def isArray : Variant → Bool
  | .varArray _ => true
  | _ => false

/-- what is to be found under a name, from the captures with that name that are not empty -/
def collected : List (Variant × Bool) → Option Variant
  | [] => none
  | [(v, rep)] => some (if rep then .varArray [v] else v)
  | vs => some (.varArray (vs.map Prod.fst))

/-- the captures under `key` -/
def under (key : List UCS4) (es : List CapEvent) : List (Variant × Bool) := (es.filter (fun e => e.key == key && !emptyText e.value)).map (fun e => (e.value, e.rep))

/-- the order of names: by characters -/
def keyBefore (a b : List UCS4) : Bool := decide (a.map BitVec.toNat < b.map BitVec.toNat)

/-- a name among others, each of them once and in order -/
def addKey (k : List UCS4) : List (List UCS4) → List (List UCS4)
  | [] => [k]
  | x :: xs => if keyBefore k x then k :: x :: xs else if keyBefore x k then x :: addKey k xs else x :: xs

def keysOf (es : List CapEvent) : List (List UCS4) := es.foldr (fun e ks => addKey e.key ks) []

/-- the map made of captures: each name, in order, with what was captured under it -/
def astOf (es : List CapEvent) : List (List UCS4 × Variant) := (keysOf es).filterMap (fun k => (collected (under k es)).map (fun v => (k, v)))

/-- A capture is added to those before, unless it is an empty text. -/
def note (e : CapEvent) (g : List CapEvent) : List CapEvent := if emptyText e.value then g else g ++ [e]

/-- What a failure leaves of the captures `g'`, when there were `g` at the beginning: all of them, except when there were none
at the beginning. (It ought to be `g`: see C44.) -/
def left (g g' : List CapEvent) : List CapEvent := if g.isEmpty then [] else g'

/-- the characters of a name -/
def letters (name : List Byte) : List UCS4 := name.map (fun b => b.setWidth 32)

/-- the characters from `k` up to `k'` -/
def piece (cs : List UCS4) (k k' : Nat) : List UCS4 := (cs.drop k).take (k' - k)

/-- The value of what matched from `k` to `k'`, when `own` are the captures of the rule so far: a map of these, if there are any,
and otherwise the text; in the rule TOP always a map. -/
def valueOf (top : Bool) (cs : List UCS4) (k k' : Nat) (own : List CapEvent) : Variant :=
  if top || !own.isEmpty then .strVarMap (astOf own) else .string (piece cs k k')

/-- The meaning with captures: `SemC … on rep e k g r g'` says that, with captures `g` so far, `e` at `k` has result `r` and then
there are captures `g'`. `on` says that captures count (not so in a look-ahead), `rep` that `e` is inside of a `*` or `+` of its
rule; `top` that the rule is TOP. `C` says what calls do. The constructors are those of `Sem`. -/
inductive SemC (cs : List UCS4) (top : Bool) (C : Bool → Bool → List Byte → Option (List Byte) → Nat → List CapEvent → Option Nat → List CapEvent → Prop) :
    Bool → Bool → Expr → Nat → List CapEvent → Option Nat → List CapEvent → Prop
  | one_yes {on rep o k c g} : cs[k]? = some c → o.has c = true → SemC cs top C on rep (.one o) k g (some (k + 1)) g
  | one_no {on rep o k g} : (∀ c, cs[k]? = some c → o.has c = false) → SemC cs top C on rep (.one o) k g none g
  | bol_yes {on rep k g} : k = 0 ∨ cs[k - 1]? = some 0x0A#32 → SemC cs top C on rep .bol k g (some k) g
  | bol_no {on rep k g} : ¬ (k = 0 ∨ cs[k - 1]? = some 0x0A#32) → SemC cs top C on rep .bol k g none g
  | eol_yes {on rep k g} : cs[k]? = none ∨ cs[k]? = some 0x0A#32 → SemC cs top C on rep .eol k g (some k) g
  | eol_no {on rep k g} : ¬ (cs[k]? = none ∨ cs[k]? = some 0x0A#32) → SemC cs top C on rep .eol k g none g
  | grp {on rep e k g r g'} : SemC cs top C on rep e k g r g' → SemC cs top C on rep (.grp e) k g r g'
  /-- what a labelled expression matched is captured -/
  | label_yes {on rep e n k g k' g'} : SemC cs top C on rep e k g (some k') g' →
      SemC cs top C on rep (.label e n) k g (some k') (if on then note ⟨letters n, valueOf top cs k k' g', rep⟩ g' else g')
  | label_no {on rep e n k g g'} : SemC cs top C on rep e k g none g' → SemC cs top C on rep (.label e n) k g none g'
  | opt_yes {on rep e k g k' g'} : SemC cs top C on rep e k g (some k') g' → SemC cs top C on rep (.opt e) k g (some k') g'
  | opt_no {on rep e k g g'} : SemC cs top C on rep e k g none g' → SemC cs top C on rep (.opt e) k g (some k) g'
  | star_end {on rep e k g g'} : SemC cs top C on true e k g none g' → SemC cs top C on rep (.star e) k g (some k) g'
  | star_stay {on rep e k g g'} : SemC cs top C on true e k g (some k) g' → SemC cs top C on rep (.star e) k g (some k) g'
  | star_more {on rep e k g k' g1 r g2} : SemC cs top C on true e k g (some k') g1 → k < k' → SemC cs top C on rep (.star e) k' g1 r g2 → SemC cs top C on rep (.star e) k g r g2
  | plus_no {on rep e k g g'} : SemC cs top C on true e k g none g' → SemC cs top C on rep (.plus e) k g none g'
  | plus_yes {on rep e k g k' g1 r g2} : SemC cs top C on true e k g (some k') g1 → SemC cs top C on rep (.star e) k' g1 r g2 → SemC cs top C on rep (.plus e) k g r g2
  /-- look-aheads capture nothing -/
  | and_yes {on rep e k g k' g'} : SemC cs top C false rep e k g (some k') g' → SemC cs top C on rep (.and e) k g (some k) g
  | and_no {on rep e k g g'} : SemC cs top C false rep e k g none g' → SemC cs top C on rep (.and e) k g none g
  | not_yes {on rep e k g g'} : SemC cs top C false rep e k g none g' → SemC cs top C on rep (.not e) k g (some k) g
  | not_no {on rep e k g k' g'} : SemC cs top C false rep e k g (some k') g' → SemC cs top C on rep (.not e) k g none g
  | call {on rep n l k g r g'} : C on rep n l k g r g' → SemC cs top C on rep (.call n l) k g r g'
  | empty {on rep k g} : SemC cs top C on rep .empty k g (some k) g
  | seq_no {on rep a b k g g'} : SemC cs top C on rep a k g none g' → SemC cs top C on rep (.seq a b) k g none g'
  | seq_yes {on rep a b k g k' g1 k'' g2} : SemC cs top C on rep a k g (some k') g1 → SemC cs top C on rep b k' g1 (some k'') g2 → SemC cs top C on rep (.seq a b) k g (some k'') g2
  /-- a sequence that is abandoned after its beginning -/
  | seq_back {on rep a b k g k' g1 g2} : SemC cs top C on rep a k g (some k') g1 → SemC cs top C on rep b k' g1 none g2 → SemC cs top C on rep (.seq a b) k g none (left g g2)
  | bar {on rep e k g r g'} : SemC cs top C on rep e k g r g' → SemC cs top C on rep (.bar e) k g r g'
  | alt_first {on rep a b k g k' g'} : SemC cs top C on rep a k g (some k') g' → SemC cs top C on rep (.alt a b) k g (some k') g'
  | alt_next {on rep a b k g g1 r g2} : SemC cs top C on rep a k g none g1 → SemC cs top C on rep b k g1 r g2 → SemC cs top C on rep (.alt a b) k g r g2

/-- The definition of a rule -/
def Grammar.rule (g : Grammar) (name : List Byte) : Option Def := g.find? (fun d => d.name == name)

/-- Whether a rule that lists `caps` captures what is called `name`: when one of them begins the name. (It ought to be the name:
see C56.) -/
def wants (caps : Option (List (List Byte))) (name : List Byte) : Bool := (caps.getD []).any (fun c => c.isPrefixOf name)

/-- What a call does in a rule that lists `caps`, with fewer than `h` calls nested. A rule that is called where it is active, as in
`Grammar.callL`, or that is not defined, fails. The rule called starts with no captures, outside of any repetition; if it matches
and its label, or else its name, is wanted, then its value is captured under that name. -/
def Grammar.callC (g : Grammar) (cs : List UCS4) : Nat → List (List Byte × Nat) → Option (List (List Byte)) →
    Bool → Bool → List Byte → Option (List Byte) → Nat → List CapEvent → Option Nat → List CapEvent → Prop
  | 0, _, _, _, _, _, _, _, _, _, _ => False
  | h + 1, active, caps, on, rep, name, lab, k, before, r, after =>
    match g.rule name with
    | none => r = none ∧ after = before
    | some d =>
      if (name, k) ∈ active then r = none ∧ after = before
      else ∃ own, SemC cs false (g.callC cs h ((name, k) :: active) d.captures) on false d.expr k [] r own ∧
        after = (match r with
          | some k' => if on && wants caps (lab.getD name) then note ⟨letters (lab.getD name), valueOf false cs k k' own, rep⟩ before else before
          | none => before)

/-- What parsing with the rule `name` as TOP gives at `k`: how far it matches, and the map of what it captured. -/
def Grammar.MeansC (g : Grammar) (cs : List UCS4) (name : List Byte) (k : Nat) (r : Option Nat) (ast : List (List UCS4 × Variant)) : Prop :=
  ∃ d h own, g.rule name = some d ∧ SemC cs true (g.callC cs h [(name, k)] d.captures) true false d.expr k [] r own ∧ ast = astOf own

end Strpp.Pex
