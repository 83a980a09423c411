import Verif.Spec.PegSem
/-!
Grammars and their meaning. Nothing here depends on the model.
-/
namespace Strpp.Pex

/-- The definition of a rule: its name, its parsing expression, and the names of what it captures -/
structure Def where
  name : List Byte
  expr : Expr
  captures : Option (List (List Byte))

abbrev Grammar := List Def

/-- The expression of a rule -/
def Grammar.find (g : Grammar) (name : List Byte) : Option Expr := (g.find? (fun d => d.name == name)).map Def.expr

/-- The standard meaning of a call of `name` at character `k`, with fewer than `h` calls nested: a rule that is not defined fails. -/
def Grammar.call (g : Grammar) (cs : List UCS4) : Nat → List Byte → Nat → Option Nat → Prop
  | 0, _, _, _ => False
  | h + 1, name, k, r =>
    match g.find name with
    | none => r = none
    | some e => Sem (g.call cs h) cs e k r

/-- The standard meaning. A grammar with left recursion, or another that does not end, has none. -/
def Grammar.Means (g : Grammar) (cs : List UCS4) (name : List Byte) (k : Nat) (r : Option Nat) : Prop := ∃ h, g.call cs h name k r

/-- The meaning when a rule called again at the place where it is being tried already is taken to fail: `active` are the calls
that have begun. -/
def Grammar.callL (g : Grammar) (cs : List UCS4) : Nat → List (List Byte × Nat) → List Byte → Nat → Option Nat → Prop
  | 0, _, _, _, _ => False
  | h + 1, active, name, k, r =>
    match g.find name with
    | none => r = none
    | some e => if (name, k) ∈ active then r = none else Sem (g.callL cs h ((name, k) :: active)) cs e k r

def Grammar.MeansL (g : Grammar) (cs : List UCS4) (name : List Byte) (k : Nat) (r : Option Nat) : Prop := ∃ h, g.callL cs h [] name k r

/-- In a pattern of a rule `<` begins a call -/
def pegSpecial (b : Byte) : Bool := b == 0x3C#8

/-- Rules with different names, each of them well written; bytes of names sort after `>` (letters and underscores do, digits
do not) -/
structure Grammar.Ok (g : Grammar) : Prop where
  distinct : (g.map Def.name).Nodup
  written : ∀ d ∈ g, d.expr.wf pegSpecial true .body
  names : ∀ d ∈ g, ∀ b ∈ d.name, 0x3E < b.toNat

end Strpp.Pex
