import Verif.Model.Variant
import Verif.Spec.JsonExact
import Verif.Spec.StrIntExact
/-! What coercing a Variant does and what its JSON text is, exactly: the code's mistakes included. -/
namespace Strpp.Spec
open Var

/-- What a caller can see of a Variant: its type and its contents. -/
inductive Seen where
  | none
  | num (ty : Ty) (x : Int)
  | text (t : List UCS4)
  | texts (a : List (List UCS4))
  | array (a : List Variant)
  | map (m : List (List UCS4 × Variant))

def seen : Variant → Seen
  | .none => .none
  | .integer w => .num .integer (w.setWidth 32).toInt
  | .long w => .num .long w.toInt
  | .longLong w => .num .longLong w.toInt
  | .string t => .text t
  | .strArray a => .texts a
  | .varArray a => .array a
  | .strVarMap m => .map m

/-- A number in decimal. -/
def decimal (x : Int) : List Nat := (toString x).toList.map Char.toNat

/-- What a text gives as an integer: the value and the number of the error, as `asInt32` with radix 0 finds them
(`intOutcome`); `none`: undefined behaviour. -/
def ReadAs (t : List UCS4) (o : Option (Int × Nat)) : Prop :=
  ∃ neg r ds vs w rest, Reads 0 t neg r ds vs w rest ∧ o = (intOutcome t.length neg r vs w rest).map fun x => (x.1, x.2.1)

/-- Coercing: the Variant afterwards. A number keeps its type, unless it becomes a string; a text becomes an Integer or a Long
if there is an error in it, a LongLong if there is none. -/
inductive Coerced : Seen → Ty → Except Fault Seen → Prop
  | toNone (s) : Coerced s .none (.ok .none)
  -- numbers
  | numInteger (ty x) : -2 ^ 31 ≤ x → x < 2 ^ 31 → Coerced (.num ty x) .integer (.ok (.num ty x))
  | numTooBig (ty x) : x < -2 ^ 31 ∨ 2 ^ 31 ≤ x → Coerced (.num ty x) .integer (.error .assertion)
  | numLong (ty x) : Coerced (.num ty x) .long (.ok (.num ty x))
  | numLongLong (ty x) : Coerced (.num ty x) .longLong (.ok (.num ty x))
  | numString (ty x t) : t.map BitVec.toNat = decimal x → Coerced (.num ty x) .string (.ok (.text t))
  | numOther (ty x to_) : to_ ∈ [Ty.strArray, .varArray, .strVarMap] → Coerced (.num ty x) to_ (.error .assertion)
  -- texts
  | textUndefined (t ty) : ty ∈ [Ty.integer, .long, .longLong] → ReadAs t none → Coerced (.text t) ty (.error .ub)
  | textGood (t ty x) : ty ∈ [Ty.integer, .long] → ReadAs t (some (x, 0)) → Coerced (.text t) ty (.error .assertion)
  | textBad (t ty x e) : ty ∈ [Ty.integer, .long] → ReadAs t (some (x, e)) → e ≠ 0 → Coerced (.text t) ty (.ok (.num ty x))
  | textLongLong (t x) : ReadAs t (some (x, 0)) → Coerced (.text t) .longLong (.ok (.num .longLong x))
  | textNotLongLong (t x e) : ReadAs t (some (x, e)) → e ≠ 0 → Coerced (.text t) .longLong (.error .assertion)
  | textString (t) : Coerced (.text t) .string (.ok (.text t))
  | textOther (t ty) : ty ∈ [Ty.strArray, .varArray, .strVarMap] → Coerced (.text t) ty (.error .assertion)
  -- collections
  | texts (a) : Coerced (.texts a) .strArray (.ok (.texts a))
  | textsOther (a ty) : ty ≠ .none → ty ≠ .strArray → Coerced (.texts a) ty (.error .assertion)
  | array (a) : Coerced (.array a) .varArray (.ok (.array a))
  | arrayOther (a ty) : ty ≠ .none → ty ≠ .varArray → Coerced (.array a) ty (.error .assertion)
  | map (m) : Coerced (.map m) .strVarMap (.ok (.map m))
  | mapOther (m ty) : ty ≠ .none → ty ≠ .strVarMap → Coerced (.map m) ty (.error .assertion)
  -- nothing
  | noneOther (ty) : ty ≠ .none → Coerced .none ty (.error .assertion)

/-! ### as_json -/

/-- `n` blanks -/
def blanksOf (n : Int) : List Nat := List.replicate n.toNat 0x20

/-- What is put after the opening bracket and after each comma: nothing for the indent -2, a blank for -1, else a new line,
indented by two blanks per level. -/
def gapIn (indent : Int) : List Nat :=
  if indent = -2 then [] else if indent = -1 then [0x20] else 0x0A :: blanksOf (2 * (indent + 1))

/-- What is put before the closing bracket. -/
def gapOut (indent : Int) : List Nat :=
  if indent = -2 then [] else if indent = -1 then [0x20] else 0x0A :: blanksOf (2 * indent)

/-- The indent of what is nested. -/
def deeper (indent : Int) : Int := if indent = -2 ∨ indent = -1 then indent else indent + 1

/-- A string in quotes; `none`: the call aborts. -/
def quotedOf (t : List UCS4) : Option (List Nat) :=
  ((t.map BitVec.toNat).mapM jsonWritten).map fun ls => [0x22] ++ ls.flatten ++ [0x22]

/-- The items, between an opening and a closing bracket, separated by commas. -/
def bracketed (open_ close : Nat) (indent : Int) (items : List (List Nat)) : List Nat :=
  [open_] ++ gapIn indent ++ ([0x2C] ++ gapIn indent).intercalate items ++ gapOut indent ++ [close]

mutual
/-- How deep arrays and maps are nested. -/
def depth : Variant → Nat
  | .strArray _ => 1
  | .varArray a => 1 + depthAll a
  | .strVarMap m => 1 + depthMembers m
  | _ => 0

def depthAll : List Variant → Nat
  | [] => 0
  | v :: vs => max (depth v) (depthAll vs)

def depthMembers : List (List UCS4 × Variant) → Nat
  | [] => 0
  | (_, v) :: ms => max (depth v) (depthMembers ms)
end

mutual
/-- The text of a Variant at an indent; `none`: the call aborts. -/
def jsonTextOf (indent : Int) : Variant → Option (List Nat)
  | .none => some [0x6E, 0x75, 0x6C, 0x6C]
  | .integer w => some (decimal (w.setWidth 32).toInt)
  | .long w => some (decimal w.toInt)
  | .longLong w => some (decimal w.toInt)
  | .string t => quotedOf t
  | .strArray a => (a.mapM quotedOf).map (bracketed 0x5B 0x5D indent)
  | .varArray a => (jsonTextsOf (deeper indent) a).map (bracketed 0x5B 0x5D indent)
  | .strVarMap m => (jsonMembersOf (if indent = -2 then [0x3A] else [0x3A, 0x20]) (deeper indent) m).map (bracketed 0x7B 0x7D indent)

def jsonTextsOf (indent : Int) : List Variant → Option (List (List Nat))
  | [] => some []
  | v :: vs => do
    let j ← jsonTextOf indent v
    let js ← jsonTextsOf indent vs
    some (j :: js)

def jsonMembersOf (colon : List Nat) (indent : Int) : List (List UCS4 × Variant) → Option (List (List Nat))
  | [] => some []
  | (k, v) :: ms => do
    let q ← quotedOf k
    let j ← jsonTextOf indent v
    let js ← jsonMembersOf colon indent ms
    some ((q ++ colon ++ j) :: js)
end

end Strpp.Spec
