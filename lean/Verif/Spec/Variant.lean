import Verif.Model.Variant
import Verif.Spec.JsonText
/-! What a Variant stands for. -/
namespace Strpp.Var
open Spec

/-- code points -/
def points (t : List UCS4) : List Nat := t.map BitVec.toNat

/-- The number a Variant of a number type holds. -/
def number : Variant → Option Int
  | .integer w => some (loInt w)
  | .long w => some w.toInt
  | .longLong w => some w.toInt
  | _ => none

mutual
/-- The JSON value that a Variant stands for. -/
def denote : Variant → JVal
  | .none => .null
  | .integer w => .num (loInt w)
  | .long w => .num w.toInt
  | .longLong w => .num w.toInt
  | .string t => .str (points t)
  | .strArray a => .arr (a.map fun t => .str (points t))
  | .varArray a => .arr (denoteAll a)
  | .strVarMap m => .obj (denoteMap m)

def denoteAll : List Variant → List JVal
  | [] => []
  | v :: vs => denote v :: denoteAll vs

def denoteMap : List (List UCS4 × Variant) → List (List Nat × JVal)
  | [] => []
  | (k, v) :: ms => (points k, denote v) :: denoteMap ms
end

/-- characters of the Basic Multilingual Plane, without NUL and surrogates -/
def Plain (t : List UCS4) : Prop := ∀ c ∈ t, c ≠ 0#32 ∧ c.toNat ≤ 0xFFFF ∧ ¬ (0xD800 ≤ c.toNat ∧ c.toNat < 0xE000)

mutual
/-- All strings in it are plain. -/
def AllPlain : Variant → Prop
  | .string t => Plain t
  | .strArray a => ∀ t ∈ a, Plain t
  | .varArray a => AllPlainL a
  | .strVarMap m => AllPlainM m
  | _ => True

def AllPlainL : List Variant → Prop
  | [] => True
  | v :: vs => AllPlain v ∧ AllPlainL vs

def AllPlainM : List (List UCS4 × Variant) → Prop
  | [] => True
  | (k, v) :: ms => Plain k ∧ AllPlain v ∧ AllPlainM ms
end

end Strpp.Var
