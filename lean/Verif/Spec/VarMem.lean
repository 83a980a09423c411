import Verif.Model.VarMem
/-!
What histories of calls on Variants, their arrays and maps mean, if every variable had a copy of its own: the variables
hold values (`Var.Variant`: numbers, texts, lists of values, sorted lists of texts with values), and there is no memory.
-/
namespace Strpp.Spec.VM

open Strpp.VM (Op State Cell)
open Var

/-- The variables' values; `none` once destroyed -/
abbrev Vals := List (Option Variant)

/-- The value of a variable that exists -/
def value (σ : Vals) (v : Nat) : Option Variant :=
  match σ[v]? with
  | some (some x) => some x
  | _ => none

/-- The values of several variables -/
def valuesOf (σ : Vals) : List Nat → Option (List Variant)
  | [] => some []
  | v :: vs =>
    match value σ v, valuesOf σ vs with
    | some x, some xs => some (x :: xs)
    | _, _ => none

/-- texts in the order of their code points -/
def TextLt (a b : List UCS4) : Prop := a.map BitVec.toNat < b.map BitVec.toNat

instance (a b : List UCS4) : Decidable (TextLt a b) := inferInstanceAs (Decidable (a.map BitVec.toNat < b.map BitVec.toNat))

/-- A new entry goes between those with smaller and those with greater keys; an entry that is there is kept. -/
def mapInsert (k : List UCS4) (x : Variant) (m : List (List UCS4 × Variant)) : List (List UCS4 × Variant) :=
  if m.any (fun e => e.1 = k) then m
  else m.filter (fun e => TextLt e.1 k) ++ (k, x) :: m.filter (fun e => TextLt k e.1)

def mapErase (k : List UCS4) (m : List (List UCS4 × Variant)) : List (List UCS4 × Variant) :=
  m.filter (fun e => e.1 ≠ k)

def mapLookup (k : List UCS4) (m : List (List UCS4 × Variant)) : Variant :=
  match m.find? (fun e => e.1 = k) with
  | some e => e.2
  | none => .none

/-- One call, on values; `none` if a variable it uses does not exist or is not of the right kind, an index is out of range, or
the coercion is one of those that abort (C33). An array, a map and a Variant are different variables, always. -/
def step (σ : Vals) : Op → Option Vals
  | .null => some (σ ++ [some .none])
  | .int x => some (σ ++ [some (ofInt x)])
  | .long x => some (σ ++ [some (ofLong x)])
  | .longLong x => some (σ ++ [some (ofLongLong x)])
  | .str t => some (σ ++ [some (.string t)])
  | .emptyArray => some (σ ++ [some (.varArray [])])
  | .array vs =>
    match valuesOf σ vs with
    | some xs => some (σ ++ [some (.varArray xs)])
    | none => none
  | .emptyMap => some (σ ++ [some (.strVarMap [])])
  | .copy w =>
    match value σ w with
    | some x => some (σ ++ [some x])
    | none => none
  | .assign v w =>
    match value σ v, value σ w with
    | some _, some x => some (σ.set v (some x))
    | _, _ => none
  | .destroy v =>
    match value σ v with
    | some _ => some (σ.set v none)
    | none => none
  | .pair v w =>
    match value σ v, value σ w with
    | some x, some y => some (σ ++ [some (.varArray [x, y])])
    | _, _ => none
  | .push a v =>
    if a = v then none
    else match value σ a, value σ v with
      | some (.varArray xs), some x => some (σ.set a (some (.varArray (xs ++ [x]))))
      | _, _ => none
  | .set a i v =>
    if a = v then none
    else match value σ a, value σ v with
      | some (.varArray xs), some x => if i < xs.length then some (σ.set a (some (.varArray (xs.set i x)))) else none
      | _, _ => none
  | .elem a i =>
    match value σ a with
    | some (.varArray xs) =>
      match xs[i]? with
      | some x => some (σ ++ [some x])
      | none => none
    | _ => none
  | .pull a =>
    match value σ a with
    | some (.varArray xs) =>
      match xs.getLast? with
      | some x => some (σ.set a (some (.varArray xs.dropLast)) ++ [some x])
      | none => none
    | _ => none
  | .insert m k v =>
    if m = k ∨ m = v then none
    else match value σ m, value σ k, value σ v with
      | some (.strVarMap es), some (.string t), some x => some (σ.set m (some (.strVarMap (mapInsert t x es))))
      | _, _, _ => none
  | .erase m k =>
    match value σ m, value σ k with
    | some (.strVarMap es), some (.string t) => some (σ.set m (some (.strVarMap (mapErase t es))))
    | _, _ => none
  | .lookup m k =>
    match value σ m, value σ k with
    | some (.strVarMap es), some (.string t) => some (σ ++ [some (mapLookup t es)])
    | _, _ => none
  | .coerce memo junk v ty =>
    if ty = .none then none
    else match value σ v with
      | some x =>
        match Var.coerce memo junk x ty with
        | .ok y => some (σ.set v (some y))
        | .error _ => none
      | none => none

/-- A history -/
def steps (σ : Vals) : List Op → Option Vals
  | [] => some σ
  | op :: ops =>
    match step σ op with
    | some σ' => steps σ' ops
    | none => none

/-- The call makes a number of a string (which loses the string's body, see C64_refuted_leak). -/
def losing (σ : Vals) : Op → Bool
  | .coerce _ _ v ty => match value σ v with
    | some (.string _) => decide (ty ≠ .string)
    | _ => false
  | _ => false

/-- None of the calls does. -/
def frugal (σ : Vals) : List Op → Bool
  | [] => true
  | op :: ops => !losing σ op && match step σ op with
    | some σ' => frugal σ' ops
    | none => true

/-- The body of the string that the call makes a number of -/
def lost (s : State) : Op → List Nat
  | .coerce _ _ v ty =>
    match s.vars[v]? with
    | some (some (.string b)) => if ty = .string then [] else [b]
    | _ => []
  | _ => []

/-- The bodies of all the strings that a history makes numbers of, each as often as that happens -/
def lostAll (s : State) : List Op → List Nat
  | [] => []
  | op :: ops => lost s op ++ match Strpp.VM.exec s op with
    | .ok s' => lostAll s' ops
    | .error _ => []

/-! ### What is in memory -/

/-- The value a Variant shows, looking at most `n` levels deep -/
def den (s : State) : Nat → Cell → Variant
  | 0, _ => .none
  | _ + 1, .none => .none
  | _ + 1, .integer w => .integer w
  | _ + 1, .long w => .long w
  | _ + 1, .longLong w => .longLong w
  | _ + 1, .string b => .string (Strpp.VM.textOf s b)
  | n + 1, .varArray a =>
    match a.body with
    | none => .varArray []
    | some b => match s.bodies[b]? with
      | some (some ⟨_, .cells mem _⟩) => .varArray (((mem.drop a.off).take a.num).map (den s n))
      | _ => .none
  | n + 1, .strVarMap b =>
    match s.bodies[b]? with
    | some (some ⟨_, .table es⟩) => .strVarMap (es.map (fun e => (Strpp.VM.textOf s e.1, den s n e.2)))
    | _ => .none

/-- The value a Variant shows, however deep one looks -/
def Denotes (s : State) (c : Cell) (x : Variant) : Prop := ∃ N, ∀ n, N ≤ n → den s n c = x

/-- Memory shows exactly these values. -/
def Shows (s : State) (σ : Vals) : Prop :=
  s.vars.length = σ.length ∧
  ∀ v : Nat, match s.vars[v]?, σ[v]? with
    | some (some c), some (some x) => Denotes s c x
    | some none, some none => True
    | none, none => True
    | _, _ => False

/-- The bodies that exist -/
def Live (s : State) (b : Nat) : Prop := ∃ x, s.bodies[b]? = some (some x)

/-- Body `b` is referred to from a variable, or from something in a body that is. -/
inductive Reached (s : State) : Nat → Prop
  | var (v : Nat) (c : Cell) (b : Nat) : s.vars[v]? = some (some c) → b ∈ c.refs → Reached s b
  | body (b b' : Nat) (x : Strpp.VM.Body) : Reached s b → s.bodies[b]? = some (some x) → b' ∈ x.content.refs → Reached s b'

end Strpp.Spec.VM
