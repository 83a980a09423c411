import Verif.Model.CowMap
/-! What CowMap calls should do, on finite maps given as partial functions. A program state is the list of what each
variable shows (`none` once it is destroyed). Only the type `Op` of calls is taken from the model. -/
namespace Strpp.CM

variable {K V : Type} [DecidableEq K]

/-- A finite map from K to V. -/
abbrev FMap (K V : Type) := K → Option V

def FMap.empty : FMap K V := fun _ => none

def FMap.update (m : FMap K V) (k : K) (x : Option V) : FMap K V := fun k' => if k' = k then x else m k'

/-- the first pair with each key counts -/
def FMap.ofPairs (es : List (K × V)) : FMap K V := fun k => (es.find? (fun e => e.1 = k)).map (·.2)

/-- what variable `v` shows -/
def shown (vs : List (Option (FMap K V))) (v : Nat) : FMap K V := ((vs[v]?).join).getD FMap.empty

def specStep (vs : List (Option (FMap K V))) : Op K V → List (Option (FMap K V))
  | .default => vs ++ [some FMap.empty]
  | .ofPairs es => vs ++ [some (FMap.ofPairs es)]
  | .copy w => vs ++ [some (shown vs w)]
  | .assign v w => vs.set v (some (shown vs w))
  | .destroy v => vs.set v none
  | .clear v => vs.set v (some FMap.empty)
  | .insert v k x => vs.set v (some (if (shown vs v k).isSome then shown vs v else (shown vs v).update k (some x)))
  | .remove v k => vs.set v (some ((shown vs v).update k none))
  | .put v k x => vs.set v (some ((shown vs v).update k (some x)))

/-- variable `v` exists -/
def Exists (vs : List (Option (FMap K V))) (v : Nat) : Prop := ∃ m, vs[v]? = some (some m)

/-- The caller's only obligation: the variables named exist. -/
def Legal (vs : List (Option (FMap K V))) : Op K V → Prop
  | .default => True
  | .ofPairs _ => True
  | .copy w => Exists vs w
  | .assign v w => Exists vs v ∧ Exists vs w
  | .destroy v | .clear v | .insert v _ _ | .remove v _ | .put v _ _ => Exists vs v

/-- The variable a call may change; a fresh one (number `n`) for constructors. -/
def target (n : Nat) : Op K V → Nat
  | .default | .ofPairs _ | .copy _ => n
  | .assign v _ | .destroy v | .clear v | .insert v _ _ | .remove v _ | .put v _ _ => v

/-- `lt` is a strict total order, as std::map requires. -/
structure StrictOrder (lt : K → K → Bool) : Prop where
  irrefl : ∀ a, lt a a = false
  trans : ∀ a b c, lt a b = true → lt b c = true → lt a c = true
  total : ∀ a b, lt a b = true ∨ a = b ∨ lt b a = true

end Strpp.CM
