import Verif.Model.Array
/-! What Array calls should do, on plain lists. A program state is the list of what each variable shows (`none` once it is
destroyed). Only the type `Op` of calls is taken from the model. -/
namespace Strpp.Arr

variable {E : Type}

/-- what variable `v` shows -/
def shown (vs : List (Option (List E))) (v : Nat) : List E := ((vs[v]?).join).getD []

def specStep (vs : List (Option (List E))) : Op E → List (Option (List E))
  | .default => vs ++ [some []]
  | .ofData data _ => vs ++ [some data]
  | .ofStatic data => vs ++ [some data]
  | .copy w => vs ++ [some (shown vs w)]
  | .assign v w => vs.set v (some (shown vs w))
  | .destroy v => vs.set v none
  | .clear v => vs.set v (some [])
  | .pull v => vs.set v (some (shown vs v).dropLast)
  | .set v i e => vs.set v (some ((shown vs v).set i.toNat e))
  | .remove v at_ len => vs.set v (some ((shown vs v).take at_ ++
      if len = -1 then [] else (shown vs v).drop (at_ + len.toNat)))
  | .deleteAt v at_ => vs.set v (some ((shown vs v).eraseIdx at_))
  | .push v e => vs.set v (some (shown vs v ++ [e]))
  | .insert v pos w => vs.set v (some ((shown vs v).take pos ++ shown vs w ++ (shown vs v).drop pos))
  | .slice w at_ len => vs ++ [some (if len = -1 then (shown vs w).drop at_ else ((shown vs w).drop at_).take len.toNat)]
  | .plus w e => vs ++ [some (shown vs w ++ [e])]

/-- variable `v` exists -/
def Exists (vs : List (Option (List E))) (v : Nat) : Prop := ∃ l, vs[v]? = some (some l)

/-- The caller's obligations: variables exist, positions are in range, an array is not inserted in itself. -/
def Legal (vs : List (Option (List E))) : Op E → Prop
  | .default => True
  | .ofData _ _ => True
  | .ofStatic _ => True
  | .copy w => Exists vs w
  | .assign v w => Exists vs v ∧ Exists vs w
  | .destroy v => Exists vs v
  | .clear v => Exists vs v
  | .pull v => Exists vs v ∧ 0 < (shown vs v).length
  | .set v i _ => Exists vs v ∧ 0 ≤ i ∧ i < (shown vs v).length
  | .remove v at_ len => Exists vs v ∧ at_ ≤ (shown vs v).length ∧ (len = -1 ∨ (0 ≤ len ∧ at_ + len ≤ (shown vs v).length))
  | .deleteAt v at_ => Exists vs v ∧ at_ < (shown vs v).length
  | .push v _ => Exists vs v
  | .insert v pos w => Exists vs v ∧ Exists vs w ∧ v ≠ w ∧ pos ≤ (shown vs v).length
  | .slice w _ len => Exists vs w ∧ -1 ≤ len ∧ len < 2147483648
  | .plus w _ => Exists vs w

/-- The variable a call may change; a fresh one (number `n`) for constructors. -/
def target (n : Nat) : Op E → Nat
  | .default | .ofData _ _ | .ofStatic _ | .copy _ | .slice _ _ _ | .plus _ _ => n
  | .assign v _ | .destroy v | .clear v | .pull v | .set v _ _ | .remove v _ _ | .deleteAt v _ | .push v _
  | .insert v _ _ => v

/-- how many elements a call may add to storage -/
def added (vs : List (Option (List E))) : Op E → Nat
  | .ofData data allocate => max data.length allocate
  | .ofStatic data => data.length
  | .push _ _ => 1
  | .plus _ _ => 1
  | .insert _ _ w => (shown vs w).length
  | _ => 0

end Strpp.Arr
