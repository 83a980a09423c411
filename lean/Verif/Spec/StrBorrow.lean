import Verif.Model.StrVal
/-! Vocabulary of C106: which strings refer to memory that belongs to the caller. -/
namespace Strpp.SV

/-- The text that variable `v` shows is in memory that belongs to someone else, and that nobody keeps for `v`. (Body 0 is
the body of the empty string, which is always there.) -/
def Borrows (s : State) (v : Nat) : Prop :=
  ∃ x b, s.vars[v]? = some (some x) ∧ x.body ≠ 0 ∧ s.bodies[x.body]? = some b ∧ b.arr.static = true

/-- `v` and `w` show neighbouring parts of the same memory, `v` the earlier one -/
def Neighbours (s : State) (v w : Nat) : Prop :=
  ∃ x y, s.vars[v]? = some (some x) ∧ s.vars[w]? = some (some y) ∧ x.body = y.body ∧ x.off + x.num = y.off

/-- the variable that a call on a state with `n` variables changes, or the new one it gives (the other new ones are
temporaries) -/
def result {S : Type} (n : Nat) : Op S → Nat
  | .assign v _ | .destroy v | .addEq v _ | .addEqChar v _ | .insert v _ _ | .asUTF8 v | .toLower v _ | .toUpper v _
  | .transform v _ _ _ => v
  | .join _ (_ :: _) => n + 1
  | _ => n

/-- the variables a call is given -/
def operands {S : Type} : Op S → List Nat
  | .copy w | .destroy w | .substr w _ _ | .head w _ | .tail w _ | .shorter w _ | .addEqChar w _ | .times w _ | .asUTF8 w
  | .toLower w _ | .toUpper w _ | .transform w _ _ _ => [w]
  | .assign v w | .plus v w | .addEq v w | .insert v _ w => [v, w]
  | .join j ws => j :: ws
  | _ => []

/-- when the result of a call may borrow -/
def MayBorrow {S : Type} (s : State) : Op S → Prop
  | .ofStatic _ => True
  | .assign _ w | .substr w _ _ | .head w _ | .tail w _ | .shorter w _ => Borrows s w
  | .plus v w | .addEq v w | .insert v _ w => Borrows s v ∧ Neighbours s v w
  | .asUTF8 v => Borrows s v
  | _ => False

end Strpp.SV
