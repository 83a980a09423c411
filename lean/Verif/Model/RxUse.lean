import Verif.Model.RxCompile
import Verif.Model.RxMatch
/-! A regular expression as a client uses it: compile it, make an `RxProgram` of the result, and match. -/
namespace Strpp.Rx

/-- test/rxmatch_test.cpp:307-329: `RxCompiler rx(re); rx.compile(nfa); RxProgram(nfa).matchAfter(target, offset)`; `none`
if `compile` returns false -/
def search (re : List UCS4) (junk fuel : Nat) (t : List UCS4) (off : Nat) : Res (Option RVal) := do
  let nfa ← compile .default re
  match nfa with
  | none => .ok none
  | some nfa => do
    let P ← Prog.load nfa
    let r ← P.matchAfter junk fuel t off
    .ok (some r)

/-- The same with `matchAt` -/
def matchHere (re : List UCS4) (junk fuel : Nat) (t : List UCS4) (off : Nat) : Res (Option RVal) := do
  let nfa ← compile .default re
  match nfa with
  | none => .ok none
  | some nfa => do
    let P ← Prog.load nfa
    let r ← P.matchAt junk fuel t off
    .ok (some r)

end Strpp.Rx
