import Verif.Model.Thread
/-! What the events say about which threads have ended and which were joined. -/
namespace Strpp.Th

/-- The threads that have ended, the latest first -/
def endedIn : List Event → List Nat
  | [] => []
  | .ended o :: tr => o :: endedIn tr
  | _ :: tr => endedIn tr

/-- The threads that were joined or destroyed, or returned by joinAny, the latest first -/
def reapedIn : List Event → List Nat
  | [] => []
  | .reaped o _ :: tr => o :: reapedIn tr
  | _ :: tr => reapedIn tr

/-- The Thread of a thread; threads such as the main thread have none. -/
def owner : Actor → Option Nat
  | .ext _ => none
  | .worker o => some o

/-- Nothing that makes things go wrong happens. -/
def strict : Policy := ⟨false, false, false⟩

end Strpp.Th
