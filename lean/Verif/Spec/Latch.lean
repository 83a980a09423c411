import Verif.Model.Latch
/-! What the events say about who is between `enter` and `leave`. -/
namespace Strpp.Lt

/-- Thread `a` has entered (`enter` returned, or `probe` returned true) and not called `leave` since. Latest event first. -/
def Inside (a : Nat) : List Event → Prop
  | [] => False
  | .entered b :: tr => b = a ∨ Inside a tr
  | .probed b true :: tr => b = a ∨ Inside a tr
  | .call b .leave :: tr => b ≠ a ∧ Inside a tr
  | _ :: tr => Inside a tr

/-- Thread `a` has called something that has not returned. -/
def Calling (a : Nat) : List Event → Option Call
  | [] => none
  | .call b c :: tr => if b = a then some c else Calling a tr
  | .entered b :: tr => if b = a then none else Calling a tr
  | .left b :: tr => if b = a then none else Calling a tr
  | .probed b _ :: tr => if b = a then none else Calling a tr
  | .held b _ :: tr => if b = a then none else Calling a tr
  | .aborted _ :: tr => Calling a tr

/-- No thread calls `leave` unless it is inside. -/
def Proper : List Event → Prop
  | [] => True
  | .call a .leave :: tr => Inside a tr ∧ Proper tr
  | _ :: tr => Proper tr

end Strpp.Lt
