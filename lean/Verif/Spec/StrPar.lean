import Verif.Model.StrPar
import Verif.Spec.StrHistory
/-! What reading a string gives, on the plain list of its characters. -/
namespace Strpp.SP

/-- What a call should return on a string showing the text `t` -/
def expected (t : List UCS4) : Call → Val
  | .get i => .char (if i = t.length then 0#32 else if i < 0 then 0xFFFFFFFF#32 else (t[i.toNat]?).getD 0xFFFFFFFF#32)
  | .numBytes => .num (t.flatMap utf8Put).length
  | .bytes => .data (t.flatMap utf8Put)

/-- The argument of `operator[]` is an `int`. -/
def Call.Int32 : Call → Prop
  | .get i => -2147483648 ≤ i ∧ i < 2147483648
  | _ => True

/-- The characters of the body are counted: `num_chars` is their number. -/
def Counted (b : SV.SBody) : Prop := b.nc = (Spec.decodeAll b.arr.elems.dropLast).length

/-- Some thread wants to go on. -/
def Thread.busy (t : Thread) : Bool := t.dead.isNone && (!t.todo.isEmpty || t.at_ != .idle)

end Strpp.SP
