import Verif.Model.StrCost
/-!
Model of how far the code walks when it appends to a string: the rounds of the loops of include/strval.h:109-177 and
249-265 (Verif/Model/StrCost.lean) in the calls of `nthChar` and `numChars` that `insert` (686-706), `operator+=` (654-661)
and what they call make. Copying bytes is not counted here.
-/
namespace Strpp.SV

open Arr

/-- include/strval.h:775-780: rounds of `Str.nth` -/
def Str.nthCost (σ : Str) (k : Nat) : Nat := if k > σ.num then 0 else nthRounds σ.b (σ.off + k) σ.mark

/-- rounds of `nthChar(i)` and then `nthChar(j)` -/
def Str.bothCost (σ : Str) (i j : Nat) : Nat :=
  σ.nthCost i + match σ.nth i with
    | .ok r => r.1.nthCost j
    | .error _ => 0

/-- include/strval.h:439-445 `asUTF8(bytes) const`: as above, but the bookmark is not kept (768-774) -/
def Str.bytesCost (σ : Str) : Nat :=
  σ.nthCost 0 + match σ.nth 0 with
    | .ok r => ({ σ with b := r.1.b } : Str).nthCost σ.num
    | .error _ => 0

/-- include/strval.h:102-106: rounds of `numChars` -/
def SBody.countCost (b : SBody) : Nat :=
  if b.nc == 0 && b.arr.num > 0 then countRounds b.arr.mem (b.arr.num - 1) (b.arr.num + 1) 0 else 0

/-- include/strval.h:807-814 `Unshare`, 793-805 `copyBody` (its third `nthChar`, 799, does not walk) -/
def unshareWalk (s : State) (v : Nat) : Nat :=
  match getVar s v, getStr s v with
  | .ok x, .ok σ =>
    match mustCopyStatic σ, σ.b.count with
    | .ok m, .ok b =>
      (if σ.b.isStatic then σ.b.countCost else 0) +
      if m || decide (refCount s x.body > 1) then
        ({ σ with b := if σ.b.isStatic then b else σ.b } : Str).bothCost 0 σ.num
      else 0
    | _, _ => 0
  | _, _ => 0

/-- include/strval.h:686-706 `insert` -/
def insertWalk (s : State) (v pos w : Nat) : Nat :=
  match getVar s v, getVar s w with
  | .ok x, .ok y =>
    if pos == x.num && x.body == y.body && x.off + pos == y.off then 0
    else
      unshareWalk s v +
      match unshare s v with
      | .ok s1 =>
        match getStr s1 v, getStr s1 w with
        | .ok σ, .ok τ => τ.bytesCost + σ.bothCost pos 0
        | _, _ => 0
      | .error _ => 0
  | _, _ => 0

/-- include/strval.h:654-661 `operator+=` -/
def addEqWalk (s : State) (v w : Nat) : Nat :=
  match getVar s v, getVar s w with
  | .ok x, .ok y =>
    match getBody s y.body with
    | .ok b => if x.num == 0 && !b.isStatic then 0 else insertWalk s v x.num w
    | .error _ => 0
  | _, _ => 0

/-- `v += w`, `n` times -/
def repeatWalk (v w : Nat) : Nat → State → Nat
  | 0, _ => 0
  | n + 1, s => addEqWalk s v w + match addEq s v w with
    | .ok s' => repeatWalk v w n s'
    | .error _ => 0

/-- include/strval.h:675-684 `operator*` -/
def timesWalk (s : State) (v : Nat) (repeats : Int) : Nat :=
  match getVar s v, getStr s v with
  | .ok x, .ok σ =>
    σ.bothCost 0 x.num +
    match (σ.nth 0 >>= fun r => r.1.nth x.num) with
    | .ok r => repeatWalk s.vars.length v repeats.toNat (newEmpty (setVar s v { x with mark := r.1.mark }))
    | .error _ => 0
  | _, _ => 0

end Strpp.SV
