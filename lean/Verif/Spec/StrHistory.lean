import Verif.Model.StrVal
import Verif.Spec.Utf8
import Verif.Spec.StrVal
import Verif.Spec.CharClass
import Verif.Proof.ArrayBody
import Verif.Proof.Utf8Seq
/-! What a history of calls on StrVal variables should show, in terms of plain lists of characters; and the states in which
the code is right (its bugs make it wrong in others, see Props/StrVal.lean). -/
namespace Strpp.SV

open Spec

/-- The text variable `v` shows: the characters of its slice of its body's bytes (the last byte of a body is its NUL). -/
def view (s : State) (v : Nat) : Option (List UCS4) :=
  match s.vars[v]? with
  | some (some x) =>
    match s.bodies[x.body]? with
    | some b => some (((decodeAll b.arr.elems.dropLast).drop x.off).take x.num)
    | none => none
  | _ => none

/-- there is room for `n` more bytes in any string: 1 GiB is the most the code handles (see DESIGN.md) -/
def Roomy (s : State) (n : Nat) : Prop := ∀ b ∈ s.bodies, b.arr.num + n ≤ 1073741824

/-- what `insert` needs of its string: not a slice that does not begin its unshared body -/
def AtFront (s : State) (v : Nat) : Prop := ∀ (x : Var), s.vars[v]? = some (some x) → x.off = 0 ∨ refCount s x.body > 1

/-- what `insert` at `pos` further needs: no valid bookmark after `pos` -/
def MarkBefore (s : State) (v pos : Nat) : Prop :=
  ∀ (x : Var), s.vars[v]? = some (some x) → x.mark.cn ≤ x.off + pos ∨ 3221225472 ≤ x.mark.cn

/-- what `transform` needs: a shared body, or one that is shown whole -/
def Whole (s : State) (v : Nat) : Prop :=
  ∀ (x : Var) (b : SBody), s.vars[v]? = some (some x) → s.bodies[x.body]? = some b →
    refCount s x.body > 1 ∨ (x.off = 0 ∧ (decodeAll b.arr.elems.dropLast).length = x.num)

/-- what `toLower`, `toUpper` need: no bookmark, or every character keeps its size -/
def MarkFits (s : State) (v : Nat) (t t' : List UCS4) : Prop :=
  (∀ (x : Var), s.vars[v]? = some (some x) → x.mark.cn = 0) ∨
  ∀ i ≤ t.length, (encodeAll (t'.take i)).length = (encodeAll (t.take i)).length

/-- the text of variable `v`, for sizes -/
def text (m : Nat → Option (List UCS4)) (v : Nat) : List UCS4 := (m v).getD []

/-- `substr` on characters: -1 means to the end -/
def sub (t : List UCS4) (at_ : Nat) (len : Int) : List UCS4 :=
  if len < -1 then [] else if len = -1 then t.drop at_ else (t.drop at_).take len.toNat

/-- `t` repeated -/
def rep (t : List UCS4) (n : Nat) : List UCS4 := (List.replicate n t).flatten

/-- the texts joined, each after the first following a delimiter -/
def joined (d : List UCS4) : List (List UCS4) → List UCS4
  | [] => []
  | t :: ts => t ++ (ts.map (d ++ ·)).flatten

/-- `a` inserted in `t` at `pos` -/
def splice (t : List UCS4) (pos : Nat) (a : List UCS4) : List UCS4 := t.take pos ++ a ++ t.drop pos

/-- what the closure of a transformation means on characters (see `Behaves`) -/
abbrev Meaning (S : Type) := XForm S → S → List UCS4 → S × List UCS4 × Nat

/-- The effect of a call on plain values: `m` gives the texts of the variables, `n` is the next new variable. The one
variable that changes, and its text afterwards (`none`: destroyed). -/
def effect {S : Type} (F : Meaning S) (m : Nat → Option (List UCS4)) (n : Nat) : Op S → Nat × Option (List UCS4)
  | .default => (n, some [])
  | .ofC mem => (n, some (decodeAll (mem.takeWhile (· != 0#8))))
  | .ofData mem length _ => (n, some (decodeAll (mem.take length)))
  | .ofChar c => (n, some [c])
  | .ofStatic data => (n, some (decodeAll data.dropLast))
  | .copy w => (n, m w)
  | .assign v w => (v, m w)
  | .destroy v => (v, none)
  | .substr w at_ len => (n, some (sub (text m w) at_ len))
  | .head w k => (n, some ((text m w).take k))
  | .tail w k => (n, some ((text m w).drop ((text m w).length - k)))
  | .shorter w k => (n, some ((text m w).take ((text m w).length - k)))
  | .plus v w => (n, some (text m v ++ text m w))
  | .addEq v w => (v, some (text m v ++ text m w))
  | .addEqChar v c => (v, some (text m v ++ [c]))
  | .insert v pos w => (v, some (splice (text m v) pos (text m w)))
  | .times v k => (n, some (rep (text m v) k.toNat))
  | .asUTF8 v => (v, m v)
  | .toLower v _ => (v, some ((text m v).map (convert unicodeToLower)))
  | .toUpper v _ => (v, some ((text m v).map (convert unicodeToUpper)))
  | .transform v x st after => (v, some (transformAfter (F x) st (after + 1).toNat (text m v)))
  | .join _ [] => (n, some [])
  | .join j ws => (n + 1, some (joined (text m j) (ws.map (text m))))

/-- how many variables a call makes, with its temporaries (which end destroyed) -/
def grow {S : Type} : Op S → Nat
  | .assign _ _ | .destroy _ | .addEq _ _ | .insert _ _ _ | .asUTF8 _ | .toLower _ _ | .toUpper _ _ | .transform _ _ _ _ => 0
  | .join _ (_ :: ws) => 2 + ws.length
  | _ => 1

/-- The texts after a history of calls on plain values, from `n` variables with texts `m`. -/
def plain {S : Type} (F : Meaning S) (m : Nat → Option (List UCS4)) (n : Nat) : List (Op S) → Nat → Option (List UCS4)
  | [] => m
  | op :: ops => plain F (fun v => if v = (effect F m n op).1 then (effect F m n op).2 else m v) (n + grow op) ops

end Strpp.SV
