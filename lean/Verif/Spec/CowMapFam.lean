import Verif.Spec.CowMap
/-! CowMap calls on finite maps, with *families*: a copy or assignment puts a map in the family of its original; a map that
is changed leaves its family for one of its own. This code's `put` first takes the key from every map of the family. -/
namespace Strpp.CM

variable {K V : Type} [DecidableEq K]

structure Fams (K V : Type) where
  /-- the variables (`none` once destroyed), each with the number of its family and the map it shows -/
  vars : List (Option (Nat × FMap K V))
  /-- the number for the next new family -/
  next : Nat

def Fams.init : Fams K V := ⟨[], 0⟩

def Fams.fam (a : Fams K V) (v : Nat) : Option Nat := (a.vars[v]?).join.map (·.1)
def Fams.map (a : Fams K V) (v : Nat) : FMap K V := ((a.vars[v]?).join.map (·.2)).getD FMap.empty

/-- variable `v` shows `m`, in a family of its own -/
def Fams.own (a : Fams K V) (v : Nat) (m : FMap K V) : Fams K V := ⟨a.vars.set v (some (a.next, m)), a.next + 1⟩

/-- a new variable, in a family of its own -/
def Fams.new (a : Fams K V) (m : FMap K V) : Fams K V := ⟨a.vars ++ [some (a.next, m)], a.next + 1⟩

/-- every map in the family of `v` loses the key `k` -/
def Fams.loseKey (a : Fams K V) (v : Nat) (k : K) : Fams K V :=
  { a with vars := a.vars.map (Option.map fun (g, m) => if a.fam v = some g then (g, m.update k none) else (g, m)) }

def famStep (a : Fams K V) : Op K V → Fams K V
  | .default => a.new FMap.empty
  | .ofPairs es => a.new (FMap.ofPairs es)
  | .copy w => { a with vars := a.vars ++ [(a.vars[w]?).join] }
  | .assign v w => { a with vars := a.vars.set v (a.vars[w]?).join }
  | .destroy v => { a with vars := a.vars.set v none }
  | .clear v => a.own v FMap.empty
  | .insert v k x => a.own v (if (a.map v k).isSome then a.map v else (a.map v).update k (some x))
  | .remove v k => a.own v ((a.map v).update k none)
  | .put v k x => (a.loseKey v k).own v ((a.map v).update k (some x))

end Strpp.CM
