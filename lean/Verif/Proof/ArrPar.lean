import Verif.Proof.ArrParRc
import Verif.Proof.ArrParBody
import Verif.Props.RefCount
/-! The invariant of Arrays used in several threads. -/
set_option linter.unusedSimpArgs false
set_option linter.unusedSectionVars false
set_option linter.unusedVariables false
namespace Strpp.ArrPar
open Arr (Body wrap)
open Spec
open RC (Pc Job refs)

variable {E : Type} [Inhabited E]

/-- what a variable with this body and shape shows -/
def Fits (bodies : List (Body E)) (p : Option Nat) (sh : Shape) (x : Val E) : Prop :=
  match p with
  | none => sh.num = 0 ∧ x.items = [] ∧ (x.front = true → sh.off = 0)
  | some o => ∃ b, bodies[o]? = some b ∧ Shows b sh x

/-- the body that variable `d` will have when the call has finished with it -/
def Aim (vars : RC.Vars) (d : Nat) (pc : Pc) (p : Option Nat) : Prop :=
  match pc with
  | .addRef _ o => p = some o
  | .chk _ o => p = some o
  | .store _ q => p = q
  | .relAssert _ => vars[d]? = some (some p)
  | .relDec _ => vars[d]? = some (some p)
  | .del _ => vars[d]? = some (some p)
  | _ => False

def Releases (pc : Pc) : Prop :=
  match pc with
  | .relAssert _ => True
  | .relDec _ => True
  | .del _ => True
  | _ => False

def isAdd (pc : Pc) : Bool :=
  match pc with
  | .addRef _ _ => true
  | _ => false

/-- number of references -/
abbrev State.refs (s : State E) (o : Nat) : Nat := RC.refs s.vars (s.work.map (·.1)) o

def TaskOk (s : State E) (V : View E) (j : Job) (d : Nat) : Task E → Prop
  | .plain => j.reads = none ∧ Releases j.pc ∧ s.vars[d]? = some none ∧ V[d]? = some none
  | .shape sh => ∃ x p, V[d]? = some (some x) ∧ Aim s.vars d j.pc p ∧ Fits s.bodies p sh x
  | .unshare e => ∃ x o sh b, j.reads = none ∧ j.pc = .unshare d o ∧ V[d]? = some (some (e.apply x)) ∧ s.vars[d]? = some (some (some o)) ∧
      s.shapes[d]? = some sh ∧ s.bodies[o]? = some b ∧ Shows b sh x ∧ e.Ok sh b.num
  | .copying e src k => ∃ x o sh b, j.reads = none ∧ j.pc = .addRef d o ∧ V[d]? = some (some (e.apply x)) ∧ s.vars[d]? = some (some src) ∧
      s.shapes[d]? = some sh ∧ Fits s.bodies src sh x ∧ s.bodies[o]? = some b ∧ b.WF ∧ b.static = false ∧ b.num = 0 ∧
      sh.num ≤ b.mem.length ∧ sh.num ≤ 2147483647 ∧ k ≤ sh.num ∧ b.mem.take k = x.items.take k ∧ e.Ok ⟨0, sh.num⟩ sh.num ∧
      s.refs o = 0
  | .swap e => ∃ x o sh b, j.reads = none ∧ isAdd j.pc = false ∧ Aim s.vars d j.pc (some o) ∧ V[d]? = some (some (e.apply x)) ∧
      s.shapes[d]? = some sh ∧ s.bodies[o]? = some b ∧ Shows b ⟨0, sh.num⟩ x ∧ e.Ok ⟨0, sh.num⟩ b.num ∧ s.refs o = 1 ∧
      b.num = sh.num ∧ (∃ p, s.vars[d]? = some (some p))
  | .write ms n => ∃ x o sh b b', j.reads = none ∧ j.pc = .write d o ∧ V[d]? = some (some x) ∧ s.vars[d]? = some (some (some o)) ∧
      s.shapes[d]? = some sh ∧ s.bodies[o]? = some b ∧ runAll b ms = .ok b' ∧ Shows b' ⟨sh.off, n⟩ x ∧ s.refs o = 1

def VarOk (s : State E) (V : View E) (v : Nat) : Prop :=
  match s.vars[v]?, V[v]? with
  | none, none => True
  | some none, some none => True
  | some (some p), some (some x) => ∃ sh, s.shapes[v]? = some sh ∧ Fits s.bodies p sh x
  | _, _ => False

structure J (s : State E) (V : View E) : Prop where
  rc : RC.Inv s.rc
  lenB : s.bodies.length = s.objs.length
  lenS : s.shapes.length = s.vars.length
  lenV : V.length = s.vars.length
  tasks : ∀ y ∈ s.work, ∃ d, y.1.writes = some d ∧ TaskOk s V y.1 d y.2
  vars : ∀ v, (∀ y ∈ s.work, y.1.writes ≠ some v) → VarOk s V v

/-- job `k`, which writes `d`, relies on the contents of `o` -/
def Uses (vars : RC.Vars) (k : Job) (o : Nat) : Prop :=
  (∃ d, k.writes = some d ∧ vars[d]? = some (some (some o))) ∨
  (match k.pc with
   | .addRef _ x => x = o
   | .chk _ x => x = o
   | .store _ p => p = some o
   | _ => False)

theorem Fits.frame {B B' : List (Body E)} {p : Option Nat} {sh : Shape} {x : Val E} (h : Fits B p sh x)
    (hb : ∀ o b, p = some o → B[o]? = some b → B'[o]? = some b) : Fits B' p sh x := by
  cases p with
  | none => exact h
  | some o =>
    obtain ⟨b, h1, h2⟩ := h
    exact ⟨b, hb o b rfl h1, h2⟩

theorem Aim.uses {vars : RC.Vars} {j : Job} {d o : Nat} (hw : j.writes = some d) (h : Aim vars d j.pc (some o)) : Uses vars j o := by
  unfold Aim at h
  unfold Uses
  cases hp : j.pc <;> rw [hp] at h <;> simp only at h ⊢
  · exact Or.inr (Option.some.inj h).symm
  · exact Or.inr (Option.some.inj h).symm
  · exact Or.inr h.symm
  · exact Or.inl ⟨d, hw, h⟩
  · exact Or.inl ⟨d, hw, h⟩
  · exact Or.inl ⟨d, hw, h⟩

theorem Aim.frame {vars vars' : RC.Vars} {d : Nat} {pc : Pc} {p : Option Nat} (h : Aim vars d pc p) (hv : vars'[d]? = vars[d]?) :
    Aim vars' d pc p := by
  unfold Aim at *
  cases pc <;> simp only at h ⊢ <;> first | exact h | (rw [hv]; exact h)

/-- what a call relies on is not affected by what leaves its variable and its bodies alone -/
theorem TaskOk.frame {s s' : State E} {V V' : View E} {j : Job} {d : Nat} {t : Task E} (hw : j.writes = some d) (h : TaskOk s V j d t)
    (hv : s'.vars[d]? = s.vars[d]?) (hs : s'.shapes[d]? = s.shapes[d]?) (hV : V'[d]? = V[d]?)
    (hb : ∀ o b, Uses s.vars j o → s.bodies[o]? = some b → s'.bodies[o]? = some b)
    (hr : ∀ o, Uses s.vars j o → isAdd j.pc = false → s.refs o = 1 → s'.refs o = 1)
    (hr0 : ∀ o, j.pc = .addRef d o → j.reads = none → s.refs o = 0 → s'.refs o = 0) : TaskOk s' V' j d t := by
  have hvar : ∀ {o}, s.vars[d]? = some (some (some o)) → Uses s.vars j o := fun h => Or.inl ⟨d, hw, h⟩
  cases t with
  | plain => simp only [TaskOk] at *; rw [hv, hV]; exact h
  | shape sh =>
    obtain ⟨x, p, h1, h2, h3⟩ := h
    refine ⟨x, p, by rw [hV]; exact h1, h2.frame hv, h3.frame fun o b hp ho => ?_⟩
    subst hp
    exact hb o b (h2.uses hw) ho
  | unshare e =>
    obtain ⟨x, o, sh, b, h0, h1, h2, h3, h4, h5, h6, h7⟩ := h
    exact ⟨x, o, sh, b, h0, h1, by rw [hV]; exact h2, by rw [hv]; exact h3, by rw [hs]; exact h4, hb o b (hvar h3) h5, h6, h7⟩
  | copying e src k =>
    obtain ⟨x, o, sh, b, h0, h1, h2, h3, h4, h5, h6, h7, h8, h9, h10, h11, h12, h13, h14, h15⟩ := h
    refine ⟨x, o, sh, b, h0, h1, by rw [hV]; exact h2, by rw [hv]; exact h3, by rw [hs]; exact h4, h5.frame fun o' b' hp ho => ?_,
      hb o b (Or.inr ?_) h6, h7, h8, h9, h10, h11, h12, h13, h14, hr0 o h1 h0 h15⟩
    · subst hp; exact hb o' b' (hvar h3) ho
    · rw [h1]
  | swap e =>
    obtain ⟨x, o, sh, b, h0, h1, h2, h3, h4, h5, h6, h7, h8, h10, h9⟩ := h
    exact ⟨x, o, sh, b, h0, h1, h2.frame hv, by rw [hV]; exact h3, by rw [hs]; exact h4, hb o b (h2.uses hw) h5, h6, h7,
      hr o (h2.uses hw) h1 h8, h10, by rw [hv]; exact h9⟩
  | write ms n =>
    obtain ⟨x, o, sh, b, b', h0, h1, h2, h3, h4, h5, h6, h7, h8⟩ := h
    exact ⟨x, o, sh, b, b', h0, h1, by rw [hV]; exact h2, by rw [hv]; exact h3, by rw [hs]; exact h4, hb o b (hvar h3) h5, h6, h7,
      hr o (hvar h3) (by rw [h1]; rfl) h8⟩

theorem VarOk.frame {s s' : State E} {V V' : View E} {v : Nat} (h : VarOk s V v)
    (hv : s'.vars[v]? = s.vars[v]?) (hs : s'.shapes[v]? = s.shapes[v]?) (hV : V'[v]? = V[v]?)
    (hb : ∀ o b, s.vars[v]? = some (some (some o)) → s.bodies[o]? = some b → s'.bodies[o]? = some b) : VarOk s' V' v := by
  unfold VarOk at *
  rw [hv, hs, hV]
  rcases hc : s.vars[v]? with _ | _ | p <;> rcases hx : V[v]? with _ | _ | x <;> rw [hc, hx] at h <;> simp only at h ⊢
  obtain ⟨sh, h1, h2⟩ := h
  refine ⟨sh, h1, h2.frame fun o b hp ho => hb o b ?_ ho⟩
  rw [hc, hp]

/-- A change that concerns one variable `d`: `others` are the calls that do not write it -/
theorem J.update {s : State E} {V : View E} (h : J s V) {s' : State E} {V' : View E} (d : Nat) (others : List (Job × Task E))
    (ho : ∀ y ∈ others, y ∈ s.work ∧ y.1.writes ≠ some d)
    (ho' : ∀ y ∈ s.work, y ∈ others ∨ y.1.writes = some d)
    (hw : ∀ y ∈ s'.work, y ∈ others ∨ (y.1.writes = some d ∧ TaskOk s' V' y.1 d y.2))
    (hw' : ∀ y ∈ others, y ∈ s'.work)
    (hinv : RC.Inv s'.rc) (hB : s'.bodies.length = s'.objs.length) (hS : s'.shapes.length = s'.vars.length)
    (hV : V'.length = s'.vars.length)
    (hv : ∀ v, v ≠ d → s'.vars[v]? = s.vars[v]? ∧ s'.shapes[v]? = s.shapes[v]? ∧ V'[v]? = V[v]?)
    (hb : ∀ o b, s.bodies[o]? = some b →
      ((∃ y ∈ others, Uses s.vars y.1 o) ∨ ∃ v, v ≠ d ∧ s.vars[v]? = some (some (some o))) → s'.bodies[o]? = some b)
    (hr : ∀ y ∈ others, ∀ o, Uses s.vars y.1 o → isAdd y.1.pc = false → s.refs o = 1 → s'.refs o = 1)
    (hr0 : ∀ y ∈ others, ∀ d o, y.1.pc = .addRef d o → y.1.reads = none → s.refs o = 0 → s'.refs o = 0)
    (hd : (∃ y ∈ s'.work, y.1.writes = some d) ∨ VarOk s' V' d) : J s' V' := by
  refine ⟨hinv, hB, hS, hV, ?_, ?_⟩
  · intro y hy
    rcases hw y hy with hy | ⟨h1, h2⟩
    · obtain ⟨d', h1, h2⟩ := h.tasks y (ho y hy).1
      have hne : d' ≠ d := fun e => (ho y hy).2 (by rw [h1, e])
      obtain ⟨a, b, c⟩ := hv d' hne
      exact ⟨d', h1, h2.frame h1 a b c (fun o x hu hx => hb o x hx (Or.inl ⟨y, hy, hu⟩)) (hr y hy) (hr0 y hy d')⟩
    · exact ⟨d, h1, h2⟩
  · intro v hn
    by_cases he : v = d
    · subst he
      rcases hd with ⟨y, hy, h1⟩ | h1
      · exact absurd h1 (hn y hy)
      · exact h1
    · obtain ⟨a, b, c⟩ := hv v he
      refine VarOk.frame (h.vars v fun y hy e => ?_) a b c fun o x hx hxb => hb o x hxb (Or.inr ⟨v, he, hx⟩)
      rcases ho' y hy with hy | hy
      · exact hn y (hw' y hy) e
      · rw [hy] at e; exact he (Option.some.inj e).symm

/-- `num_elements` of variable `d`, and of a body -/
def numAt (s : State E) (d : Nat) : Shape := (s.shapes[d]?).getD ⟨0, 0⟩
def bodyNum (s : State E) (pc : Pc) : Nat :=
  match pc with
  | .unshare _ o => ((s.bodies[o]?).map (·.num)).getD 0
  | _ => 0

/-- what the edit costs in a body of its own -/
def editCost (n : Nat) (e : Edit E) : Nat := (micros ⟨0, n⟩ n e).length + 2

/-- how many more actions a call can take -/
def cost (s : State E) (y : Job × Task E) : Nat :=
  match y.2 with
  | .plain => RC.rank y.1.pc
  | .shape _ => RC.rank y.1.pc
  | .unshare e => (numAt s (dst y.1)).num + 7 + editCost (numAt s (dst y.1)).num e + (micros (numAt s (dst y.1)) (bodyNum s y.1.pc) e).length
  | .copying e _ k => ((numAt s (dst y.1)).num - k) + RC.rank y.1.pc + editCost (numAt s (dst y.1)).num e
  | .swap e => RC.rank y.1.pc + editCost (numAt s (dst y.1)).num e
  | .write ms _ => ms.length + 1

def total (s : State E) : Nat := (s.work.map (cost s)).sum

theorem cost_frame {s s' : State E} {y : Job × Task E} {V : View E} {d : Nat} (hd : y.1.writes = some d) (ht : TaskOk s V y.1 d y.2)
    (hs : s'.shapes[d]? = s.shapes[d]?)
    (hb : ∀ o b, Uses s.vars y.1 o → s.bodies[o]? = some b → s'.bodies[o]? = some b) : cost s' y = cost s y := by
  have hdst : dst y.1 = d := by unfold dst; rw [hd]; rfl
  have hn : numAt s' (dst y.1) = numAt s (dst y.1) := by unfold numAt; rw [hdst, hs]
  obtain ⟨j, t⟩ := y
  cases t with
  | unshare e =>
    obtain ⟨x, o, sh, b, h0, h1, h2, h3, h4, h5, h6, h7⟩ := ht
    have : bodyNum s' j.pc = bodyNum s j.pc := by
      simp only at h1 hd
      unfold bodyNum
      rw [h1]
      simp only
      rw [h5, hb o b (Or.inl ⟨d, hd, h3⟩) h5]
    simp only [cost] at *
    rw [hn, this]
  | plain => rfl
  | shape sh => rfl
  | copying e src k => simp only [cost] at *; rw [hn]
  | swap e => simp only [cost] at *; rw [hn]
  | write ms n => rfl

theorem J.live {s : State E} {V : View E} (h : J s V) {v : Nat} (hv : Readable s v) {x : Val E} (hx : V[v]? = some (some x)) :
    ∃ p sh, s.vars[v]? = some (some p) ∧ s.shapes[v]? = some sh ∧ Fits s.bodies p sh x := by
  have h1 := h.vars v hv
  unfold VarOk at h1
  rw [hx] at h1
  rcases hc : s.vars[v]? with _ | _ | p <;> rw [hc] at h1 <;> simp only at h1
  obtain ⟨sh, h2, h3⟩ := h1
  exact ⟨p, sh, rfl, h2, h3⟩

end Strpp.ArrPar
