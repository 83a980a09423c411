import Verif.Proof.ArrParTick2
import Verif.Spec.TextPar
/-! The invariant of StrVals used in several threads. -/
set_option linter.unusedSimpArgs false
set_option linter.unusedSectionVars false
set_option linter.unusedVariables false
namespace Strpp.TextPar
open Spec
open RC (Pc Job refs)
open ArrPar (Aim Releases isAdd Uses Shape)

variable {F : Type} {ap : F → Text → Text}

/-- the slice of the body shows the value -/
structure Fits (b : Text) (sh : Shape) (x : Val) : Prop where
  items : x.items = (b.drop sh.off).take sh.num
  bound : sh.off + sh.num ≤ b.length
  front : x.front = true → sh.off = 0
  whole : x.whole = true → sh.off = 0 ∧ sh.num = b.length
  zero : sh.num = 0 → b.length ≤ sh.off

theorem Fits.len {b : Text} {sh : Shape} {x : Val} (h : Fits b sh x) : x.items.length = sh.num := by
  have := h.bound
  rw [h.items, List.length_take, List.length_drop]
  omega

/-- the effect of an edit on a value -/
def Edit.apply (ap : F → Text → Text) (A : View) (x : Val) : Edit F → Val
  | .trans f => { x with items := ap f x.items }
  | .ins pos w => { x with items := splice x.items pos (A.at w).items }

/-- the edit of variable `d` with value `x` can be made -/
def Edit.Ok (A : View) (d : Nat) (x : Val) : Edit F → Prop
  | .trans _ => x.front = true ∧ x.whole = true
  | .ins pos w => w ≠ d ∧ pos ≤ x.items.length ∧ x.front = true ∧ ∃ z, A[w]? = some (some z)

theorem Edit.apply_frame {A A' : View} {x : Val} {e : Edit F} (h : ∀ w, e.addend = some w → A'[w]? = A[w]?) : e.apply ap A' x = e.apply ap A x := by
  cases e with
  | trans f => rfl
  | ins pos w => simp only [Edit.apply, View.at, h w rfl]

theorem Edit.Ok.frame {A A' : View} {d : Nat} {x : Val} {e : Edit F} (he : e.Ok A d x) (h : ∀ w, e.addend = some w → A'[w]? = A[w]?) : e.Ok A' d x := by
  cases e with
  | trans f => exact he
  | ins pos w =>
    obtain ⟨h1, h2, h3, h4⟩ := he
    exact ⟨h1, h2, h3, by rw [h w rfl]; exact h4⟩

/-- number of references -/
abbrev State.refs (s : State F) (o : Nat) : Nat := RC.refs s.vars (s.work.map (·.1)) o

def TaskOk (ap : F → Text → Text) (s : State F) (A : View) (j : Job) (d : Nat) : Task F → Prop
  | .plain => j.reads = none ∧ Releases j.pc ∧ s.vars[d]? = some none ∧ A[d]? = some none
  | .shape sh => ∃ o b x, A[d]? = some (some x) ∧ Aim s.vars d j.pc (some o) ∧ s.bodies[o]? = some b ∧ Fits b sh x
  | .unshare e => ∃ o b sh x, j.reads = none ∧ j.pc = .unshare d o ∧ A[d]? = some (some (e.apply ap A x)) ∧ e.Ok A d x ∧
      s.vars[d]? = some (some (some o)) ∧ s.shapes[d]? = some sh ∧ s.bodies[o]? = some b ∧ Fits b sh x
  | .copying e src => ∃ o b b' sh x, j.reads = none ∧ j.pc = .addRef d o ∧ A[d]? = some (some (e.apply ap A x)) ∧ e.Ok A d x ∧
      s.vars[d]? = some (some (some src)) ∧ s.shapes[d]? = some sh ∧ s.bodies[src]? = some b ∧ Fits b sh x ∧ s.bodies[o]? = some b' ∧ s.refs o = 0
  | .swap e => ∃ o b sh x, j.reads = none ∧ Aim s.vars d j.pc (some o) ∧ A[d]? = some (some (e.apply ap A x)) ∧ e.Ok A d x ∧
      s.shapes[d]? = some sh ∧ s.bodies[o]? = some b ∧ x.items = b ∧ sh.num = b.length ∧ s.refs o = if isAdd j.pc then 0 else 1
  | .write e => ∃ o b sh x, j.reads = none ∧ j.pc = .write d o ∧ A[d]? = some (some (e.apply ap A x)) ∧ e.Ok A d x ∧
      s.vars[d]? = some (some (some o)) ∧ s.shapes[d]? = some sh ∧ s.bodies[o]? = some b ∧ Fits b sh x ∧ s.refs o = 1

def VarOk (s : State F) (A : View) (v : Nat) : Prop :=
  match s.vars[v]?, A[v]? with
  | none, none => True
  | some none, some none => True
  | some (some (some o)), some (some x) => ∃ b sh, s.bodies[o]? = some b ∧ s.shapes[v]? = some sh ∧ Fits b sh x
  | _, _ => False

structure J (ap : F → Text → Text) (s : State F) (A : View) : Prop where
  rc : RC.Inv s.rc
  lenB : s.bodies.length = s.objs.length
  lenV : A.length = s.vars.length
  lenS : s.shapes.length = s.vars.length
  tasks : ∀ y ∈ s.work, ∃ d, y.1.writes = some d ∧ TaskOk ap s A y.1 d y.2
  vars : ∀ v, (∀ y ∈ s.work, y.1.writes ≠ some v) → VarOk s A v
  /-- a string that a call is inserting is not written -/
  addend : ∀ y ∈ s.work, ∀ w, y.2.addend = some w → ∀ z ∈ s.work, z.1.writes ≠ some w

/-- what a call relies on is not affected by what leaves its variable and its bodies alone -/
theorem TaskOk.frame {s s' : State F} {A A' : View} {j : Job} {d : Nat} {t : Task F} (hw : j.writes = some d) (h : TaskOk ap s A j d t)
    (hv : s'.vars[d]? = s.vars[d]?) (hA : A'[d]? = A[d]?) (hs : s'.shapes[d]? = s.shapes[d]?)
    (hA' : ∀ w, t.addend = some w → A'[w]? = A[w]?)
    (hb : ∀ o b, Uses s.vars j o → s.bodies[o]? = some b → s'.bodies[o]? = some b)
    (hr : ∀ o, Uses s.vars j o → isAdd j.pc = false → s.refs o = 1 → s'.refs o = 1)
    (hr0 : ∀ d o, j.pc = .addRef d o → j.reads = none → s.refs o = 0 → s'.refs o = 0) : TaskOk ap s' A' j d t := by
  have hvar : ∀ {o}, s.vars[d]? = some (some (some o)) → Uses s.vars j o := fun h => Or.inl ⟨d, hw, h⟩
  cases t with
  | plain =>
    simp only [TaskOk]; rw [hv, hA]; exact h
  | shape sh =>
    obtain ⟨o, b, x, h1, h2, h3, h4⟩ := h
    exact ⟨o, b, x, by rw [hA]; exact h1, h2.frame hv, hb o b (h2.uses hw) h3, h4⟩
  | unshare e =>
    obtain ⟨o, b, sh, x, h0, h1, h2, h3, h4, h5, h6, h7⟩ := h
    exact ⟨o, b, sh, x, h0, h1, by rw [hA, Edit.apply_frame hA']; exact h2, h3.frame hA', by rw [hv]; exact h4, by rw [hs]; exact h5, hb o b (hvar h4) h6, h7⟩
  | copying e src =>
    obtain ⟨o, b, b', sh, x, h0, h1, h2, h3, h4, h5, h6, h7, h8, h9⟩ := h
    exact ⟨o, b, b', sh, x, h0, h1, by rw [hA, Edit.apply_frame hA']; exact h2, h3.frame hA', by rw [hv]; exact h4, by rw [hs]; exact h5, hb src b (hvar h4) h6, h7,
      hb o b' (Or.inr (by rw [h1])) h8, hr0 d o h1 h0 h9⟩
  | swap e =>
    obtain ⟨o, b, sh, x, h0, h1, h2, h3, h4, h5, h6, h7, h8⟩ := h
    refine ⟨o, b, sh, x, h0, h1.frame hv, by rw [hA, Edit.apply_frame hA']; exact h2, h3.frame hA', by rw [hs]; exact h4, hb o b (h1.uses hw) h5, h6, h7, ?_⟩
    cases hi : isAdd j.pc with
    | false => rw [hi] at h8; exact hr o (h1.uses hw) hi h8
    | true =>
      rw [hi] at h8
      cases hp : j.pc <;> rw [hp] at hi h1 <;> first | cases hi | skip
      cases (show some o = some _ from h1)
      exact hr0 _ o hp h0 h8
  | write e =>
    obtain ⟨o, b, sh, x, h0, h1, h2, h3, h4, h5, h6, h7, h8⟩ := h
    exact ⟨o, b, sh, x, h0, h1, by rw [hA, Edit.apply_frame hA']; exact h2, h3.frame hA', by rw [hv]; exact h4, by rw [hs]; exact h5, hb o b (hvar h4) h6, h7,
      hr o (hvar h4) (by rw [h1]; rfl) h8⟩

theorem VarOk.frame {s s' : State F} {A A' : View} {v : Nat} (h : VarOk s A v)
    (hv : s'.vars[v]? = s.vars[v]?) (hA : A'[v]? = A[v]?) (hs : s'.shapes[v]? = s.shapes[v]?)
    (hb : ∀ o b, s.vars[v]? = some (some (some o)) → s.bodies[o]? = some b → s'.bodies[o]? = some b) : VarOk s' A' v := by
  unfold VarOk at *
  rw [hv, hA, hs]
  rcases hc : s.vars[v]? with _ | _ | _ | o <;> rcases hx : A[v]? with _ | _ | x <;> rw [hc, hx] at h <;> simp only at h ⊢
  obtain ⟨b, sh, h1, h2, h3⟩ := h
  exact ⟨b, sh, hb o b hc h1, h2, h3⟩

/-- A change that concerns one variable `d`: `others` are the calls that do not write it -/
theorem J.update {s : State F} {A : View} (h : J ap s A) {s' : State F} {A' : View} (d : Nat) (others : List (Job × Task F))
    (ho : ∀ y ∈ others, y ∈ s.work ∧ y.1.writes ≠ some d ∧ y.2.addend ≠ some d)
    (ho' : ∀ y ∈ s.work, y ∈ others ∨ y.1.writes = some d)
    (hw : ∀ y ∈ s'.work, y ∈ others ∨ (y.1.writes = some d ∧ TaskOk ap s' A' y.1 d y.2 ∧
      ∀ w, y.2.addend = some w → w ≠ d ∧ ∀ z ∈ others, z.1.writes ≠ some w))
    (hw' : ∀ y ∈ others, y ∈ s'.work)
    (hinv : RC.Inv s'.rc) (hB : s'.bodies.length = s'.objs.length)
    (hV : A'.length = s'.vars.length) (hS : s'.shapes.length = s'.vars.length)
    (hv : ∀ v, v ≠ d → s'.vars[v]? = s.vars[v]? ∧ A'[v]? = A[v]? ∧ s'.shapes[v]? = s.shapes[v]?)
    (hb : ∀ o b, s.bodies[o]? = some b →
      ((∃ y ∈ others, Uses s.vars y.1 o) ∨ ∃ v, v ≠ d ∧ s.vars[v]? = some (some (some o))) → s'.bodies[o]? = some b)
    (hr : ∀ y ∈ others, ∀ o, Uses s.vars y.1 o → isAdd y.1.pc = false → s.refs o = 1 → s'.refs o = 1)
    (hr0 : ∀ y ∈ others, ∀ d o, y.1.pc = .addRef d o → y.1.reads = none → s.refs o = 0 → s'.refs o = 0)
    (hd : (∃ y ∈ s'.work, y.1.writes = some d) ∨ VarOk s' A' d) : J ap s' A' := by
  refine ⟨hinv, hB, hV, hS, ?_, ?_, ?_⟩
  · intro y hy
    rcases hw y hy with hy | ⟨h1, h2, _⟩
    · obtain ⟨d', h1, h2⟩ := h.tasks y (ho y hy).1
      have hne : d' ≠ d := fun e => (ho y hy).2.1 (by rw [h1, e])
      obtain ⟨a, b, c⟩ := hv d' hne
      refine ⟨d', h1, h2.frame h1 a b c ?_ (fun o x hu hx => hb o x hx (Or.inl ⟨y, hy, hu⟩)) (hr y hy) (hr0 y hy)⟩
      intro w hwa
      exact (hv w (fun e => (ho y hy).2.2 (by rw [hwa, e]))).2.1
    · exact ⟨d, h1, h2⟩
  · intro v hn
    by_cases he : v = d
    · subst he
      rcases hd with ⟨y, hy, h1⟩ | h1
      · exact absurd h1 (hn y hy)
      · exact h1
    · obtain ⟨a, b, c⟩ := hv v he
      have hn' : ∀ y ∈ s.work, y.1.writes ≠ some v := by
        intro y hy e
        rcases ho' y hy with hy | hy
        · exact hn y (hw' y hy) e
        · rw [hy] at e; exact he (Option.some.inj e).symm
      exact VarOk.frame (h.vars v hn') a b c (fun o x hx hxb => hb o x hxb (Or.inr ⟨v, he, hx⟩))
  · intro y hy w hwa z hz hzw
    have hkey : w ≠ d ∧ ∀ z ∈ others, z.1.writes ≠ some w := by
      rcases hw y hy with hy | ⟨_, _, h3⟩
      · exact ⟨fun e => (ho y hy).2.2 (by rw [hwa, e]), fun z hz => h.addend y (ho y hy).1 w hwa z (ho z hz).1⟩
      · exact h3 w hwa
    rcases hw z hz with hz | ⟨h1, _⟩
    · exact hkey.2 z hz hzw
    · rw [h1] at hzw; exact hkey.1 (Option.some.inj hzw).symm

/-- how many more actions a call can take -/
def cost (y : Job × Task F) : Nat :=
  match y.2 with
  | .plain => RC.rank y.1.pc
  | .shape _ => RC.rank y.1.pc
  | .unshare _ => 20
  | .copying _ _ => RC.rank y.1.pc + 4
  | .swap _ => RC.rank y.1.pc + 2
  | .write _ => 1

def total (s : State F) : Nat := (s.work.map cost).sum

theorem J.live {s : State F} {A : View} (h : J ap s A) {v : Nat} (hv : Readable s v) {x : Val} (hx : A[v]? = some (some x)) :
    ∃ o b sh, s.vars[v]? = some (some (some o)) ∧ s.bodies[o]? = some b ∧ s.shapes[v]? = some sh ∧ Fits b sh x := by
  have h1 := h.vars v hv
  unfold VarOk at h1
  rw [hx] at h1
  rcases hc : s.vars[v]? with _ | _ | _ | o <;> rw [hc] at h1 <;> simp only at h1
  obtain ⟨b, sh, h2, h3, h4⟩ := h1
  exact ⟨o, b, sh, rfl, h2, h3, h4⟩

end Strpp.TextPar
