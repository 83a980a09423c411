import Verif.Proof.ArrParTick2
import Verif.Proof.CowMap
import Verif.Spec.MapPar
/-! The invariant of CowMaps used in several threads. -/
set_option linter.unusedSimpArgs false
set_option linter.unusedSectionVars false
set_option linter.unusedVariables false
namespace Strpp.MapPar
open CM (FMap mfind minsert merase build Sorted StrictOrder)
open Spec
open RC (Pc Job refs)
open ArrPar (Aim Releases isAdd Uses)

variable {K V : Type} [DecidableEq K] {lt : K → K → Bool}

/-- the entries show the finite map -/
def Shows (lt : K → K → Bool) (m : List (K × V)) (f : FMap K V) : Prop := Sorted lt m ∧ ∀ k, mfind lt k m = f k

/-- the effect of an edit on a finite map -/
def Edit.apply (f : FMap K V) : Edit K V → FMap K V
  | .ins k x => inserted f k x
  | .del k => f.update k none

def applyAll (f : FMap K V) (es : List (Edit K V)) : FMap K V := es.foldl Edit.apply f

theorem Shows.edit (o : StrictOrder lt) {m : List (K × V)} {f : FMap K V} (h : Shows lt m f) (e : Edit K V) : Shows lt (e.run lt m) (e.apply f) := by
  cases e with
  | ins k x =>
    obtain ⟨h1, h2⟩ := CM.minsert_spec o k x m h.1
    refine ⟨h1, fun j => ?_⟩
    show mfind lt j (minsert lt k x m) = inserted f k x j
    rw [h2 j, h.2 k, h.2 j]
    unfold inserted FMap.update
    split <;> rfl
  | del k =>
    obtain ⟨h1, h2⟩ := CM.merase_spec o k m h.1
    refine ⟨h1, fun j => ?_⟩
    show mfind lt j (merase lt k m) = f.update k none j
    rw [h2 j, h.2 j]
    rfl

theorem Shows.empty : Shows lt ([] : List (K × V)) FMap.empty := ⟨List.Pairwise.nil, fun _ => rfl⟩

theorem Shows.built (o : StrictOrder lt) {m : List (K × V)} {f : FMap K V} (h : Shows lt m f) : Shows lt (build lt m) f :=
  ⟨(CM.build_spec o m).1, fun k => by rw [CM.build_sorted o m h.1 k]; exact h.2 k⟩

theorem build_step {m : List (K × V)} {k : Nat} {key : K} {x : V} (h : m[k]? = some (key, x)) :
    minsert lt key x (build lt (m.take k)) = build lt (m.take (k + 1)) := by
  rw [List.take_add_one, h]
  unfold build
  rw [List.foldl_append]
  rfl

/-- number of references -/
abbrev State.refs (s : State K V) (o : Nat) : Nat := RC.refs s.vars (s.work.map (·.1)) o

def TaskOk (lt : K → K → Bool) (s : State K V) (A : View K V) (j : Job) (d : Nat) : Task K V → Prop
  | .plain => (j.reads = none ∧ Releases j.pc ∧ s.vars[d]? = some none ∧ A[d]? = some none) ∨
      ∃ f o m, A[d]? = some (some ⟨f, false⟩) ∧ Aim s.vars d j.pc (some o) ∧ s.bodies[o]? = some m ∧ Shows lt m f
  | .fill es => ∃ f o m, j.reads = none ∧ A[d]? = some (some ⟨applyAll f es, true⟩) ∧ Aim s.vars d j.pc (some o) ∧ s.bodies[o]? = some m ∧
      Shows lt m f ∧ s.refs o = if isAdd j.pc then 0 else 1
  | .look k x => ∃ f o m, j.reads = none ∧ j.pc = .unshare d o ∧ A[d]? = some (some ⟨f.update k (some x), true⟩) ∧
      s.vars[d]? = some (some (some o)) ∧ s.bodies[o]? = some m ∧ Shows lt m f ∧ ((f k).isSome = true → s.refs o = 1)
  | .erase k x => ∃ f o m, j.reads = none ∧ j.pc = .unshare d o ∧ A[d]? = some (some ⟨f.update k (some x), true⟩) ∧
      s.vars[d]? = some (some (some o)) ∧ s.bodies[o]? = some m ∧ Shows lt m f ∧ s.refs o = 1
  | .unshare e => ∃ f o m, j.reads = none ∧ j.pc = .unshare d o ∧ A[d]? = some (some ⟨e.apply f, true⟩) ∧
      s.vars[d]? = some (some (some o)) ∧ s.bodies[o]? = some m ∧ Shows lt m f
  | .copying e src k => ∃ f o m, j.reads = none ∧ j.pc = .addRef d o ∧ A[d]? = some (some ⟨e.apply f, true⟩) ∧
      s.vars[d]? = some (some (some src)) ∧ s.bodies[src]? = some m ∧ Shows lt m f ∧ k ≤ m.length ∧ s.bodies[o]? = some (build lt (m.take k)) ∧
      s.refs o = 0
  | .write es => ∃ f o m, j.reads = none ∧ j.pc = .write d o ∧ A[d]? = some (some ⟨applyAll f es, true⟩) ∧
      s.vars[d]? = some (some (some o)) ∧ s.bodies[o]? = some m ∧ Shows lt m f ∧ s.refs o = 1

def VarOk (lt : K → K → Bool) (s : State K V) (A : View K V) (v : Nat) : Prop :=
  match s.vars[v]?, A[v]? with
  | none, none => True
  | some none, some none => True
  | some (some (some o)), some (some x) => ∃ m, s.bodies[o]? = some m ∧ Shows lt m x.items ∧ (x.sole = true → s.refs o = 1)
  | _, _ => False

structure J (lt : K → K → Bool) (s : State K V) (A : View K V) : Prop where
  rc : RC.Inv s.rc
  lenB : s.bodies.length = s.objs.length
  lenV : A.length = s.vars.length
  tasks : ∀ y ∈ s.work, ∃ d, y.1.writes = some d ∧ TaskOk lt s A y.1 d y.2
  vars : ∀ v, (∀ y ∈ s.work, y.1.writes ≠ some v) → VarOk lt s A v
  /-- a map that a call is copying from is not sole -/
  read : ∀ y ∈ s.work, ∀ v x, y.1.reads = some v → y.1.writes ≠ some v → A[v]? = some (some x) → x.sole = false

/-- what a call relies on is not affected by what leaves its variable and its bodies alone -/
theorem TaskOk.frame {s s' : State K V} {A A' : View K V} {j : Job} {d : Nat} {t : Task K V} (hw : j.writes = some d) (h : TaskOk lt s A j d t)
    (hv : s'.vars[d]? = s.vars[d]?) (hA : A'[d]? = A[d]?)
    (hb : ∀ o b, Uses s.vars j o → s.bodies[o]? = some b → s'.bodies[o]? = some b)
    (hr : ∀ o, Uses s.vars j o → isAdd j.pc = false → s.refs o = 1 → s'.refs o = 1)
    (hr0 : ∀ d o, j.pc = .addRef d o → j.reads = none → s.refs o = 0 → s'.refs o = 0) : TaskOk lt s' A' j d t := by
  have hvar : ∀ {o}, s.vars[d]? = some (some (some o)) → Uses s.vars j o := fun h => Or.inl ⟨d, hw, h⟩
  cases t with
  | plain =>
    rcases h with h | ⟨f, o, m, h1, h2, h3, h4⟩
    · exact Or.inl (by rw [hv, hA]; exact h)
    · exact Or.inr ⟨f, o, m, by rw [hA]; exact h1, h2.frame hv, hb o m (h2.uses hw) h3, h4⟩
  | fill es =>
    obtain ⟨f, o, m, h0, h1, h2, h3, h4, h5⟩ := h
    refine ⟨f, o, m, h0, by rw [hA]; exact h1, h2.frame hv, hb o m (h2.uses hw) h3, h4, ?_⟩
    cases hi : isAdd j.pc with
    | false => rw [hi] at h5; exact hr o (h2.uses hw) hi h5
    | true =>
      rw [hi] at h5
      cases hp : j.pc <;> rw [hp] at hi h2 <;> first | cases hi | skip
      cases (show some o = some _ from h2)
      exact hr0 _ o hp h0 h5
  | look k x =>
    obtain ⟨f, o, m, h0, h1, h2, h3, h4, h5, h6⟩ := h
    exact ⟨f, o, m, h0, h1, by rw [hA]; exact h2, by rw [hv]; exact h3, hb o m (hvar h3) h4, h5, fun e => hr o (hvar h3) (by rw [h1]; rfl) (h6 e)⟩
  | erase k x =>
    obtain ⟨f, o, m, h0, h1, h2, h3, h4, h5, h6⟩ := h
    exact ⟨f, o, m, h0, h1, by rw [hA]; exact h2, by rw [hv]; exact h3, hb o m (hvar h3) h4, h5, hr o (hvar h3) (by rw [h1]; rfl) h6⟩
  | unshare e =>
    obtain ⟨f, o, m, h0, h1, h2, h3, h4, h5⟩ := h
    exact ⟨f, o, m, h0, h1, by rw [hA]; exact h2, by rw [hv]; exact h3, hb o m (hvar h3) h4, h5⟩
  | copying e src k =>
    obtain ⟨f, o, m, h0, h1, h2, h3, h4, h5, h6, h7, h8⟩ := h
    exact ⟨f, o, m, h0, h1, by rw [hA]; exact h2, by rw [hv]; exact h3, hb src m (hvar h3) h4, h5, h6, hb o _ (Or.inr (by rw [h1])) h7, hr0 d o h1 h0 h8⟩
  | write es =>
    obtain ⟨f, o, m, h0, h1, h2, h3, h4, h5, h6⟩ := h
    exact ⟨f, o, m, h0, h1, by rw [hA]; exact h2, by rw [hv]; exact h3, hb o m (hvar h3) h4, h5, hr o (hvar h3) (by rw [h1]; rfl) h6⟩

theorem VarOk.frame {s s' : State K V} {A A' : View K V} {v : Nat} (h : VarOk lt s A v)
    (hv : s'.vars[v]? = s.vars[v]?) (hA : A'[v]? = A[v]?)
    (hb : ∀ o b, s.vars[v]? = some (some (some o)) → s.bodies[o]? = some b → s'.bodies[o]? = some b)
    (hr : ∀ o x, s.vars[v]? = some (some (some o)) → A[v]? = some (some x) → x.sole = true → s.refs o = 1 → s'.refs o = 1) : VarOk lt s' A' v := by
  unfold VarOk at *
  rw [hv, hA]
  rcases hc : s.vars[v]? with _ | _ | _ | o <;> rcases hx : A[v]? with _ | _ | x <;> rw [hc, hx] at h <;> simp only at h ⊢
  obtain ⟨m, h1, h2, h3⟩ := h
  exact ⟨m, hb o m hc h1, h2, fun e => hr o x hc hx e (h3 e)⟩

/-- A change that concerns one variable `d`: `others` are the calls that do not write it -/
theorem J.update {s : State K V} {A : View K V} (h : J lt s A) {s' : State K V} {A' : View K V} (d : Nat) (others : List (Job × Task K V))
    (ho : ∀ y ∈ others, y ∈ s.work ∧ y.1.writes ≠ some d ∧ (y.1.reads = some d → A'[d]? = A[d]?))
    (ho' : ∀ y ∈ s.work, y ∈ others ∨ y.1.writes = some d)
    (hw : ∀ y ∈ s'.work, y ∈ others ∨ (y.1.writes = some d ∧ TaskOk lt s' A' y.1 d y.2 ∧
      ∀ v x, y.1.reads = some v → v ≠ d → A[v]? = some (some x) → x.sole = false))
    (hw' : ∀ y ∈ others, y ∈ s'.work)
    (hinv : RC.Inv s'.rc) (hB : s'.bodies.length = s'.objs.length)
    (hV : A'.length = s'.vars.length)
    (hv : ∀ v, v ≠ d → s'.vars[v]? = s.vars[v]? ∧ A'[v]? = A[v]?)
    (hb : ∀ o b, s.bodies[o]? = some b →
      ((∃ y ∈ others, Uses s.vars y.1 o) ∨ ∃ v, v ≠ d ∧ s.vars[v]? = some (some (some o))) → s'.bodies[o]? = some b)
    (hr : ∀ y ∈ others, ∀ o, Uses s.vars y.1 o → isAdd y.1.pc = false → s.refs o = 1 → s'.refs o = 1)
    (hr0 : ∀ y ∈ others, ∀ d o, y.1.pc = .addRef d o → y.1.reads = none → s.refs o = 0 → s'.refs o = 0)
    (hrv : ∀ v o x, v ≠ d → (∀ y ∈ s.work, y.1.writes ≠ some v) → s.vars[v]? = some (some (some o)) → A[v]? = some (some x) → x.sole = true →
      s.refs o = 1 → s'.refs o = 1)
    (hd : (∃ y ∈ s'.work, y.1.writes = some d) ∨ VarOk lt s' A' d) : J lt s' A' := by
  refine ⟨hinv, hB, hV, ?_, ?_, ?_⟩
  · intro y hy
    rcases hw y hy with hy | ⟨h1, h2, _⟩
    · obtain ⟨d', h1, h2⟩ := h.tasks y (ho y hy).1
      have hne : d' ≠ d := fun e => (ho y hy).2.1 (by rw [h1, e])
      obtain ⟨a, b⟩ := hv d' hne
      exact ⟨d', h1, h2.frame h1 a b (fun o x hu hx => hb o x hx (Or.inl ⟨y, hy, hu⟩)) (hr y hy) (hr0 y hy)⟩
    · exact ⟨d, h1, h2⟩
  · intro v hn
    by_cases he : v = d
    · subst he
      rcases hd with ⟨y, hy, h1⟩ | h1
      · exact absurd h1 (hn y hy)
      · exact h1
    · obtain ⟨a, b⟩ := hv v he
      have hn' : ∀ y ∈ s.work, y.1.writes ≠ some v := by
        intro y hy e
        rcases ho' y hy with hy | hy
        · exact hn y (hw' y hy) e
        · rw [hy] at e; exact he (Option.some.inj e).symm
      exact VarOk.frame (h.vars v hn') a b (fun o x hx hxb => hb o x hxb (Or.inr ⟨v, he, hx⟩)) (fun o x => hrv v o x he hn')
  · intro y hy v x hrd hwr hx
    rcases hw y hy with hy | ⟨h1, h2, h3⟩
    · by_cases he : v = d
      · subst he
        exact h.read y (ho y hy).1 v x hrd hwr (by rw [← (ho y hy).2.2 hrd]; exact hx)
      · exact h.read y (ho y hy).1 v x hrd hwr (by rw [← (hv v he).2]; exact hx)
    · have he : v ≠ d := fun e => hwr (by rw [h1, e])
      exact h3 v x hrd he (by rw [← (hv v he).2]; exact hx)

/-- the number of entries of a body -/
def bodyLen (s : State K V) (o : Nat) : Nat := ((s.bodies[o]?).map List.length).getD 0

/-- of the body the call is going to unshare -/
def pcLen (s : State K V) (pc : Pc) : Nat :=
  match pc with
  | .unshare _ o => bodyLen s o
  | _ => 0

/-- how many more actions a call can take -/
def cost (s : State K V) (y : Job × Task K V) : Nat :=
  match y.2 with
  | .plain => RC.rank y.1.pc
  | .fill es => RC.rank y.1.pc + es.length + 2
  | .look _ _ => pcLen s y.1.pc + 22
  | .erase _ _ => pcLen s y.1.pc + 21
  | .unshare _ => pcLen s y.1.pc + 20
  | .copying _ src k => (bodyLen s src - k) + RC.rank y.1.pc + 4
  | .write es => es.length + 1

def total (s : State K V) : Nat := (s.work.map (cost s)).sum

theorem cost_frame {s s' : State K V} {y : Job × Task K V} {A : View K V} {d : Nat} (hd : y.1.writes = some d) (ht : TaskOk lt s A y.1 d y.2)
    (hb : ∀ o b, Uses s.vars y.1 o → s.bodies[o]? = some b → s'.bodies[o]? = some b) : cost s' y = cost s y := by
  obtain ⟨j, t⟩ := y
  have key : ∀ {o m}, s.vars[d]? = some (some (some o)) → s.bodies[o]? = some m → bodyLen s' o = bodyLen s o := by
    intro o m h1 h2
    unfold bodyLen
    rw [h2, hb o m (Or.inl ⟨d, hd, h1⟩) h2]
  cases t with
  | plain => rfl
  | fill es => rfl
  | write es => rfl
  | look k x =>
    obtain ⟨f, o, m, h0, h1, h2, h3, h4, h5, h6⟩ := ht
    simp only at h1
    simp only [cost, pcLen, h1, key h3 h4]
  | erase k x =>
    obtain ⟨f, o, m, h0, h1, h2, h3, h4, h5, h6⟩ := ht
    simp only at h1
    simp only [cost, pcLen, h1, key h3 h4]
  | unshare e =>
    obtain ⟨f, o, m, h0, h1, h2, h3, h4, h5⟩ := ht
    simp only at h1
    simp only [cost, pcLen, h1, key h3 h4]
  | copying e src k =>
    obtain ⟨f, o, m, h0, h1, h2, h3, h4, h5, _⟩ := ht
    simp only [cost, key h3 h4]

theorem J.live {s : State K V} {A : View K V} (h : J lt s A) {v : Nat} (hv : Readable s v) {x : Val K V} (hx : A[v]? = some (some x)) :
    ∃ o m, s.vars[v]? = some (some (some o)) ∧ s.bodies[o]? = some m ∧ Shows lt m x.items ∧ (x.sole = true → s.refs o = 1) := by
  have h1 := h.vars v hv
  unfold VarOk at h1
  rw [hx] at h1
  rcases hc : s.vars[v]? with _ | _ | _ | o <;> rw [hc] at h1 <;> simp only at h1
  obtain ⟨m, h2, h3, h4⟩ := h1
  exact ⟨o, m, rfl, h2, h3, h4⟩

end Strpp.MapPar
