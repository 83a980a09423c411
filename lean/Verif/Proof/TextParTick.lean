import Verif.Proof.TextPar
/-! Every action of a call keeps the invariant of StrVals in several threads. -/
set_option linter.unusedSimpArgs false
set_option linter.unusedSectionVars false
set_option linter.unusedVariables false
namespace Strpp.TextPar
open Spec
open RC (Pc Job refs Step)
open ArrPar (Aim Releases isAdd Uses mem_mid mem_self holds_of_pc addRef_ref excl_owner excl_fresh steady steady0 rank_step rank_pos releases_step aim_step not_unshare)

variable {F : Type} {ap : F → Text → Text}

/-- nobody else uses body `o`: the calls in `l` and the variables other than `d` -/
def Private (s : State F) (l : List (Job × Task F)) (d o : Nat) : Prop :=
  (∀ k ∈ l, ¬ Uses s.vars k.1 o) ∧ ∀ v, v ≠ d → s.vars[v]? ≠ some (some (some o))

theorem J.inv {s : State F} {A : View} (h : J ap s A) {pre post : List (Job × Task F)} {j : Job} {t : Task F}
    (hw : s.work = pre ++ (j, t) :: post) : RC.Inv ⟨s.objs, s.vars, pre.map (·.1) ++ j :: post.map (·.1)⟩ := by
  have := h.rc
  unfold State.rc at this
  rw [hw, List.map_append, List.map_cons] at this
  exact this

theorem mem_map_mid {pre post : List (Job × Task F)} {y : Job × Task F} (h : y ∈ pre ++ post) : y.1 ∈ pre.map (·.1) ++ post.map (·.1) := by
  rw [← List.map_append]; exact List.mem_map_of_mem h

/-- one action of call `pre.length` -/
theorem J.step {s : State F} {A : View} (h : J ap s A) {pre post new : List (Job × Task F)} {j : Job} {t : Task F}
    (hw : s.work = pre ++ (j, t) :: post) {d : Nat} (hd : j.writes = some d) {s' : State F}
    (hw' : s'.work = pre ++ (new ++ post)) (hnew : ∀ y ∈ new, (y.1.writes = some d ∧ TaskOk ap s' A y.1 d y.2) ∧ (y.2.addend = none ∨ y.2.addend = t.addend))
    (hinv : RC.Inv s'.rc) (hB : s'.bodies.length = s'.objs.length)
    (hvl : s'.vars.length = s.vars.length) (hsl : s'.shapes.length = s.shapes.length)
    (hv : ∀ v, v ≠ d → s'.vars[v]? = s.vars[v]? ∧ s'.shapes[v]? = s.shapes[v]?)
    (hb : ∀ o b, s.bodies[o]? = some b → s'.bodies[o]? = some b ∨ Private s (pre ++ post) d o)
    (hrefs : ∀ o, (∀ d, j.pc ≠ .addRef d o) → j.pc ≠ .relDec o → s'.refs o = s.refs o)
    (hend : new ≠ [] ∨ VarOk s' A d) (hcost : (new.map cost).sum < cost (j, t)) : J ap s' A ∧ total s' < total s := by
  have hi := h.inv hw
  have hjm : (j, t) ∈ s.work := by rw [hw]; exact mem_self
  have hrefs0 : ∀ o, s.refs o = refs s.vars (pre.map (·.1) ++ j :: post.map (·.1)) o := by
    intro o; unfold State.refs; rw [hw, List.map_append, List.map_cons]
  refine ⟨?_, ?_⟩
  rotate_left
  · unfold total
    rw [hw', hw]
    simp only [List.map_append, List.map_cons, List.sum_append, List.sum_cons]
    omega
  refine h.update d (pre ++ post) ?_ ?_ ?_ ?_ hinv hB (by rw [hvl]; exact h.lenV) (by rw [hsl, hvl]; exact h.lenS)
    (fun v hne => ⟨(hv v hne).1, rfl, (hv v hne).2⟩) ?_ ?_ ?_ ?_
  · intro y hy
    have hy' : y ∈ s.work := by rw [hw]; exact mem_mid hy
    exact ⟨hy', ((RC.locks_mid hi.locks).2 _ (mem_map_mid hy)).1 d hd |>.1, fun e => h.addend y hy' d e (j, t) hjm hd⟩
  · intro y hy
    rw [hw] at hy
    rcases List.mem_append.1 hy with hy | hy
    · exact Or.inl (List.mem_append_left _ hy)
    · rcases List.mem_cons.1 hy with rfl | hy
      · exact Or.inr hd
      · exact Or.inl (List.mem_append_right _ hy)
  · intro y hy
    rw [hw'] at hy
    rcases List.mem_append.1 hy with hy | hy
    · exact Or.inl (List.mem_append_left _ hy)
    · rcases List.mem_append.1 hy with hy | hy
      · obtain ⟨⟨a, b⟩, c⟩ := hnew y hy
        refine Or.inr ⟨a, b, fun w hwa => ?_⟩
        rcases c with c | c
        · rw [c] at hwa; cases hwa
        · rw [c] at hwa
          refine ⟨fun e => h.addend (j, t) hjm w hwa (j, t) hjm (by rw [e]; exact hd), fun z hz => h.addend (j, t) hjm w hwa z ?_⟩
          rw [hw]; exact mem_mid hz
      · exact Or.inl (List.mem_append_right _ hy)
  · intro y hy
    rw [hw']
    rcases List.mem_append.1 hy with hy | hy
    · exact List.mem_append_left _ hy
    · exact List.mem_append_right _ (List.mem_append_right _ hy)
  · intro o b hx hu
    rcases hb o b hx with hb | ⟨p1, p2⟩
    · exact hb
    · rcases hu with ⟨y, hy, hu⟩ | ⟨v, hne, hu⟩
      · exact absurd hu (p1 y hy)
      · exact absurd hu (p2 v hne)
  · intro y hy o hu hn h1
    have h1' := h1
    rw [hrefs0] at h1'
    obtain ⟨a, b⟩ := steady hi (mem_map_mid hy) hu hn h1'
    rw [hrefs o a b]; exact h1
  · intro y hy d' o hp hrd h0
    obtain ⟨a, b⟩ := steady0 hi (mem_map_mid hy) hp hrd
    rw [hrefs o a b]; exact h0
  · rcases hend with hn | hv
    · cases new with
      | nil => exact absurd rfl hn
      | cons y l => exact Or.inl ⟨y, by rw [hw']; simp, (hnew y (List.mem_cons_self ..)).1.1⟩
    · exact Or.inr hv

theorem advance_step {s : State F} {A : View} (h : J ap s A) {pre post : List (Job × Task F)} {j : Job} {t : Task F}
    (hw : s.work = pre ++ (j, t) :: post) :
    ∃ objs' vars' r, Step s.objs s.vars j objs' vars' r ∧
      advance s pre.length = .ok (objs', vars', r.map fun pc => { j with pc := pc }) ∧
      RC.Inv ⟨objs', vars', pre.map (·.1) ++ (j.next r ++ post.map (·.1))⟩ := by
  obtain ⟨objs', vars', r, h1, h2, h3⟩ := RC.tick_step (h.inv hw)
  refine ⟨objs', vars', r, h1, ?_, h3⟩
  unfold advance
  have e : s.rc = ⟨s.objs, s.vars, pre.map (·.1) ++ j :: post.map (·.1)⟩ := by
    unfold State.rc; rw [hw, List.map_append, List.map_cons]
  rw [List.length_map] at h2
  rw [e, h2, res_bind_ok, hw]
  cases r with
  | none => simp [Job.next]
  | some pc => simp [Job.next]

theorem refs_step {s : State F} {pre post new : List (Job × Task F)} {j : Job} {t : Task F} {r : Option Pc}
    (hw : s.work = pre ++ (j, t) :: post) {objs' objs'' : List RC.Obj} {vars' : RC.Vars} {bb : List Text} {shs : List ArrPar.Shape}
    (hs : Step s.objs s.vars j objs' vars' r) (hm : new.map (·.1) = j.next r) (o : Nat) (h1 : ∀ d, j.pc ≠ .addRef d o) (h2 : j.pc ≠ .relDec o) :
    State.refs ⟨objs'', bb, vars', shs, pre ++ (new ++ post)⟩ o = s.refs o := by
  unfold State.refs
  rw [hw, List.map_append, List.map_append, List.map_append, hm, List.map_cons]
  exact hs.refs o h1 h2

theorem bodyOf_ok {s : State F} {A : View} (h : J ap s A) {o : Nat} {b : Text} (hb : s.bodies[o]? = some b)
    (hp : 0 < RC.V s.vars o + RC.P (s.work.map (·.1)) o + RC.Z (s.work.map (·.1)) o) : bodyOf s o = .ok b := by
  obtain ⟨x, h1, h2, h3, _⟩ := RC.obj_ok h.rc o hp
  unfold bodyOf
  rw [h3, res_bind_ok, hb]

theorem bodyOf_var {s : State F} {A : View} (h : J ap s A) {o d : Nat} {b : Text} (hb : s.bodies[o]? = some b)
    (hv : s.vars[d]? = some (some (some o))) : bodyOf s o = .ok b :=
  bodyOf_ok h hb (by have := RC.V_pos hv; omega)

theorem ptrOf_ok {s : State F} {d o : Nat} (hv : s.vars[d]? = some (some (some o))) : ptrOf s d = .ok o := by
  unfold ptrOf; rw [hv]

theorem shapeOf_ok {s : State F} {d : Nat} {sh : ArrPar.Shape} (hv : s.shapes[d]? = some sh) : shapeOf s d = .ok sh := by
  unfold shapeOf; rw [hv]

section
variable {s : State F} {A : View} {pre post : List (Job × Task F)} {j : Job} {d : Nat}

theorem d_lt (h : J ap s A) {t : Task F} (hw : s.work = pre ++ (j, t) :: post) (hd : j.writes = some d) : d < s.vars.length :=
  (h.inv hw).bound j mem_self d (Or.inl hd)

theorem get_work {t : Task F} (hw : s.work = pre ++ (j, t) :: post) : s.work[pre.length]? = some (j, t) := by
  rw [hw]; simp

theorem set_work {t : Task F} (hw : s.work = pre ++ (j, t) :: post) (y : Job × Task F) :
    s.work.set pre.length y = pre ++ ([y] ++ post) := by rw [hw]; exact RC.set_mid ..

theorem erase_work {t : Task F} (hw : s.work = pre ++ (j, t) :: post) :
    s.work.eraseIdx pre.length = pre ++ ([] ++ post) := by rw [hw]; exact RC.erase_mid ..

theorem step_vars (h : J ap s A) {t : Task F} (hw : s.work = pre ++ (j, t) :: post) (hd : j.writes = some d)
    {objs' : List RC.Obj} {vars' : RC.Vars} {r : Option Pc} (hs : Step s.objs s.vars j objs' vars' r) :
    ∀ v, v ≠ d → vars'[v]? = s.vars[v]? := by
  intro v hv
  refine hs.vars ((h.inv hw).jobs j mem_self) ?_
  rw [hd]; intro e; exact hv (Option.some.inj e).symm

theorem private_mid {o : Nat} (h : (∀ k ∈ pre.map (·.1) ++ post.map (·.1), ¬ Uses s.vars k o) ∧ ∀ v, v ≠ d → s.vars[v]? ≠ some (some (some o))) :
    Private s (pre ++ post) d o := ⟨fun k hk => h.1 _ (mem_map_mid hk), h.2⟩

theorem private_fresh (h : J ap s A) {t : Task F} (hw : s.work = pre ++ (j, t) :: post) {o : Nat} (ha : RC.alone j o = true) :
    Private s (pre ++ post) d o := private_mid ⟨(excl_fresh (h.inv hw) ha).1, fun v _ => (excl_fresh (h.inv hw) ha).2 v⟩

theorem refs_work {t : Task F} (hw : s.work = pre ++ (j, t) :: post) (o : Nat) :
    s.refs o = refs s.vars (pre.map (·.1) ++ j :: post.map (·.1)) o := by
  unfold State.refs; rw [hw, List.map_append, List.map_cons]

theorem private_owner (h : J ap s A) {t : Task F} (hw : s.work = pre ++ (j, t) :: post) {o : Nat} (hd : j.writes = some d)
    (hv : s.vars[d]? = some (some (some o))) (hr : s.refs o = 1) : Private s (pre ++ post) d o :=
  private_mid (excl_owner (h.inv hw) hd hv (by rw [← refs_work hw]; exact hr))

theorem refs_same {t t' : Task F} (hw : s.work = pre ++ (j, t) :: post) {bb : List Text} (o : Nat) :
    State.refs { s with bodies := bb, work := pre ++ ([(j, t')] ++ post) } o = s.refs o := by
  unfold State.refs
  rw [hw]
  simp

/-- the state after an action on the text of body `o` only -/
theorem J.store {t t' : Task F} (h : J ap s A) (hw : s.work = pre ++ (j, t) :: post) (hd : j.writes = some d) {o : Nat} {b : Text}
    (hp : Private s (pre ++ post) d o) (hadd : t'.addend = t.addend)
    (ht : TaskOk ap { s with bodies := s.bodies.set o b, work := pre ++ ([(j, t')] ++ post) } A j d t')
    (hc : cost (j, t') < cost (j, t)) :
    J ap { s with bodies := s.bodies.set o b, work := pre ++ ([(j, t')] ++ post) } A ∧ total { s with bodies := s.bodies.set o b, work := pre ++ ([(j, t')] ++ post) } < total s := by
  have hm : (pre ++ ([(j, t')] ++ post)).map (·.1) = s.work.map (·.1) := by rw [hw]; simp
  refine h.step hw hd (new := [(j, t')]) rfl ?_ ?_ (by simpa using h.lenB) rfl rfl (fun v _ => ⟨rfl, rfl⟩) ?_ (fun o _ _ => refs_same hw o) (Or.inl (by simp)) (by simpa using hc)
  · intro y hy
    rw [List.mem_singleton] at hy
    subst hy
    exact ⟨⟨hd, ht⟩, Or.inr hadd⟩
  · have := h.rc
    unfold State.rc at *
    rw [hm]; exact this
  · intro o' b' hb
    by_cases he : o' = o
    · subst he; exact Or.inr hp
    · exact Or.inl ((List.getElem?_set_ne (fun e => he e.symm)).trans hb)

theorem tick_plain (h : J ap s A) (hw : s.work = pre ++ (j, .plain) :: post) (hd : j.writes = some d)
    (ht : TaskOk ap s A j d .plain) : ∃ s', tick ap s pre.length = .ok s' ∧ J ap s' A ∧ total s' < total s := by
  obtain ⟨objs', vars', r, hs, ha, hi⟩ := advance_step h hw
  obtain ⟨h0, h1, h2, h3⟩ := ht
  have hlen : objs'.length = s.objs.length := ArrPar.Step.objs_length hs (fun d o e => by rw [e] at h1; exact h1)
  obtain ⟨hvv, hrel⟩ := releases_step hs h1
  subst hvv
  unfold tick
  rw [get_work hw]
  simp only [ha, res_bind_ok]
  cases r with
  | none =>
    simp only [Option.map_none]
    refine ⟨_, rfl, ?_⟩
    rw [erase_work hw]
    refine h.step hw hd (new := []) rfl (by simp) ?_ (by simpa [hlen] using h.lenB) rfl rfl (fun v _ => ⟨rfl, rfl⟩) (fun o b hb => Or.inl hb) ?_ (Or.inr ?_) (by simp [cost, rank_pos])
    · simpa [State.rc, Job.next] using hi
    · exact fun o a b => refs_step hw hs rfl o a b
    · unfold VarOk; simp only [h2, h3]
  | some pc =>
    simp only [Option.map_some]
    refine ⟨_, rfl, ?_⟩
    rw [set_work hw]
    refine h.step hw hd (new := [({ j with pc := pc }, .plain)]) rfl ?_ ?_ (by simpa [hlen] using h.lenB) rfl rfl (fun v _ => ⟨rfl, rfl⟩) (fun o b hb => Or.inl hb) ?_ (Or.inl (by simp)) (by simpa [cost] using rank_step hs pc rfl)
    · intro y hy
      rw [List.mem_singleton] at hy
      subst hy
      exact ⟨⟨hd, h0, hrel pc rfl, h2, h3⟩, Or.inl rfl⟩
    · simpa [State.rc, Job.next] using hi
    · exact fun o a b => refs_step hw hs rfl o a b

theorem tick_shape (h : J ap s A) {sh : ArrPar.Shape} (hw : s.work = pre ++ (j, .shape sh) :: post) (hd : j.writes = some d)
    (ht : TaskOk ap s A j d (.shape sh)) : ∃ s', tick ap s pre.length = .ok s' ∧ J ap s' A ∧ total s' < total s := by
  obtain ⟨objs', vars', r, hs, ha, hi⟩ := advance_step h hw
  have hlt := d_lt h hw hd
  have hdst : dst j = d := by unfold dst; rw [hd]; rfl
  have hvs := step_vars h hw hd hs
  obtain ⟨o, b, x, h1, h2, h3, h4⟩ := ht
  have hlen : objs'.length = s.objs.length := ArrPar.Step.objs_length hs (not_unshare h2)
  have hnext := aim_step hs ((h.inv hw).jobs j mem_self) hd hlt h2
  unfold tick
  rw [get_work hw]
  simp only [ha, res_bind_ok, hdst]
  cases r with
  | none =>
    simp only [Option.map_none]
    refine ⟨_, rfl, ?_⟩
    rw [erase_work hw]
    simp only at hnext
    refine h.step hw hd (new := []) rfl (by simp) ?_ (by simpa [hlen] using h.lenB) hs.vars_length (by simp) (fun v hne => ⟨hvs v hne, List.getElem?_set_ne (fun e => hne e.symm)⟩) (fun o b hb => Or.inl hb) ?_ (Or.inr ?_) (by simp [cost, rank_pos])
    · simpa [State.rc, Job.next] using hi
    · exact fun o a b => refs_step hw hs rfl o a b
    · unfold VarOk
      simp only [hnext, h1]
      exact ⟨b, sh, h3, List.getElem?_set_self (by rw [h.lenS]; exact hlt), h4⟩
  | some pc =>
    simp only [Option.map_some]
    refine ⟨_, rfl, ?_⟩
    rw [set_work hw]
    refine h.step hw hd (new := [({ j with pc := pc }, .shape sh)]) rfl ?_ ?_ (by simpa [hlen] using h.lenB) hs.vars_length rfl (fun v hne => ⟨hvs v hne, rfl⟩) (fun o b hb => Or.inl hb) ?_ (Or.inl (by simp)) (by simpa [cost] using rank_step hs pc rfl)
    · intro y hy
      rw [List.mem_singleton] at hy
      subst hy
      exact ⟨⟨hd, o, b, x, h1, hnext.1, h3, h4⟩, Or.inl rfl⟩
    · simpa [State.rc, Job.next] using hi
    · exact fun o a b => refs_step hw hs rfl o a b

theorem tick_unshare (h : J ap s A) {e : Edit F} (hw : s.work = pre ++ (j, .unshare e) :: post) (hd : j.writes = some d)
    (ht : TaskOk ap s A j d (.unshare e)) : ∃ s', tick ap s pre.length = .ok s' ∧ J ap s' A ∧ total s' < total s := by
  obtain ⟨objs', vars', r, hs, ha, hi⟩ := advance_step h hw
  obtain ⟨o, b, sh, x, h0, h1, h2, h2', h3, h3', h4, h5⟩ := ht
  have hdst : dst j = d := by unfold dst; rw [hd]; rfl
  obtain ⟨rd, wr, pc⟩ := j
  simp only at hd h0 h1
  subst hd h0 h1
  unfold tick
  rw [get_work hw]
  simp only [hdst]
  rw [ptrOf_ok h3, res_bind_ok, ha]
  have hcnt : ∀ y, s.objs[o]? = some y → y.count = (s.refs o : Int) := by
    intro y hy
    have := h.rc.objs o
    simp only [State.rc] at this
    rw [hy] at this
    exact this.1
  have hpos := RC.V_pos h3
  cases hs with
  | @keep d' o' y e' hy hc =>
    cases e'
    simp only [res_bind_ok, Option.map_some]
    refine ⟨_, rfl, ?_⟩
    rw [set_work hw]
    have hr1 : s.refs o = 1 := by
      have := hcnt y hy
      unfold State.refs refs at *
      omega
    have hrefs : ∀ o', State.refs { s with work := pre ++ ([(⟨none, some d, .write d o⟩, .write e)] ++ post) } o' = s.refs o' := by
      intro o'
      refine refs_step hw (.keep rfl hy hc) rfl o' (by simp) (by simp)
    refine h.step hw rfl rfl (new := [_]) ?_ ?_ h.lenB rfl rfl (fun v hv => ⟨rfl, rfl⟩) (fun o b hb => Or.inl hb) (fun o' _ _ => hrefs o') (Or.inl (by simp)) (by simp [cost])
    · intro y hy
      rw [List.mem_singleton] at hy
      subst hy
      exact ⟨⟨rfl, o, b, sh, x, rfl, rfl, h2, h2', h3, h3', h4, h5, by rw [hrefs]; exact hr1⟩, Or.inr rfl⟩
    · simpa [State.rc, Job.next] using hi
  | @fork d' o' y e' hy hc =>
    cases e'
    simp only [res_bind_ok, Option.map_some]
    refine ⟨_, rfl, ?_⟩
    rw [set_work hw]
    have hinv : RC.Inv (State.rc { s with objs := s.objs ++ [⟨0, true⟩], bodies := s.bodies ++ [[]], work := pre ++ ([(⟨none, some d, .addRef d s.objs.length⟩, .copying e o)] ++ post) }) := by
      simpa [State.rc, Job.next] using hi
    refine h.step hw rfl rfl (new := [_]) ?_ hinv (by simp [h.lenB]) rfl rfl (fun v hv => ⟨rfl, rfl⟩) (fun o b hb => Or.inl (RC.get_append hb)) ?_ (Or.inl (by simp)) ?_
    · intro y hy
      rw [List.mem_singleton] at hy
      subst hy
      refine ⟨⟨rfl, s.objs.length, b, [], sh, x, rfl, rfl, h2, h2', h3, h3', RC.get_append h4, h5, ?_, ?_⟩, Or.inr rfl⟩
      · rw [← h.lenB]; simp
      · exact RC.Inv.alone_refs hinv (k := ⟨none, some d, .addRef d s.objs.length⟩) (by simp [State.rc]) (by simp [RC.alone])
    · exact fun o' a b => refs_step hw (.fork rfl hy hc) rfl o' a b
    · simp [cost, RC.rank]
  | addRef e' => cases e'
  | chk e' => cases e'
  | storeRel e' => cases e'
  | store e' => cases e'
  | relAssert e' => cases e'
  | relLast e' => cases e'
  | relDec e' => cases e'
  | del e' => cases e'
  | write e' => cases e'

theorem copied_ok {b : Text} {sh : ArrPar.Shape} {x : Val} (h : Fits b sh x) : copied b sh = .ok x.items := by
  unfold copied
  by_cases h0 : sh.num = 0
  · rw [if_pos h0, h.items, h0, List.drop_eq_nil_of_le (h.zero h0)]; rfl
  · rw [if_neg h0]
    unfold sliceOf
    rw [if_pos h.bound, h.items]

theorem tick_copying (h : J ap s A) {e : Edit F} {src : Nat} (hw : s.work = pre ++ (j, .copying e src) :: post)
    (hd : j.writes = some d) (ht : TaskOk ap s A j d (.copying e src)) : ∃ s', tick ap s pre.length = .ok s' ∧ J ap s' A ∧ total s' < total s := by
  obtain ⟨o, b, b', sh, x, h0, h1, h2, h2', h3, h3', h4, h5, h6, h7⟩ := ht
  obtain ⟨rd', wr, pc⟩ := j
  simp only at hd h0 h1
  subst hd h0 h1
  have ha : RC.alone ⟨none, some d, .addRef d o⟩ o = true := by simp [RC.alone]
  have hpriv : Private s (pre ++ post) d o := private_fresh h hw ha
  have hZ : 0 < RC.Z (s.work.map (·.1)) o := RC.Z_pos (k := ⟨none, some d, .addRef d o⟩) (by rw [hw]; simp) ha
  have hlo := RC.lt_of_get h6
  unfold tick
  rw [get_work hw]
  simp only
  rw [bodyOf_var h h4 h3, res_bind_ok, bodyOf_ok h h6 (by omega), res_bind_ok, shapeOf_ok h3', res_bind_ok, copied_ok h5, res_bind_ok]
  refine ⟨_, rfl, ?_⟩
  rw [set_work hw]
  refine h.store hw rfl hpriv rfl ⟨o, x.items, sh, x, rfl, rfl, h2, h2', h3', List.getElem?_set_self hlo, rfl, h5.len.symm, ?_⟩ (by simp [cost])
  rw [refs_same hw]; exact h7

theorem tick_swap (h : J ap s A) {e : Edit F} (hw : s.work = pre ++ (j, .swap e) :: post)
    (hd : j.writes = some d) (ht : TaskOk ap s A j d (.swap e)) : ∃ s', tick ap s pre.length = .ok s' ∧ J ap s' A ∧ total s' < total s := by
  obtain ⟨objs', vars', r, hs, ha, hi⟩ := advance_step h hw
  obtain ⟨o, b, sh, x, h0, h2, h1, h1', hsh, h3, hx, hn, h5⟩ := ht
  have hdst : dst j = d := by unfold dst; rw [hd]; rfl
  have hlt := d_lt h hw hd
  have hlen : objs'.length = s.objs.length := ArrPar.Step.objs_length hs (not_unshare h2)
  have hnext := aim_step hs ((h.inv hw).jobs j mem_self) hd hlt h2
  have hvs := step_vars h hw hd hs
  have hnr : isAdd j.pc = false → j.pc ≠ .relDec o := by
    intro hia e'
    rw [hia] at h5
    rw [e'] at h2
    have hv := RC.V_pos h2
    have hp := RC.P_pos (jobs := s.work.map (·.1)) (k := j) (o := o) (by rw [hw]; simp) (by unfold RC.holds; rw [e']; simp)
    simp only [Bool.false_eq_true, if_false] at h5
    unfold State.refs refs at h5
    omega
  have hna : isAdd j.pc = false → ∀ d, j.pc ≠ .addRef d o := by
    intro hia d' e'; rw [e'] at hia; cases hia
  -- the number of references after the step
  have hone : ∀ (new : List (Job × Task F)) (shs : List ArrPar.Shape), new.map (·.1) = j.next r → RC.Inv ⟨objs', vars', (pre ++ (new ++ post)).map (·.1)⟩ →
      State.refs ⟨objs', s.bodies, vars', shs, pre ++ (new ++ post)⟩ o = 1 := by
    intro new shs hm hinv
    cases hia : isAdd j.pc with
    | false => rw [refs_step hw hs hm o (hna hia) (hnr hia), h5, hia]; rfl
    | true =>
      rw [hia] at h5
      cases hs with
      | @addRef d' o' y e' hy =>
        rw [e'] at h2
        cases (show some o = some o' from h2)
        have h16 := hinv.objs o
        have h17 := h.rc.objs o
        simp only [State.rc] at h16 h17
        rw [hy] at h17
        rw [List.getElem?_set_self (RC.lt_of_get hy)] at h16
        have a := h16.1
        have c := h17.1
        simp only [if_true] at h5
        unfold State.refs refs at *
        simp only at a c ⊢
        omega
      | chk e' => rw [e'] at hia; cases hia
      | storeRel e' => rw [e'] at hia; cases hia
      | store e' => rw [e'] at hia; cases hia
      | relAssert e' => rw [e'] at hia; cases hia
      | relLast e' => rw [e'] at hia; cases hia
      | relDec e' => rw [e'] at hia; cases hia
      | del e' => rw [e'] at hia; cases hia
      | keep e' => rw [e'] at hia; cases hia
      | fork e' => rw [e'] at hia; cases hia
      | write e' => rw [e'] at hia; cases hia
  unfold tick
  rw [get_work hw]
  simp only [hdst]
  rw [shapeOf_ok hsh, res_bind_ok, ha]
  cases r with
  | some pc =>
    simp only [Option.map_some, res_bind_ok]
    refine ⟨_, rfl, ?_⟩
    rw [set_work hw]
    have hinv : RC.Inv ⟨objs', vars', (pre ++ ([(({ j with pc := pc } : Job), Task.swap e)] ++ post)).map (·.1)⟩ := by
      simpa [Job.next] using hi
    refine h.step hw hd (new := [({ j with pc := pc }, .swap e)]) rfl ?_ hinv (by simpa [hlen] using h.lenB) hs.vars_length rfl (fun v hne => ⟨hvs v hne, rfl⟩) (fun o b hb => Or.inl hb) ?_ (Or.inl (by simp)) (by have := rank_step hs pc rfl; simp [cost]; omega)
    · intro y hy
      rw [List.mem_singleton] at hy
      subst hy
      refine ⟨⟨hd, o, b, sh, x, h0, hnext.1, h1, h1', hsh, h3, hx, hn, ?_⟩, Or.inr rfl⟩
      rw [hone _ _ rfl hinv]
      simp only [hnext.2.1]
      rfl
    · exact fun o a b => refs_step hw hs rfl o a b
  | none =>
    simp only [Option.map_none, res_bind_ok, hnext]
    refine ⟨_, rfl, ?_⟩
    rw [set_work hw]
    have hP : ∀ o', RC.P ((pre ++ ([((⟨none, some d, .write d o⟩ : Job), Task.write e)] ++ post)).map (·.1)) o' =
        RC.P ((pre ++ (([] : List (Job × Task F)) ++ post)).map (·.1)) o' := by
      intro o'
      have := RC.P_mid (pre.map (·.1)) (post.map (·.1)) ⟨none, some d, .write d o⟩ o'
      simpa [RC.holds] using this
    have hrefs : ∀ (shs : List ArrPar.Shape) (o' : Nat), State.refs ⟨objs', s.bodies, vars', shs, pre ++ ([((⟨none, some d, .write d o⟩ : Job), Task.write e)] ++ post)⟩ o' =
        State.refs ⟨objs', s.bodies, vars', shs, pre ++ (([] : List (Job × Task F)) ++ post)⟩ o' := by
      intro shs o'
      unfold State.refs refs
      rw [hP]
    have hi' : RC.Inv ⟨objs', vars', pre.map (·.1) ++ post.map (·.1)⟩ := by simpa [Job.next] using hi
    refine h.step hw hd (new := [_]) rfl ?_ ?_ (by simpa [hlen] using h.lenB) hs.vars_length (by simp) (fun v hne => ⟨hvs v hne, List.getElem?_set_ne (fun e => hne e.symm)⟩) (fun o b hb => Or.inl hb) ?_ (Or.inl (by simp)) (by have := rank_pos j.pc; simp only [List.map_cons, List.map_nil, List.sum_cons, List.sum_nil, cost]; omega)
    · intro y hy
      rw [List.mem_singleton] at hy
      subst hy
      refine ⟨⟨rfl, o, b, ⟨0, sh.num⟩, x, rfl, rfl, h1, h1', hnext, List.getElem?_set_self (by rw [h.lenS]; exact hlt), h3, ?_, ?_⟩, Or.inr rfl⟩
      · refine ⟨by rw [hx, hn]; simp, by rw [hn]; simp, fun _ => rfl, fun _ => ⟨rfl, hn⟩, fun h0 => ?_⟩
        simp only at h0 ⊢; omega
      · rw [hrefs]
        exact hone [] _ rfl (by simpa using hi')
    · have hput := hi'.put (j := ⟨none, some d, .write d o⟩) ⟨rfl, rfl, hnext⟩ (fun _ => rfl) (fun _ => rfl) ?_ ?_
      · simpa [State.rc] using hput
      · intro k hk
        have hc := (RC.locks_mid (h.inv hw).locks).2 k hk
        exact ⟨fun v hv => hc.1 v (by rw [hd]; exact hv), fun v hv => ⟨fun hv' => (hc.2 v hv).1 (by rw [hd]; exact hv'), by simp⟩⟩
      · intro v hv
        rw [hs.vars_length]
        rcases hv with hv | hv
        · cases hv; exact hlt
        · cases hv
    · intro o' a b
      rw [hrefs]
      exact refs_step hw hs rfl o' a b

theorem text_ok (h : J ap s A) {v : Nat} (hv : Readable s v) {x : Val} (hx : A[v]? = some (some x)) : text s v = .ok x.items := by
  obtain ⟨o, b, sh, h1, h2, h3, h4⟩ := h.live hv hx
  unfold text
  rw [ptrOf_ok h1, res_bind_ok, bodyOf_var h h2 h1, res_bind_ok, shapeOf_ok h3, res_bind_ok]
  unfold sliceOf
  rw [if_pos h4.bound, h4.items]

theorem at_eq {A : View} {v : Nat} {x : Val} (h : A[v]? = some (some x)) : A.at v = x := by
  unfold View.at; rw [h]; rfl

theorem Fits.splice {b a : Text} {sh : ArrPar.Shape} {x : Val} {pos : Nat} (h : Fits b sh x) (hf : x.front = true) (hp : pos ≤ x.items.length) :
    Fits (b.take pos ++ a ++ b.drop pos) { sh with num := sh.num + a.length } { x with items := splice x.items pos a } := by
  have hoff := h.front hf
  have hlen := h.len
  have hbd := h.bound
  have hit := h.items
  rw [hoff] at hit hbd
  rw [List.drop_zero] at hit
  obtain ⟨off, num⟩ := sh
  simp only at *
  subst hoff
  refine ⟨?_, ?_, fun _ => rfl, fun hw => ?_, fun h0 => ?_⟩
  · simp only [Spec.splice, List.drop_zero, hit]
    rw [List.take_take, Nat.min_eq_left (by omega), List.drop_take, List.append_assoc, List.append_assoc, List.take_append, List.take_append]
    have e1 : (b.take pos).length = pos := by rw [List.length_take]; omega
    have e2 : min (num + a.length) pos = pos := by omega
    have e3 : num + a.length - pos - a.length = num - pos := by omega
    rw [e1, List.take_take, e2, e3, List.take_of_length_le (l := a) (by omega)]
  · simp only [List.length_append, List.length_take, List.length_drop]; omega
  · obtain ⟨_, h2⟩ := h.whole hw
    refine ⟨rfl, ?_⟩
    simp only [List.length_append, List.length_take, List.length_drop] at *; omega
  · simp only at h0
    have := h.zero (by simp only; omega)
    simp only [List.length_append, List.length_take, List.length_drop] at *; omega

theorem run_ok (h : J ap s A) {e : Edit F} {b : Text} {sh : ArrPar.Shape} {x : Val} (hf : Fits b sh x) (he : e.Ok A d x)
    (hr : ∀ w, e.addend = some w → Readable s w) :
    ∃ b' sh', e.run ap s b sh = .ok (b', sh') ∧ Fits b' sh' (e.apply ap A x) := by
  cases e with
  | trans f =>
    refine ⟨_, _, rfl, ?_⟩
    obtain ⟨h1, h2⟩ := he
    obtain ⟨h3, h4⟩ := hf.whole h2
    have hi : x.items = b := by rw [hf.items, h3, h4]; simp
    refine ⟨?_, ?_, fun _ => h3, fun _ => ⟨h3, rfl⟩, ?_⟩
    · simp only [Edit.apply, h3, hi]; simp
    · simp only [h3]; omega
    · simp only; omega
  | ins pos w =>
    obtain ⟨h1, h2, h3, z, h4⟩ := he
    have hp : sh.off = 0 ∧ pos ≤ sh.num := ⟨hf.front h3, by rw [← hf.len]; exact h2⟩
    simp only [Edit.run, text_ok h (hr w rfl) h4, res_bind_ok, if_pos hp]
    refine ⟨_, _, rfl, ?_⟩
    simp only [Edit.apply, at_eq h4]
    exact hf.splice h3 h2

theorem tick_write (h : J ap s A) {e : Edit F} (hw : s.work = pre ++ (j, .write e) :: post)
    (hd : j.writes = some d) (ht : TaskOk ap s A j d (.write e)) : ∃ s', tick ap s pre.length = .ok s' ∧ J ap s' A ∧ total s' < total s := by
  obtain ⟨o, b, sh, x, h0, h1, h2, h2', h3, h3', h4, h5, h6⟩ := ht
  have hlt := d_lt h hw hd
  have hjm : (j, Task.write e) ∈ s.work := by rw [hw]; exact mem_self
  obtain ⟨b', sh', hrun, hfit⟩ := run_ok h h5 h2' (fun w hwa z hz => h.addend _ hjm w hwa z hz)
  obtain ⟨rd', wr, pc⟩ := j
  simp only at hd h0 h1
  subst hd h0 h1
  unfold tick
  rw [get_work hw]
  simp only
  rw [bodyOf_var h h4 h3, res_bind_ok, shapeOf_ok h3', res_bind_ok, hrun, res_bind_ok]
  obtain ⟨objs', vars', r, hs, ha, hi⟩ := advance_step h hw
  rw [ha]
  cases hs with
  | @write d' o' e' =>
    cases e'
    simp only [res_bind_ok]
    refine ⟨_, rfl, ?_⟩
    rw [erase_work hw]
    refine h.step hw rfl (new := []) rfl (by simp) ?_ (by simpa using h.lenB) rfl (by simp) (fun v hne => ⟨rfl, List.getElem?_set_ne (fun e => hne e.symm)⟩) ?_ ?_ (Or.inr ?_) (by simp [cost])
    · simpa [State.rc, Job.next] using hi
    · intro o' b'' hb
      by_cases he : o' = o
      · subst he; exact Or.inr (private_owner h hw rfl h3 h6)
      · exact Or.inl ((List.getElem?_set_ne (fun e => he e.symm)).trans hb)
    · exact fun o' a b => refs_step hw (.write rfl) rfl o' a b
    · unfold VarOk
      simp only
      rw [h3, h2]
      exact ⟨b', sh', List.getElem?_set_self (RC.lt_of_get h4), List.getElem?_set_self (by rw [h.lenS]; exact hlt), hfit⟩
  | addRef e' => cases e'
  | chk e' => cases e'
  | storeRel e' => cases e'
  | store e' => cases e'
  | relAssert e' => cases e'
  | relLast e' => cases e'
  | relDec e' => cases e'
  | del e' => cases e'
  | keep e' => cases e'
  | fork e' => cases e'

end

/-- every action of a call in progress can be made, and keeps the invariant -/
theorem tick_J {s : State F} {A : View} (h : J ap s A) (i : Nat) : ∃ s', tick ap s i = .ok s' ∧ J ap s' A ∧ (i < s.work.length → total s' < total s) := by
  cases hi : s.work[i]? with
  | none => exact ⟨s, by unfold tick; rw [hi], h, fun hlt => by rw [List.getElem?_eq_getElem hlt] at hi; cases hi⟩
  | some y =>
    obtain ⟨j, t⟩ := y
    obtain ⟨pre, post, hw, rfl⟩ := RC.split_at hi
    obtain ⟨d, hd, ht⟩ := h.tasks (j, t) (by rw [hw]; exact mem_self)
    have key : (∃ s', tick ap s pre.length = .ok s' ∧ J ap s' A ∧ total s' < total s) →
        ∃ s', tick ap s pre.length = .ok s' ∧ J ap s' A ∧ (pre.length < s.work.length → total s' < total s) := by
      intro ⟨s', h1, h2, h3⟩
      exact ⟨s', h1, h2, fun _ => h3⟩
    cases t with
    | plain => exact key (tick_plain h hw hd ht)
    | shape sh => exact key (tick_shape h hw hd ht)
    | unshare e => exact key (tick_unshare h hw hd ht)
    | copying e src => exact key (tick_copying h hw hd ht)
    | swap e => exact key (tick_swap h hw hd ht)
    | write e => exact key (tick_write h hw hd ht)

end Strpp.TextPar
