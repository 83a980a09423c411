import Verif.Proof.MapPar
/-! Every action of a call keeps the invariant of CowMaps in several threads. -/
set_option linter.unusedSimpArgs false
set_option linter.unusedSectionVars false
set_option linter.unusedVariables false
namespace Strpp.MapPar
open CM (FMap mfind minsert merase build Sorted StrictOrder)
open Spec
open RC (Pc Job refs Step)
open ArrPar (Aim Releases isAdd Uses mem_mid mem_self holds_of_pc addRef_ref excl_owner excl_fresh steady steady0 rank_step rank_pos releases_step aim_step not_unshare)

variable {K V : Type} [DecidableEq K] {lt : K → K → Bool}

/-- nobody else uses body `o`: the calls in `l` and the variables other than `d` -/
def Private (s : State K V) (l : List (Job × Task K V)) (d o : Nat) : Prop :=
  (∀ k ∈ l, ¬ Uses s.vars k.1 o) ∧ ∀ v, v ≠ d → s.vars[v]? ≠ some (some (some o))

theorem J.inv {s : State K V} {A : View K V} (h : J lt s A) {pre post : List (Job × Task K V)} {j : Job} {t : Task K V}
    (hw : s.work = pre ++ (j, t) :: post) : RC.Inv ⟨s.objs, s.vars, pre.map (·.1) ++ j :: post.map (·.1)⟩ := by
  have := h.rc
  unfold State.rc at this
  rw [hw, List.map_append, List.map_cons] at this
  exact this

theorem mem_map_mid {pre post : List (Job × Task K V)} {y : Job × Task K V} (h : y ∈ pre ++ post) : y.1 ∈ pre.map (·.1) ++ post.map (·.1) := by
  rw [← List.map_append]; exact List.mem_map_of_mem h

/-- one action of call `pre.length` -/
theorem J.step {s : State K V} {A : View K V} (h : J lt s A) {pre post new : List (Job × Task K V)} {j : Job} {t : Task K V}
    (hw : s.work = pre ++ (j, t) :: post) {d : Nat} (hd : j.writes = some d) {s' : State K V}
    (hw' : s'.work = pre ++ (new ++ post)) (hnew : ∀ y ∈ new, (y.1.writes = some d ∧ TaskOk lt s' A y.1 d y.2) ∧ (y.1.reads = none ∨ y.1.reads = j.reads))
    (hinv : RC.Inv s'.rc) (hB : s'.bodies.length = s'.objs.length)
    (hvl : s'.vars.length = s.vars.length)
    (hv : ∀ v, v ≠ d → s'.vars[v]? = s.vars[v]?)
    (hb : ∀ o b, s.bodies[o]? = some b → s'.bodies[o]? = some b ∨ Private s (pre ++ post) d o)
    (hrefs : ∀ o, (∀ d, j.pc ≠ .addRef d o) → j.pc ≠ .relDec o → s'.refs o = s.refs o)
    (hend : new ≠ [] ∨ VarOk lt s' A d) (hcost : (new.map (cost s')).sum < cost s (j, t)) : J lt s' A ∧ total s' < total s := by
  have hi := h.inv hw
  have hrefs0 : ∀ o, s.refs o = refs s.vars (pre.map (·.1) ++ j :: post.map (·.1)) o := by
    intro o; unfold State.refs; rw [hw, List.map_append, List.map_cons]
  refine ⟨?_, ?_⟩
  rotate_left
  · have hsame : ∀ y ∈ pre ++ post, cost s' y = cost s y := by
      intro y hy
      have hc := ((RC.locks_mid hi.locks).2 _ (mem_map_mid hy)).1 d hd |>.1
      obtain ⟨d', h1, h2⟩ := h.tasks y (by rw [hw]; exact mem_mid hy)
      have hne : d' ≠ d := fun e => hc (by rw [h1, e])
      refine cost_frame h1 h2 fun o b hu hx => ?_
      rcases hb o b hx with hb | ⟨p1, _⟩
      · exact hb
      · exact absurd hu (p1 y hy)
    have e1 : pre.map (cost s') = pre.map (cost s) := List.map_congr_left fun y hy => hsame y (List.mem_append_left _ hy)
    have e2 : post.map (cost s') = post.map (cost s) := List.map_congr_left fun y hy => hsame y (List.mem_append_right _ hy)
    unfold total
    rw [hw', hw]
    simp only [List.map_append, List.map_cons, List.sum_append, List.sum_cons, e1, e2]
    omega
  refine h.update d (pre ++ post) ?_ ?_ ?_ ?_ hinv hB (by rw [hvl]; exact h.lenV)
    (fun v hne => ⟨hv v hne, rfl⟩) ?_ ?_ ?_ ?_ ?_
  · intro y hy
    exact ⟨by rw [hw]; exact mem_mid hy, ((RC.locks_mid hi.locks).2 _ (mem_map_mid hy)).1 d hd |>.1, fun _ => rfl⟩
  · intro y hy
    rw [hw] at hy
    rcases List.mem_append.1 hy with hy | hy
    · exact Or.inl (List.mem_append_left _ hy)
    · rcases List.mem_cons.1 hy with rfl | hy
      · exact Or.inr hd
      · exact Or.inl (List.mem_append_right _ hy)
  · intro y hy
    rw [hw'] at hy
    rcases List.mem_append.1 hy with hy | hy
    · exact Or.inl (List.mem_append_left _ hy)
    · rcases List.mem_append.1 hy with hy | hy
      · obtain ⟨⟨a, b⟩, c⟩ := hnew y hy
        refine Or.inr ⟨a, b, fun v x hrd hne hx => ?_⟩
        rcases c with c | c
        · rw [c] at hrd; cases hrd
        · exact h.read (j, t) (by rw [hw]; exact mem_self) v x (by rw [← c]; exact hrd) (by rw [hd]; intro e; exact hne (Option.some.inj e).symm) hx
      · exact Or.inl (List.mem_append_right _ hy)
  · intro y hy
    rw [hw']
    rcases List.mem_append.1 hy with hy | hy
    · exact List.mem_append_left _ hy
    · exact List.mem_append_right _ (List.mem_append_right _ hy)
  · intro o b hx hu
    rcases hb o b hx with hb | ⟨p1, p2⟩
    · exact hb
    · rcases hu with ⟨y, hy, hu⟩ | ⟨v, hne, hu⟩
      · exact absurd hu (p1 y hy)
      · exact absurd hu (p2 v hne)
  · intro y hy o hu hn h1
    have h1' := h1
    rw [hrefs0] at h1'
    obtain ⟨a, b⟩ := steady hi (mem_map_mid hy) hu hn h1'
    rw [hrefs o a b]; exact h1
  · intro y hy d' o hp hrd h0
    obtain ⟨a, b⟩ := steady0 hi (mem_map_mid hy) hp hrd
    rw [hrefs o a b]; exact h0
  · intro v o x hne hn hvo hx hsole h1
    have h1' := h1
    rw [hrefs0] at h1'
    have hV := RC.V_pos hvo
    rw [hrefs o ?_ ?_]
    · exact h1
    · intro d' hp
      rcases addRef_ref hi mem_self hp with ha | ⟨src, g1, g2⟩
      · have := hi.alone_refs mem_self ha
        simp only at this
        omega
      · by_cases he : src = v
        · subst he
          have := h.read (j, t) (by rw [hw]; exact mem_self) src x g1 (by rw [hd]; intro e; exact hne (Option.some.inj e).symm) hx
          rw [this] at hsole; cases hsole
        · have := RC.V_two hvo g2 (fun e => he e.symm)
          unfold refs at h1'
          omega
    · intro hp
      have hh : RC.holds j o = true := by unfold RC.holds; rw [hp]; simp
      have := RC.P_pos (mem_self (pre := pre.map (·.1)) (post := post.map (·.1)) (j := j)) hh
      unfold refs at h1'
      omega
  · rcases hend with hn | hv
    · cases new with
      | nil => exact absurd rfl hn
      | cons y l => exact Or.inl ⟨y, by rw [hw']; simp, (hnew y (List.mem_cons_self ..)).1.1⟩
    · exact Or.inr hv

theorem advance_step {s : State K V} {A : View K V} (h : J lt s A) {pre post : List (Job × Task K V)} {j : Job} {t : Task K V}
    (hw : s.work = pre ++ (j, t) :: post) :
    ∃ objs' vars' r, Step s.objs s.vars j objs' vars' r ∧
      advance s pre.length = .ok (objs', vars', r.map fun pc => { j with pc := pc }) ∧
      RC.Inv ⟨objs', vars', pre.map (·.1) ++ (j.next r ++ post.map (·.1))⟩ := by
  obtain ⟨objs', vars', r, h1, h2, h3⟩ := RC.tick_step (h.inv hw)
  refine ⟨objs', vars', r, h1, ?_, h3⟩
  unfold advance
  have e : s.rc = ⟨s.objs, s.vars, pre.map (·.1) ++ j :: post.map (·.1)⟩ := by
    unfold State.rc; rw [hw, List.map_append, List.map_cons]
  rw [List.length_map] at h2
  rw [e, h2, res_bind_ok, hw]
  cases r with
  | none => simp [Job.next]
  | some pc => simp [Job.next]

theorem refs_step {s : State K V} {pre post new : List (Job × Task K V)} {j : Job} {t : Task K V} {r : Option Pc}
    (hw : s.work = pre ++ (j, t) :: post) {objs' objs'' : List RC.Obj} {vars' : RC.Vars} {bb : List (List (K × V))}
    (hs : Step s.objs s.vars j objs' vars' r) (hm : new.map (·.1) = j.next r) (o : Nat) (h1 : ∀ d, j.pc ≠ .addRef d o) (h2 : j.pc ≠ .relDec o) :
    State.refs ⟨objs'', bb, vars', pre ++ (new ++ post)⟩ o = s.refs o := by
  unfold State.refs
  rw [hw, List.map_append, List.map_append, List.map_append, hm, List.map_cons]
  exact hs.refs o h1 h2

theorem bodyOf_ok {s : State K V} {A : View K V} (h : J lt s A) {o : Nat} {b : List (K × V)} (hb : s.bodies[o]? = some b)
    (hp : 0 < RC.V s.vars o + RC.P (s.work.map (·.1)) o + RC.Z (s.work.map (·.1)) o) : bodyOf s o = .ok b := by
  obtain ⟨x, h1, h2, h3, _⟩ := RC.obj_ok h.rc o hp
  unfold bodyOf
  rw [h3, res_bind_ok, hb]

theorem bodyOf_var {s : State K V} {A : View K V} (h : J lt s A) {o d : Nat} {b : List (K × V)} (hb : s.bodies[o]? = some b)
    (hv : s.vars[d]? = some (some (some o))) : bodyOf s o = .ok b :=
  bodyOf_ok h hb (by have := RC.V_pos hv; omega)

theorem ptrOf_ok {s : State K V} {d o : Nat} (hv : s.vars[d]? = some (some (some o))) : ptrOf s d = .ok o := by
  unfold ptrOf; rw [hv]

section
variable {s : State K V} {A : View K V} {pre post : List (Job × Task K V)} {j : Job} {d : Nat}

theorem d_lt (h : J lt s A) {t : Task K V} (hw : s.work = pre ++ (j, t) :: post) (hd : j.writes = some d) : d < s.vars.length :=
  (h.inv hw).bound j mem_self d (Or.inl hd)

theorem get_work {t : Task K V} (hw : s.work = pre ++ (j, t) :: post) : s.work[pre.length]? = some (j, t) := by
  rw [hw]; simp

theorem set_work {t : Task K V} (hw : s.work = pre ++ (j, t) :: post) (y : Job × Task K V) :
    s.work.set pre.length y = pre ++ ([y] ++ post) := by rw [hw]; exact RC.set_mid ..

theorem erase_work {t : Task K V} (hw : s.work = pre ++ (j, t) :: post) :
    s.work.eraseIdx pre.length = pre ++ ([] ++ post) := by rw [hw]; exact RC.erase_mid ..

theorem step_vars (h : J lt s A) {t : Task K V} (hw : s.work = pre ++ (j, t) :: post) (hd : j.writes = some d)
    {objs' : List RC.Obj} {vars' : RC.Vars} {r : Option Pc} (hs : Step s.objs s.vars j objs' vars' r) :
    ∀ v, v ≠ d → vars'[v]? = s.vars[v]? := by
  intro v hv
  refine hs.vars ((h.inv hw).jobs j mem_self) ?_
  rw [hd]; intro e; exact hv (Option.some.inj e).symm

theorem private_mid {o : Nat} (h : (∀ k ∈ pre.map (·.1) ++ post.map (·.1), ¬ Uses s.vars k o) ∧ ∀ v, v ≠ d → s.vars[v]? ≠ some (some (some o))) :
    Private s (pre ++ post) d o := ⟨fun k hk => h.1 _ (mem_map_mid hk), h.2⟩

theorem private_fresh (h : J lt s A) {t : Task K V} (hw : s.work = pre ++ (j, t) :: post) {o : Nat} (ha : RC.alone j o = true) :
    Private s (pre ++ post) d o := private_mid ⟨(excl_fresh (h.inv hw) ha).1, fun v _ => (excl_fresh (h.inv hw) ha).2 v⟩

theorem refs_work {t : Task K V} (hw : s.work = pre ++ (j, t) :: post) (o : Nat) :
    s.refs o = refs s.vars (pre.map (·.1) ++ j :: post.map (·.1)) o := by
  unfold State.refs; rw [hw, List.map_append, List.map_cons]

theorem private_owner (h : J lt s A) {t : Task K V} (hw : s.work = pre ++ (j, t) :: post) {o : Nat} (hd : j.writes = some d)
    (hv : s.vars[d]? = some (some (some o))) (hr : s.refs o = 1) : Private s (pre ++ post) d o :=
  private_mid (excl_owner (h.inv hw) hd hv (by rw [← refs_work hw]; exact hr))

theorem refs_same {t t' : Task K V} (hw : s.work = pre ++ (j, t) :: post) {bb : List (List (K × V))} (o : Nat) :
    State.refs { s with bodies := bb, work := pre ++ ([(j, t')] ++ post) } o = s.refs o := by
  unfold State.refs
  rw [hw]
  simp

/-- the state after an action on the entries of body `o` only -/
theorem J.store {t t' : Task K V} (h : J lt s A) (hw : s.work = pre ++ (j, t) :: post) (hd : j.writes = some d) {o : Nat} {b : List (K × V)}
    (hp : Private s (pre ++ post) d o)
    (ht : TaskOk lt { s with bodies := s.bodies.set o b, work := pre ++ ([(j, t')] ++ post) } A j d t')
    (hc : cost { s with bodies := s.bodies.set o b, work := pre ++ ([(j, t')] ++ post) } (j, t') < cost s (j, t)) :
    J lt { s with bodies := s.bodies.set o b, work := pre ++ ([(j, t')] ++ post) } A ∧ total { s with bodies := s.bodies.set o b, work := pre ++ ([(j, t')] ++ post) } < total s := by
  have hm : (pre ++ ([(j, t')] ++ post)).map (·.1) = s.work.map (·.1) := by rw [hw]; simp
  refine h.step hw hd (new := [(j, t')]) rfl ?_ ?_ (by simpa using h.lenB) rfl (fun v _ => rfl) ?_ (fun o _ _ => refs_same hw o) (Or.inl (by simp)) (by simpa using hc)
  · intro y hy
    rw [List.mem_singleton] at hy
    subst hy
    exact ⟨⟨hd, ht⟩, Or.inr rfl⟩
  · have := h.rc
    unfold State.rc at *
    rw [hm]; exact this
  · intro o' b' hb
    by_cases he : o' = o
    · subst he; exact Or.inr hp
    · exact Or.inl ((List.getElem?_set_ne (fun e => he e.symm)).trans hb)

/-- the state after an action that changes nothing but what the call is to do next -/
theorem J.think {t t' : Task K V} (h : J lt s A) (hw : s.work = pre ++ (j, t) :: post) (hd : j.writes = some d)
    (ht : TaskOk lt { s with work := pre ++ ([(j, t')] ++ post) } A j d t')
    (hc : cost { s with work := pre ++ ([(j, t')] ++ post) } (j, t') < cost s (j, t)) :
    J lt { s with work := pre ++ ([(j, t')] ++ post) } A ∧ total { s with work := pre ++ ([(j, t')] ++ post) } < total s := by
  have hm : (pre ++ ([(j, t')] ++ post)).map (·.1) = s.work.map (·.1) := by rw [hw]; simp
  refine h.step hw hd (new := [(j, t')]) rfl ?_ ?_ (by simpa using h.lenB) rfl (fun v _ => rfl) (fun o b hb => Or.inl hb) (fun o _ _ => refs_same hw o) (Or.inl (by simp)) (by simpa using hc)
  · intro y hy
    rw [List.mem_singleton] at hy
    subst hy
    exact ⟨⟨hd, ht⟩, Or.inr rfl⟩
  · have := h.rc
    unfold State.rc at *
    rw [hm]; exact this

theorem tick_plain (h : J lt s A) (hw : s.work = pre ++ (j, .plain) :: post) (hd : j.writes = some d)
    (ht : TaskOk lt s A j d .plain) : ∃ s', tick lt s pre.length = .ok s' ∧ J lt s' A ∧ total s' < total s := by
  obtain ⟨objs', vars', r, hs, ha, hi⟩ := advance_step h hw
  have hlt := d_lt h hw hd
  have hvs := step_vars h hw hd hs
  have hlen : objs'.length = s.objs.length := by
    rcases ht with ⟨_, h1, _⟩ | ⟨f, o, m, _, h1, _⟩
    · exact ArrPar.Step.objs_length hs (fun d o e => by rw [e] at h1; exact h1)
    · exact ArrPar.Step.objs_length hs (not_unshare h1)
  unfold tick
  rw [get_work hw]
  simp only [ha, res_bind_ok]
  cases r with
  | none =>
    simp only [Option.map_none]
    refine ⟨_, rfl, ?_⟩
    rw [erase_work hw]
    refine h.step hw hd (new := []) rfl (by simp) ?_ (by simpa [hlen] using h.lenB) hs.vars_length hvs (fun o b hb => Or.inl hb) ?_ (Or.inr ?_) (by simp [cost, rank_pos])
    · simpa [State.rc, Job.next] using hi
    · exact fun o a b => refs_step hw hs rfl o a b
    · rcases ht with ⟨_, h1, h2, h3⟩ | ⟨f, o, m, h1, h2, h3, h4⟩
      · obtain ⟨hvv, _⟩ := releases_step hs h1
        subst hvv
        unfold VarOk; simp only [h2, h3]
      · have hnext := aim_step hs ((h.inv hw).jobs j mem_self) hd hlt h2
        simp only at hnext
        unfold VarOk
        simp only [hnext, h1]
        exact ⟨m, h3, h4, fun e => by cases e⟩
  | some pc =>
    simp only [Option.map_some]
    refine ⟨_, rfl, ?_⟩
    rw [set_work hw]
    refine h.step hw hd (new := [({ j with pc := pc }, .plain)]) rfl ?_ ?_ (by simpa [hlen] using h.lenB) hs.vars_length hvs (fun o b hb => Or.inl hb) ?_ (Or.inl (by simp)) (by simpa [cost] using rank_step hs pc rfl)
    · intro y hy
      rw [List.mem_singleton] at hy
      subst hy
      refine ⟨⟨hd, ?_⟩, Or.inr rfl⟩
      rcases ht with ⟨h0, h1, h2, h3⟩ | ⟨f, o, m, h1, h2, h3, h4⟩
      · obtain ⟨hvv, hrel⟩ := releases_step hs h1
        subst hvv
        exact Or.inl ⟨h0, hrel pc rfl, h2, h3⟩
      · have hnext := aim_step hs ((h.inv hw).jobs j mem_self) hd hlt h2
        exact Or.inr ⟨f, o, m, h1, hnext.1, h3, h4⟩
    · simpa [State.rc, Job.next] using hi
    · exact fun o a b => refs_step hw hs rfl o a b

theorem tick_look (h : J lt s A) {k : K} {x : V} (hw : s.work = pre ++ (j, .look k x) :: post) (hd : j.writes = some d)
    (ht : TaskOk lt s A j d (.look k x)) : ∃ s', tick lt s pre.length = .ok s' ∧ J lt s' A ∧ total s' < total s := by
  obtain ⟨f, o, m, h0, h1, h2, h3, h4, h5, h6⟩ := ht
  obtain ⟨rd, wr, pc⟩ := j
  simp only at hd h0 h1
  subst hd h0 h1
  unfold tick
  rw [get_work hw]
  simp only
  rw [bodyOf_var h h4 h3, res_bind_ok, h5.2 k]
  cases hk : (f k).isSome with
  | true =>
    rw [if_pos rfl]
    refine ⟨_, rfl, ?_⟩
    rw [set_work hw]
    refine h.think hw rfl ⟨f, o, m, rfl, rfl, h2, h3, h4, h5, ?_⟩ ?_
    · rw [refs_same (bb := s.bodies) hw]; exact h6 hk
    · simp only [cost, pcLen, bodyLen, h4]; omega
  | false =>
    rw [if_neg (by simp)]
    refine ⟨_, rfl, ?_⟩
    rw [set_work hw]
    refine h.think hw rfl ⟨f, o, m, rfl, rfl, ?_, h3, h4, h5⟩ ?_
    · rw [h2]
      simp only [Edit.apply, inserted, hk, Bool.false_eq_true, if_false]
    · simp only [cost, pcLen, bodyLen, h4]; omega

theorem merase_length (k : K) (m : List (K × V)) : (merase lt k m).length ≤ m.length := by
  induction m with
  | nil => simp [merase]
  | cons e m ih =>
    obtain ⟨k', v'⟩ := e
    unfold merase
    split
    · simp only [List.length_cons]; omega
    · split <;> simp

theorem tick_erase (od : StrictOrder lt) (h : J lt s A) {k : K} {x : V} (hw : s.work = pre ++ (j, .erase k x) :: post) (hd : j.writes = some d)
    (ht : TaskOk lt s A j d (.erase k x)) : ∃ s', tick lt s pre.length = .ok s' ∧ J lt s' A ∧ total s' < total s := by
  obtain ⟨f, o, m, h0, h1, h2, h3, h4, h5, h6⟩ := ht
  obtain ⟨rd, wr, pc⟩ := j
  simp only at hd h0 h1
  subst hd h0 h1
  unfold tick
  rw [get_work hw]
  simp only
  rw [bodyOf_var h h4 h3, res_bind_ok]
  refine ⟨_, rfl, ?_⟩
  rw [set_work hw]
  have hlo := RC.lt_of_get h4
  refine h.store hw rfl (private_owner h hw rfl h3 h6) ⟨f.update k none, o, merase lt k m, rfl, rfl, ?_, h3, List.getElem?_set_self hlo, h5.edit od (.del k)⟩ ?_
  · rw [h2]
    have : (f.update k none) k = none := by simp [FMap.update]
    simp only [Edit.apply, inserted, this, Option.isSome_none, Bool.false_eq_true, if_false]
    congr 3
    funext j
    simp only [FMap.update]
    split <;> rfl
  · have := merase_length (lt := lt) k m
    simp only [cost, pcLen, bodyLen, h4, List.getElem?_set_self hlo, Option.map_some, Option.getD_some]
    omega

theorem tick_unshare (h : J lt s A) {e : Edit K V} (hw : s.work = pre ++ (j, .unshare e) :: post) (hd : j.writes = some d)
    (ht : TaskOk lt s A j d (.unshare e)) : ∃ s', tick lt s pre.length = .ok s' ∧ J lt s' A ∧ total s' < total s := by
  obtain ⟨objs', vars', r, hs, ha, hi⟩ := advance_step h hw
  obtain ⟨f, o, m, h0, h1, h2, h3, h4, h5⟩ := ht
  have hdst : dst j = d := by unfold dst; rw [hd]; rfl
  obtain ⟨rd, wr, pc⟩ := j
  simp only at hd h0 h1
  subst hd h0 h1
  unfold tick
  rw [get_work hw]
  simp only [hdst]
  rw [ptrOf_ok h3, res_bind_ok, ha]
  have hcnt : ∀ y, s.objs[o]? = some y → y.count = (s.refs o : Int) := by
    intro y hy
    have := h.rc.objs o
    simp only [State.rc] at this
    rw [hy] at this
    exact this.1
  have hpos := RC.V_pos h3
  cases hs with
  | @keep d' o' y e' hy hc =>
    cases e'
    simp only [res_bind_ok, Option.map_some]
    refine ⟨_, rfl, ?_⟩
    rw [set_work hw]
    have hr1 : s.refs o = 1 := by
      have := hcnt y hy
      unfold State.refs refs at *
      omega
    have hrefs : ∀ o', State.refs { s with work := pre ++ ([(⟨none, some d, .write d o⟩, .write [e])] ++ post) } o' = s.refs o' := by
      intro o'
      refine refs_step hw (.keep rfl hy hc) rfl o' (by simp) (by simp)
    refine h.step hw rfl rfl (new := [_]) ?_ ?_ h.lenB rfl (fun v hv => rfl) (fun o b hb => Or.inl hb) (fun o' _ _ => hrefs o') (Or.inl (by simp)) (by simp [cost])
    · intro y hy
      rw [List.mem_singleton] at hy
      subst hy
      exact ⟨⟨rfl, f, o, m, rfl, rfl, h2, h3, h4, h5, by rw [hrefs]; exact hr1⟩, Or.inl rfl⟩
    · simpa [State.rc, Job.next] using hi
  | @fork d' o' y e' hy hc =>
    cases e'
    simp only [res_bind_ok, Option.map_some]
    refine ⟨_, rfl, ?_⟩
    rw [set_work hw]
    have hinv : RC.Inv (State.rc { s with objs := s.objs ++ [⟨0, true⟩], bodies := s.bodies ++ [[]], work := pre ++ ([(⟨none, some d, .addRef d s.objs.length⟩, .copying e o 0)] ++ post) }) := by
      simpa [State.rc, Job.next] using hi
    refine h.step hw rfl rfl (new := [_]) ?_ hinv (by simp [h.lenB]) rfl (fun v hv => rfl) (fun o b hb => Or.inl (RC.get_append hb)) ?_ (Or.inl (by simp)) ?_
    · intro y hy
      rw [List.mem_singleton] at hy
      subst hy
      refine ⟨⟨rfl, f, s.objs.length, m, rfl, rfl, h2, h3, RC.get_append h4, h5, Nat.zero_le _, ?_, ?_⟩, Or.inl rfl⟩
      · rw [← h.lenB]; simp [build]
      · exact RC.Inv.alone_refs hinv (k := ⟨none, some d, .addRef d s.objs.length⟩) (by simp [State.rc]) (by simp [RC.alone])
    · exact fun o' a b => refs_step hw (.fork rfl hy hc) rfl o' a b
    · simp only [List.map_cons, List.map_nil, List.sum_cons, List.sum_nil, cost, pcLen, bodyLen, RC.rank, h4, RC.get_append h4]
      omega
  | addRef e' => cases e'
  | chk e' => cases e'
  | storeRel e' => cases e'
  | store e' => cases e'
  | relAssert e' => cases e'
  | relLast e' => cases e'
  | relDec e' => cases e'
  | del e' => cases e'
  | write e' => cases e'

theorem tick_copying (od : StrictOrder lt) (h : J lt s A) {e : Edit K V} {src k : Nat} (hw : s.work = pre ++ (j, .copying e src k) :: post)
    (hd : j.writes = some d) (ht : TaskOk lt s A j d (.copying e src k)) : ∃ s', tick lt s pre.length = .ok s' ∧ J lt s' A ∧ total s' < total s := by
  obtain ⟨f, o, m, h0, h1, h2, h3, h4, h5, h6, h7, h8⟩ := ht
  obtain ⟨rd', wr, pc⟩ := j
  simp only at hd h0 h1
  subst hd h0 h1
  have ha : RC.alone ⟨none, some d, .addRef d o⟩ o = true := by simp [RC.alone]
  have hpriv : Private s (pre ++ post) d o := private_fresh h hw ha
  have hZ : 0 < RC.Z (s.work.map (·.1)) o := RC.Z_pos (k := ⟨none, some d, .addRef d o⟩) (by rw [hw]; simp) ha
  have hne : src ≠ o := by
    intro e2
    subst e2
    exact (excl_fresh (h.inv hw) ha).2 d h3
  have hlo := RC.lt_of_get h7
  unfold tick
  rw [get_work hw]
  simp only
  rw [bodyOf_var h h4 h3, res_bind_ok, bodyOf_ok h h7 (by omega), res_bind_ok]
  cases hk : m[k]? with
  | some kx =>
    obtain ⟨key, x⟩ := kx
    simp only
    have hlt := RC.lt_of_get hk
    refine ⟨_, rfl, ?_⟩
    rw [set_work hw, build_step hk]
    refine h.store hw rfl hpriv ⟨f, o, m, rfl, rfl, h2, h3, ?_, h5, hlt, ?_, ?_⟩ ?_
    · simp only [List.getElem?_set_ne hne.symm]; exact h4
    · exact List.getElem?_set_self hlo
    · rw [refs_same hw]; exact h8
    · simp only [cost, bodyLen, List.getElem?_set_ne hne.symm, h4, Option.map_some, Option.getD_some, RC.rank]
      omega
  | none =>
    have hkk : k = m.length := by
      rw [List.getElem?_eq_none_iff] at hk; omega
    subst hkk
    rw [List.take_length] at h7
    obtain ⟨objs', vars', r, hs, hadv, hi⟩ := advance_step h hw
    simp only
    rw [hadv]
    cases hs with
    | @addRef d' o' y e' hy =>
      cases e'
      simp only [res_bind_ok, Option.map_some]
      refine ⟨_, rfl, ?_⟩
      rw [set_work hw]
      have hinv : RC.Inv (State.rc { s with objs := s.objs.set o ⟨y.count + 1, y.live⟩, work := pre ++ ([(⟨none, some d, .chk d o⟩, .fill [e])] ++ post) }) := by
        simpa [State.rc, Job.next] using hi
      refine h.step hw rfl rfl (new := [_]) ?_ hinv (by simp [h.lenB]) rfl (fun v hv => rfl) (fun o b hb => Or.inl hb) ?_ (Or.inl (by simp)) (by simp [cost, RC.rank])
      · intro z hz
        rw [List.mem_singleton] at hz
        subst hz
        refine ⟨⟨rfl, f, o, build lt m, rfl, h2, rfl, h7, h5.built od, ?_⟩, Or.inl rfl⟩
        · have h16 := hinv.objs o
          have h17 := h.rc.objs o
          simp only [State.rc] at h16 h17
          rw [hy] at h17
          rw [List.getElem?_set_self (RC.lt_of_get hy)] at h16
          have a := h16.1
          have c := h17.1
          simp only [isAdd, Bool.false_eq_true, if_false]
          unfold State.refs refs at *
          simp only at a c ⊢
          omega
      · exact fun o' a b => refs_step hw (.addRef rfl hy) rfl o' a b
    | chk e' => cases e'
    | storeRel e' => cases e'
    | store e' => cases e'
    | relAssert e' => cases e'
    | relLast e' => cases e'
    | relDec e' => cases e'
    | del e' => cases e'
    | keep e' => cases e'
    | fork e' => cases e'
    | write e' => cases e'

theorem tick_fill (h : J lt s A) {es : List (Edit K V)} (hw : s.work = pre ++ (j, .fill es) :: post)
    (hd : j.writes = some d) (ht : TaskOk lt s A j d (.fill es)) : ∃ s', tick lt s pre.length = .ok s' ∧ J lt s' A ∧ total s' < total s := by
  obtain ⟨objs', vars', r, hs, ha, hi⟩ := advance_step h hw
  obtain ⟨f, o, m, h0, h1, h2, h3, h4, h5⟩ := ht
  have hdst : dst j = d := by unfold dst; rw [hd]; rfl
  have hlt := d_lt h hw hd
  have hlen : objs'.length = s.objs.length := ArrPar.Step.objs_length hs (not_unshare h2)
  have hnext := aim_step hs ((h.inv hw).jobs j mem_self) hd hlt h2
  have hvs := step_vars h hw hd hs
  have hnr : isAdd j.pc = false → j.pc ≠ .relDec o := by
    intro hia e'
    rw [hia] at h5
    rw [e'] at h2
    have hv := RC.V_pos h2
    have hp := RC.P_pos (jobs := s.work.map (·.1)) (k := j) (o := o) (by rw [hw]; simp) (by unfold RC.holds; rw [e']; simp)
    simp only [Bool.false_eq_true, if_false] at h5
    unfold State.refs refs at h5
    omega
  have hna : isAdd j.pc = false → ∀ d, j.pc ≠ .addRef d o := by
    intro hia d' e'; rw [e'] at hia; cases hia
  -- the number of references after the step
  have hone : ∀ new : List (Job × Task K V), new.map (·.1) = j.next r → RC.Inv ⟨objs', vars', (pre ++ (new ++ post)).map (·.1)⟩ →
      State.refs ⟨objs', s.bodies, vars', pre ++ (new ++ post)⟩ o = 1 := by
    intro new hm hinv
    cases hia : isAdd j.pc with
    | false => rw [refs_step hw hs hm o (hna hia) (hnr hia), h5, hia]; rfl
    | true =>
      rw [hia] at h5
      cases hs with
      | @addRef d' o' y e' hy =>
        rw [e'] at h2
        cases (show some o = some o' from h2)
        have h16 := hinv.objs o
        have h17 := h.rc.objs o
        simp only [State.rc] at h16 h17
        rw [hy] at h17
        rw [List.getElem?_set_self (RC.lt_of_get hy)] at h16
        have a := h16.1
        have c := h17.1
        simp only [if_true] at h5
        unfold State.refs refs at *
        simp only at a c ⊢
        omega
      | chk e' => rw [e'] at hia; cases hia
      | storeRel e' => rw [e'] at hia; cases hia
      | store e' => rw [e'] at hia; cases hia
      | relAssert e' => rw [e'] at hia; cases hia
      | relLast e' => rw [e'] at hia; cases hia
      | relDec e' => rw [e'] at hia; cases hia
      | del e' => rw [e'] at hia; cases hia
      | keep e' => rw [e'] at hia; cases hia
      | fork e' => rw [e'] at hia; cases hia
      | write e' => rw [e'] at hia; cases hia
  unfold tick
  rw [get_work hw]
  simp only [hdst]
  rw [ha]
  cases r with
  | some pc =>
    simp only [Option.map_some, res_bind_ok]
    refine ⟨_, rfl, ?_⟩
    rw [set_work hw]
    have hinv : RC.Inv ⟨objs', vars', (pre ++ ([(({ j with pc := pc } : Job), Task.fill es)] ++ post)).map (·.1)⟩ := by
      simpa [Job.next] using hi
    refine h.step hw hd (new := [({ j with pc := pc }, .fill es)]) rfl ?_ hinv (by simpa [hlen] using h.lenB) hs.vars_length hvs (fun o b hb => Or.inl hb) ?_ (Or.inl (by simp)) (by have := rank_step hs pc rfl; simp [cost]; omega)
    · intro y hy
      rw [List.mem_singleton] at hy
      subst hy
      refine ⟨⟨hd, f, o, m, h0, h1, hnext.1, h3, h4, ?_⟩, Or.inr rfl⟩
      rw [hone _ rfl hinv]
      simp only [hnext.2.1]
      rfl
    · exact fun o a b => refs_step hw hs rfl o a b
  | none =>
    simp only [Option.map_none, res_bind_ok, hnext]
    refine ⟨_, rfl, ?_⟩
    rw [set_work hw]
    have hP : ∀ o', RC.P ((pre ++ ([((⟨none, some d, .write d o⟩ : Job), Task.write es)] ++ post)).map (·.1)) o' =
        RC.P ((pre ++ (([] : List (Job × Task K V)) ++ post)).map (·.1)) o' := by
      intro o'
      have := RC.P_mid (pre.map (·.1)) (post.map (·.1)) ⟨none, some d, .write d o⟩ o'
      simpa [RC.holds] using this
    have hrefs : ∀ o', State.refs ⟨objs', s.bodies, vars', pre ++ ([((⟨none, some d, .write d o⟩ : Job), Task.write es)] ++ post)⟩ o' =
        State.refs ⟨objs', s.bodies, vars', pre ++ (([] : List (Job × Task K V)) ++ post)⟩ o' := by
      intro o'
      unfold State.refs refs
      rw [hP]
    have hi' : RC.Inv ⟨objs', vars', pre.map (·.1) ++ post.map (·.1)⟩ := by simpa [Job.next] using hi
    refine h.step hw hd (new := [_]) rfl ?_ ?_ (by simpa [hlen] using h.lenB) hs.vars_length hvs (fun o b hb => Or.inl hb) ?_ (Or.inl (by simp)) (by have := rank_pos j.pc; simp [cost]; omega)
    · intro y hy
      rw [List.mem_singleton] at hy
      subst hy
      refine ⟨⟨rfl, f, o, m, rfl, rfl, h1, hnext, h3, h4, ?_⟩, Or.inl rfl⟩
      rw [hrefs]
      exact hone [] rfl (by simpa using hi')
    · have hput := hi'.put (j := ⟨none, some d, .write d o⟩) ⟨rfl, rfl, hnext⟩ (fun _ => rfl) (fun _ => rfl) ?_ ?_
      · simpa [State.rc] using hput
      · intro k hk
        have hc := (RC.locks_mid (h.inv hw).locks).2 k hk
        exact ⟨fun v hv => hc.1 v (by rw [hd]; exact hv), fun v hv => ⟨fun hv' => (hc.2 v hv).1 (by rw [hd]; exact hv'), by simp⟩⟩
      · intro v hv
        rw [hs.vars_length]
        rcases hv with hv | hv
        · cases hv; exact hlt
        · cases hv
    · intro o' a b
      rw [hrefs]
      exact refs_step hw hs rfl o' a b

theorem tick_write (od : StrictOrder lt) (h : J lt s A) {es : List (Edit K V)} (hw : s.work = pre ++ (j, .write es) :: post)
    (hd : j.writes = some d) (ht : TaskOk lt s A j d (.write es)) : ∃ s', tick lt s pre.length = .ok s' ∧ J lt s' A ∧ total s' < total s := by
  obtain ⟨f, o, m, h0, h1, h2, h3, h4, h5, h6⟩ := ht
  have hlt := d_lt h hw hd
  obtain ⟨rd', wr, pc⟩ := j
  simp only at hd h0 h1
  subst hd h0 h1
  unfold tick
  rw [get_work hw]
  cases es with
  | nil =>
    simp only
    obtain ⟨objs', vars', r, hs, ha, hi⟩ := advance_step h hw
    rw [ha]
    cases hs with
    | @write d' o' e' =>
      cases e'
      simp only [res_bind_ok]
      refine ⟨_, rfl, ?_⟩
      rw [erase_work hw]
      have hrefs : ∀ o', State.refs ⟨s.objs, s.bodies, s.vars, pre ++ (([] : List (Job × Task K V)) ++ post)⟩ o' = s.refs o' :=
        fun o' => refs_step hw (.write rfl) rfl o' (by simp) (by simp)
      refine h.step hw rfl (new := []) rfl (by simp) ?_ h.lenB rfl (fun v hv => rfl) (fun o b hb => Or.inl hb) (fun o' _ _ => hrefs o') (Or.inr ?_) (by simp [cost])
      · simpa [State.rc, Job.next] using hi
      · unfold VarOk
        simp only
        rw [h3, h2]
        exact ⟨m, h4, h5, fun _ => by rw [hrefs]; exact h6⟩
    | addRef e' => cases e'
    | chk e' => cases e'
    | storeRel e' => cases e'
    | store e' => cases e'
    | relAssert e' => cases e'
    | relLast e' => cases e'
    | relDec e' => cases e'
    | del e' => cases e'
    | keep e' => cases e'
    | fork e' => cases e'
  | cons e es =>
    simp only
    rw [bodyOf_var h h4 h3, res_bind_ok]
    refine ⟨_, rfl, ?_⟩
    rw [set_work hw]
    refine h.store hw rfl (private_owner h hw rfl h3 h6) ⟨e.apply f, o, e.run lt m, rfl, rfl, h2, h3, List.getElem?_set_self (RC.lt_of_get h4), h5.edit od e, ?_⟩ (by simp [cost])
    rw [refs_same hw]; exact h6

end

/-- every action of a call in progress can be made, and keeps the invariant -/
theorem tick_J (od : StrictOrder lt) {s : State K V} {A : View K V} (h : J lt s A) (i : Nat) : ∃ s', tick lt s i = .ok s' ∧ J lt s' A ∧ (i < s.work.length → total s' < total s) := by
  cases hi : s.work[i]? with
  | none => exact ⟨s, by unfold tick; rw [hi], h, fun hlt => by rw [List.getElem?_eq_getElem hlt] at hi; cases hi⟩
  | some y =>
    obtain ⟨j, t⟩ := y
    obtain ⟨pre, post, hw, rfl⟩ := RC.split_at hi
    obtain ⟨d, hd, ht⟩ := h.tasks (j, t) (by rw [hw]; exact mem_self)
    have key : ∀ {P : State K V → Prop}, (∃ s', tick lt s pre.length = .ok s' ∧ J lt s' A ∧ total s' < total s) →
        ∃ s', tick lt s pre.length = .ok s' ∧ J lt s' A ∧ (pre.length < s.work.length → total s' < total s) := by
      intro _ ⟨s', h1, h2, h3⟩
      exact ⟨s', h1, h2, fun _ => h3⟩
    cases t with
    | plain => exact key (P := fun _ => True) (tick_plain h hw hd ht)
    | fill es => exact key (P := fun _ => True) (tick_fill h hw hd ht)
    | look k x => exact key (P := fun _ => True) (tick_look h hw hd ht)
    | erase k x => exact key (P := fun _ => True) (tick_erase od h hw hd ht)
    | unshare e => exact key (P := fun _ => True) (tick_unshare h hw hd ht)
    | copying e src k => exact key (P := fun _ => True) (tick_copying od h hw hd ht)
    | write es => exact key (P := fun _ => True) (tick_write od h hw hd ht)

end Strpp.MapPar
