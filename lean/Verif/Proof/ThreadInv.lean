import Verif.Proof.ThreadStep
/-! Every step keeps the invariant: all cases. -/
set_option linter.unusedSimpArgs false
set_option linter.unusedVariables false
namespace Strpp.Th

theorem loc_congr {s s' : State} (hph : ∀ b, phase (s'.pc b) = phase (s.pc b)) (hu : ∀ o, (s'.obj o).os = (s.obj o).os ∧ (s'.obj o).state = (s.obj o).state) (hth : s'.threads = s.threads)
    (he : s'.ended = s.ended) (q : Pc) (hl : Loc s q) : Loc s' q := by
  have hun : ∀ b, s'.pc b = .unstarted ↔ s.pc b = .unstarted := fun b => by rw [phase_unstarted, phase_unstarted, hph]
  have hdn : ∀ b, s'.pc b = .done ↔ s.pc b = .done := fun b => by rw [phase_done, phase_done, hph]
  have hmap : ∀ o, InMap s' o ↔ InMap s o := fun o => by simp only [InMap, hth]
  revert hl
  cases q <;> simp only [Loc, hun, hdn, hmap, hph, hth, he, (hu _).1, (hu _).2, ne_eq] <;> exact fun g => g

theorem phase_upd {s : State} {a : Actor} {p p' : Pc} (hp : s.pc a = p) (hph : phase p' = phase p) (b : Actor) : phase (upd s.pc a p' b) = phase (s.pc b) := by
  by_cases hb : b = a
  · rw [hb, upd_same, hp, hph]
  · rw [upd_other _ _ _ _ hb]

section
variable {s : State} (h : Inv s) (a : Actor) (p p' : Pc) (hp : s.pc a = p) (hphase : phase p' = phase p)
  (hproc : procOf p' = none ∨ procOf p' = procOf p ∨ ∃ o, procOf p' = some o ∧ a = .worker o) (hex : inExit p' = false) (huser : opOn p' = none ∨ opOn p' = opOn p) (hloc : Loc s p')
include h hp hphase hproc hex huser hloc

theorem inv_goto (hrs : ∀ o, p ≠ .rsInsert o) (hcrit : crit p' = crit p) (hadj' : adj p' = adj p) (hnw : p' ≠ .jaWaiting) (hnc : ∀ o, p ≠ .teCast o) : Inv (s.goto a p') := by
  have hpa : (s.goto a p').pc a = p' := upd_same _ _ _
  refine inv_local (s' := s.goto a p') h a p p' hp hpa rfl (fun b hb => upd_other _ _ _ _ hb) (fun _ _ => Iff.rfl) (fun o => ⟨(s.obj o).user, rfl, fun _ _ g => g⟩) rfl h.nofault hphase
    hrs ?_ hproc hex ?_ ?_ ?_ (fun _ _ _ => rfl) ?_
  · rw [hcrit, ← hp]; exact h.lock a
  · intro o ho
    rcases huser with g | g
    · rw [g] at ho; cases ho
    · exact h.user a o (by rw [hp, ← g]; exact ho)
  · exact loc_congr (s := s) (s' := s.goto a p') (phase_upd hp hphase) (fun _ => ⟨rfl, rfl⟩) rfl rfl p' hloc
  · have e : hadj (s.goto a p') = hadj s := by
      unfold hadj
      show (match s.holder with | none => 0 | some b => adj ((s.goto a p').pc b)) = _
      cases hh : s.holder with
      | none => rfl
      | some b =>
        simp only
        by_cases hb : b = a
        · rw [hb, hpa, hadj', hp]
        · have : (s.goto a p').pc b = s.pc b := upd_other _ _ _ _ hb
          rw [this]
    rw [e]; exact h.count
  · intro b hb
    by_cases hba : b = a
    · rw [hba, hpa] at hb; exact absurd hb hnw
    · have : (s.goto a p').pc b = s.pc b := upd_other _ _ _ _ hba
      rw [this] at hb
      refine (h.waiting b hb).imp id ?_
      rintro ⟨c, o, g1, g2⟩
      have hca : c ≠ a := by intro g; rw [g, hp] at g2; exact hnc o g2
      exact ⟨c, o, g1, by rw [show (s.goto a p').pc c = s.pc c from upd_other _ _ _ _ hca]; exact g2⟩

theorem inv_enter (hfree : s.holder = none) (hc : crit p = false) (hcrit : crit p' = true) (hadj' : adj p' = 0) : Inv { s with holder := some a, pc := upd s.pc a p' } := by
  generalize hs' : { s with holder := some a, pc := upd s.pc a p' } = s'
  have hpa : s'.pc a = p' := by rw [← hs']; exact upd_same _ _ _
  have hpb : ∀ b, b ≠ a → s'.pc b = s.pc b := fun b hb => by rw [← hs']; exact upd_other _ _ _ _ hb
  have hha : s'.holder = some a := by rw [← hs']
  refine inv_local (s' := s') h a p p' hp hpa (by rw [← hs']) hpb (fun b hb => ?_) (fun o => ⟨(s.obj o).user, by rw [← hs'], fun _ _ g => g⟩) (by rw [← hs']) (by rw [← hs']; exact h.nofault)
    hphase ?_ ?_ hproc hex ?_ ?_ ?_ (fun _ _ _ => by rw [← hs']) ?_
  · rw [hha, hfree]; simp [Ne.symm hb]
  · intro o g; rw [g] at hc; cases hc
  · rw [hha]; simp [hcrit]
  · intro o ho
    have e : s'.obj = s.obj := by rw [← hs']
    rw [e]
    rcases huser with g | g
    · rw [g] at ho; cases ho
    · exact h.user a o (by rw [hp, ← g]; exact ho)
  · exact loc_congr (s := s) (s' := s') (by rw [← hs']; exact phase_upd hp hphase) (fun _ => by rw [← hs']; exact ⟨rfl, rfl⟩) (by rw [← hs']) (by rw [← hs']) p' hloc
  · have := h.count
    simp only [hadj, hfree] at this
    simp only [hadj, hha, hpa, hadj']
    rw [← hs']; exact this
  · intro b hb
    by_cases hba : b = a
    · rw [hba, hpa] at hb; rw [hb] at hcrit; cases hcrit
    · rw [hpb b hba] at hb
      rcases h.waiting b hb with g | ⟨c, o, g1, -⟩
      · left; rw [← hs']; exact g
      · rw [hfree] at g1; cases g1

end

/-- Leaving the latch, and perhaps being done with a Thread -/
theorem inv_leave {s s' : State} (h : Inv s) (a : Actor) (p p' : Pc) (hp : s.pc a = p) (hphase : phase p' = phase p) (hrs : ∀ o, p ≠ .rsInsert o) (hc : crit p = true) (hcrit : crit p' = false)
    (hproc : procOf p' = none ∨ procOf p' = procOf p) (hex : inExit p' = false) (hloc : Loc s p') (hadj' : adj p = 0) (hnc : ∀ o, p ≠ .teCast o) (hw : p' = .jaWaiting → s.ended = 0)
    (hpc : s'.pc = upd s.pc a p') (hh : s'.holder = none) (hn : s'.n = s.n) (hth : s'.threads = s.threads) (he : s'.ended = s.ended) (hf : s'.fault = s.fault)
    (hobj : ∀ o, ∃ u, s'.obj o = { s.obj o with user := u } ∧ ∀ b, b ≠ a → (s.obj o).user = some b → u = some b)
    (huser : ∀ o, opOn p' = some o → (s'.obj o).user = some a ∧ (s.obj o).alive = true ∧ o < s.n) : Inv s' := by
  have hha : s.holder = some a := (h.lock a).mp (by rw [hp]; exact hc)
  have hpa : s'.pc a = p' := by rw [hpc]; exact upd_same _ _ _
  have hpb : ∀ b, b ≠ a → s'.pc b = s.pc b := fun b hb => by rw [hpc]; exact upd_other _ _ _ _ hb
  refine inv_local (s' := s') h a p p' hp hpa hn hpb (fun b hb => ?_) hobj hth (by rw [hf]; exact h.nofault) hphase hrs ?_ (hproc.imp id Or.inl) hex huser ?_ ?_ (fun _ _ _ => he) ?_
  · rw [hh, hha]; simp [Ne.symm hb]
  · rw [hh, hcrit]; simp
  · refine loc_congr (s := s) (s' := s') (by rw [hpc]; exact phase_upd hp hphase) (fun o => ?_) hth he p' hloc
    obtain ⟨u, g, -⟩ := hobj o
    rw [g]; exact ⟨rfl, rfl⟩
  · have := h.count
    simp only [hadj, hha, hp, hadj'] at this
    simp only [hadj, hh, he]
    exact this
  · intro b hb
    left
    rw [he]
    by_cases hba : b = a
    · rw [hba, hpa] at hb; exact hw hb
    · rw [hpb b hba] at hb
      rcases h.waiting b hb with g | ⟨c, o, g1, g2⟩
      · exact g
      · rw [hha] at g1
        cases g1
        rw [hp] at g2
        exact absurd g2 (hnc o)

/-- Changing the count -/
theorem inv_count {s : State} (h : Inv s) (a : Actor) (p p' : Pc) (d : Int) (hp : s.pc a = p) (hphase : phase p' = phase p) (hrs : ∀ o, p ≠ .rsInsert o) (hc : crit p = true) (hcrit : crit p' = true)
    (hproc : procOf p' = none ∨ procOf p' = procOf p) (hex : inExit p' = false) (huser : opOn p' = none ∨ opOn p' = opOn p) (hloc : Loc s p') (hscan : p' ≠ .jaScan) (hadj' : adj p' = adj p + d)
    (hnc : ∀ o, p ≠ .teCast o) (hw : (∃ o, p' = .teCast o) ∨ s.ended ≠ 0) : Inv ({ s with ended := s.ended + d }.goto a p') := by
  have hha : s.holder = some a := (h.lock a).mp (by rw [hp]; exact hc)
  generalize hs' : { s with ended := s.ended + d }.goto a p' = s'
  have hpa : s'.pc a = p' := by rw [← hs']; exact upd_same _ _ _
  have hpb : ∀ b, b ≠ a → s'.pc b = s.pc b := fun b hb => by rw [← hs']; exact upd_other _ _ _ _ hb
  have hhs : s'.holder = s.holder := by rw [← hs']; rfl
  have he : s'.ended = s.ended + d := by rw [← hs']; rfl
  have hth : s'.threads = s.threads := by rw [← hs']; rfl
  have hob : s'.obj = s.obj := by rw [← hs']; rfl
  refine inv_local (s' := s') h a p p' hp hpa (by rw [← hs']; rfl) hpb (fun b _ => by rw [hhs]) (fun o => ⟨(s.obj o).user, by rw [hob], fun _ _ g => g⟩) hth (by rw [← hs']; exact h.nofault)
    hphase hrs ?_ (hproc.imp id Or.inl) hex ?_ ?_ ?_ (fun b hb g => ?_) ?_
  · rw [hhs, hha]; simp [hcrit]
  · intro o ho
    rw [hob]
    rcases huser with g | g
    · rw [g] at ho; cases ho
    · exact h.user a o (by rw [hp, ← g]; exact ho)
  · have hph : ∀ b, phase (s'.pc b) = phase (s.pc b) := by
      intro b
      by_cases hb : b = a
      · rw [hb, hpa, hp, hphase]
      · rw [hpb b hb]
    have := loc_congr (s := s) (s' := { s' with ended := s.ended }) hph (fun _ => by simp only [hob, and_self]) hth rfl p' hloc
    revert this
    cases p' <;> first | exact fun g => g | exact absurd rfl hscan
  · have := h.count
    simp only [hadj, hha, hp] at this
    simp only [hadj, hhs, hha, hpa, hadj', he]
    omega
  · have := others_out h hha hb
    rw [g] at this
    cases this
  · intro b hb
    have hba : b ≠ a := by intro g; rw [g, hpa] at hb; rw [hb] at hcrit; cases hcrit
    rcases hw with ⟨o, g⟩ | g
    · right; exact ⟨a, o, by rw [hhs]; exact hha, by rw [hpa]; exact g⟩
    · rw [hpb b hba] at hb
      rcases h.waiting b hb with g' | ⟨c, o, g1, g2⟩
      · exact absurd g' g
      · rw [hha] at g1
        cases g1
        rw [hp] at g2
        exact absurd g2 (hnc o)

/-- what is so of the Thread of a thread in ThreadProc -/
theorem proc_facts {s : State} (h : Inv s) {a : Actor} {p : Pc} {o : Nat} (hp : s.pc a = p) (ho : procOf p = some o) :
    a = .worker o ∧ (s.obj o).alive = true ∧ s.pc (.worker o) ≠ .unstarted ∧ (s.obj o).os = .running ∧ ObjOk s o (phase p) := by
  have ha := h.own a o (by rw [hp]; exact ho)
  have := h.objs o
  rw [← ha, hp] at this
  have hne : p ≠ .unstarted := by intro g; rw [g] at ho; cases ho
  refine ⟨ha, ?_, by rw [← ha, hp]; exact hne, ?_, this⟩
  · revert this ho
    cases p <;> simp only [procOf, phase, ObjOk] <;> intro ho <;> first | (cases ho; done) | exact fun g => g.1
  · revert this ho
    cases p <;> simp only [procOf, phase, ObjOk] <;> intro ho <;> first | (cases ho; done) | exact fun g => g.2.1

/-- A thread that holds the latch at another place than in `resume` is in the list. -/
theorem worker_inMap {s : State} (h : Inv s) {o : Nat} (hc : s.holder = some (.worker o)) (hph : phase (s.pc (.worker o)) = .running) (hne : s.pc (.worker o) ≠ .rsInsert o) : InMap s o := by
  have := h.objs o
  rw [hph] at this
  rcases this.2.2.2 with g | ⟨b, g1, g2⟩
  · exact g
  · rw [hc] at g1
    cases g1
    exact absurd g2 hne

/-- A Thread whose state is Ended, seen with the latch held by some other thread than its own, has a thread that is done. -/
theorem ended_done {s : State} (h : Inv s) {a : Actor} {o : Nat} (ha : s.holder = some a) (hph : phase (s.pc a) = .running) (he : (s.obj o).state = .ended) : s.pc (.worker o) = .done := by
  have := h.objs o
  cases hq : phase (s.pc (.worker o)) with
  | unstarted => rw [hq] at this; exact absurd he this.2.1
  | running => rw [hq] at this; exact absurd he this.2.2.1
  | done => exact phase_done.mpr hq
  | ending =>
    have hc : crit (s.pc (.worker o)) = true := by
      revert hq
      cases s.pc (.worker o) <;> simp [phase, crit]
    have := (h.lock _).mp hc
    rw [ha] at this
    cases this
    rw [hph] at hq
    cases hq

theorem use_alive {s : State} {o : Nat} {k : State} (h : (s.obj o).alive = true) : s.use o k = some (k, none) := by
  unfold State.use
  rw [if_pos h]

theorem enter_some {s : State} {a : Actor} {p : Pc} {r : State × Option Event} (h : s.enter a p = some r) : s.holder = none ∧ r = ({ s with holder := some a, pc := upd s.pc a p }, none) := by
  unfold State.enter at h
  split at h
  · cases h; exact ⟨by assumption, rfl⟩
  · cases h

/-- taking a Thread into use -/
theorem inv_take {s : State} (h : Inv s) (a : Actor) (p' : Pc) (o : Nat) (hp : s.pc a = .client) (hm : s.mayUse o = true) (hop : opOn p' = some o) (hphase : phase p' = .running) (hc : crit p' = false)
    (hproc : procOf p' = none) (hex : inExit p' = false) (hloc : Loc s p') : Inv ((s.setObj o (fun b => { b with user := some a })).goto a p') := by
  unfold State.mayUse at hm
  simp only [Bool.and_eq_true, decide_eq_true_eq, beq_iff_eq] at hm
  obtain ⟨⟨hn, hal⟩, hu⟩ := hm
  generalize hs' : (s.setObj o (fun b => { b with user := some a })).goto a p' = s'
  have hpa : s'.pc a = p' := by rw [← hs']; exact upd_same _ _ _
  have hpb : ∀ b, b ≠ a → s'.pc b = s.pc b := fun b hb => by rw [← hs']; exact upd_other _ _ _ _ hb
  have hob : s'.obj = upd s.obj o { s.obj o with user := some a } := by rw [← hs']; rfl
  have hobo : ∀ o', ∃ u, s'.obj o' = { s.obj o' with user := u } ∧ ∀ b, b ≠ a → (s.obj o').user = some b → u = some b := by
    intro o'
    rw [hob]
    by_cases hoo : o' = o
    · rw [hoo, upd_same]
      exact ⟨some a, rfl, fun b _ g => by rw [hu] at g; cases g⟩
    · rw [upd_other _ _ _ _ hoo]
      exact ⟨_, rfl, fun _ _ g => g⟩
  have hhs : s'.holder = s.holder := by rw [← hs']; rfl
  have he : s'.ended = s.ended := by rw [← hs']; rfl
  have hph : ∀ b, phase (s'.pc b) = phase (s.pc b) := by
    intro b
    by_cases hb : b = a
    · rw [hb, hpa, hp, hphase]; rfl
    · rw [hpb b hb]
  have hnh : s.holder ≠ some a := fun g => by
    have := (h.lock a).mpr g
    rw [hp] at this
    cases this
  refine inv_local (s' := s') h a _ p' hp hpa (by rw [← hs']; rfl) hpb (fun b _ => by rw [hhs]) hobo (by rw [← hs']; rfl) (by rw [← hs']; exact h.nofault) (by rw [hphase]; rfl)
    (fun o g => by cases g) ?_ (Or.inl hproc) hex ?_ ?_ ?_ (fun b _ _ => he) ?_
  · rw [hc, hhs]; simp [hnh]
  · intro o' ho'
    rw [hop] at ho'
    cases ho'
    rw [hob, upd_same]
    exact ⟨rfl, hal, hn⟩
  · refine loc_congr (s := s) (s' := s') hph (fun o' => ?_) (by rw [← hs']; rfl) he p' hloc
    obtain ⟨u, g, -⟩ := hobo o'
    rw [g]; exact ⟨rfl, rfl⟩
  · have e : hadj s' = hadj s := by
      simp only [hadj, hhs]
      cases hh : s.holder with
      | none => rfl
      | some b =>
        simp only
        rw [hpb b (fun g => hnh (by rw [hh, g]))]
    rw [e, he]; exact h.count
  · intro b hb
    rw [he, hhs]
    have hba : b ≠ a := by intro g; rw [g, hpa] at hb; rw [hb] at hop; cases hop
    rw [hpb b hba] at hb
    refine (h.waiting b hb).imp id ?_
    rintro ⟨c, o', g1, g2⟩
    have hca : c ≠ a := by intro g; rw [g, hp] at g2; cases g2
    exact ⟨c, o', g1, by rw [hpb c hca]; exact g2⟩

theorem not_ended_done {s : State} (h : Inv s) {o : Nat} (hd : s.pc (.worker o) = .done) : (s.obj o).state = .ended := by
  have := h.objs o
  rw [hd] at this
  exact this.1

theorem joined_done {s : State} (h : Inv s) {o : Nat} (hj : (s.obj o).os = .joined) : s.pc (.worker o) = .done := by
  have := h.objs o
  cases hq : phase (s.pc (.worker o)) with
  | unstarted => rw [hq] at this; rw [this.1] at hj; cases hj
  | running => rw [hq] at this; rw [this.2.1] at hj; cases hj
  | ending => rw [hq] at this; rw [this.2.1] at hj; cases hj
  | done => exact phase_done.mpr hq

theorem joined_started {s : State} (h : Inv s) {o : Nat} (hj : (s.obj o).os = .joined) : s.pc (.worker o) ≠ .unstarted := by rw [joined_done h hj]; simp

/-- join is not called in the thread of the Thread -/
def NotSelf (s : State) : Prop := ∀ a o, s.pc a = .joAssert o → a ≠ .worker o

theorem inv_step {s : State} (h : Inv s) (hns : NotSelf s) (a : Actor) (x : Act) (s' : State) (e : Option Event) (hs : step strict s a x = some (s', e)) : Inv s' := by
  unfold step at hs
  rw [if_neg (by rw [h.nofault]; simp)] at hs
  have hl := h.loc a
  have hu := h.user a
  have hcr := h.lock a
  have hnx := h.noexit a
  split at hs
  case h_1 hp =>
    split at hs
    · rename_i g
      cases hs
      exact inv_construct h _ rfl rfl (by simpa [strict] using g)
    · cases hs
  case h_2 o hp =>
    split at hs
    · rename_i g
      cases hs
      simp only [Bool.and_eq_true, beq_iff_eq] at g
      exact inv_take h a _ o hp g.1 rfl rfl rfl rfl rfl g.2
    · cases hs
  case h_3 o hp =>
    split at hs
    · rename_i g
      cases hs
      simp only [Bool.and_eq_true, beq_iff_eq] at g
      exact inv_take h a _ o hp g.1 rfl rfl rfl rfl rfl g.2
    · cases hs
  case h_4 o hp =>
    split at hs
    · rename_i g
      cases hs
      simp only [Bool.and_eq_true, bne_iff_ne, ne_eq] at g
      exact inv_take h a _ o hp g.1.1.1 rfl rfl rfl rfl rfl g.1.1.2
    · cases hs
  case h_5 hp =>
    cases hs
    apply inv_goto h a _ _ hp <;> simp [phase, procOf, inExit, opOn, Loc, crit, adj]
  case h_6 hp => simp [strict] at hs
  case h_7 hp =>
    cases hs
    apply inv_goto h a _ _ hp <;> simp [phase, procOf, inExit, opOn, Loc, crit, adj]
  case h_8 hp =>
    split at hs
    · cases hs
      apply inv_goto h _ _ _ hp <;> simp [phase, procOf, inExit, opOn, Loc, crit, adj]
    · cases hs
  case h_9 o hp =>
    rw [hp] at hl
    obtain ⟨g, g'⟩ := enter_some hs
    cases g'
    apply inv_enter h a _ _ hp <;> first | assumption | simp [phase, procOf, inExit, opOn, crit, adj]
  case h_10 o t hp =>
    split at hs
    · rename_i g
      rw [use_alive (hu o (by rw [hp]; rfl)).2.1] at hs
      cases hs
      simp only [strict, Bool.false_or, Bool.and_eq_true] at g
      obtain ⟨g1, g2⟩ := g
      cases t with
      | ext n => simp [posixFresh] at g1
      | made k =>
        refine inv_create h a o k hp ?_
        intro o' ho' hal
        unfold ownFresh at g2
        rw [List.all_eq_true] at g2
        have := g2 o' (List.mem_range.mpr ho')
        simpa [hal] using this
    · cases hs
  case h_11 o hp =>
    rw [use_alive (hu o (by rw [hp]; rfl)).2.1] at hs
    cases hs
    exact inv_insert h a o hp
  case h_12 o hp =>
    cases hs
    have hus := (hu o (by rw [hp]; rfl)).1
    apply inv_leave h a _ .client hp <;> first | rfl | simp [phase, procOf, inExit, opOn, Loc, crit, adj, State.leave, State.setObj]
    intro o'
    by_cases hoo : o' = o
    · rw [hoo, upd_same]; exact ⟨none, rfl, fun b hb g => by rw [hus] at g; exact absurd (Option.some.inj g).symm hb⟩
    · rw [upd_other _ _ _ _ hoo]; exact ⟨_, rfl, fun _ _ g => g⟩
  case h_13 o hp =>
    rw [hp] at hl
    obtain ⟨g, g'⟩ := enter_some hs
    cases g'
    apply inv_enter h a _ _ hp <;> first | assumption | simp [phase, procOf, inExit, opOn, crit, adj, Loc]
  case h_14 o hp =>
    obtain ⟨-, hal, hst, -⟩ := proc_facts h hp rfl
    rw [if_pos hal] at hs
    obtain ⟨⟨k, hk⟩, hid⟩ := h.osid o hst
    unfold State.check at hs
    rw [if_pos (by rw [hid hal, hk]; rfl)] at hs
    cases hs
    apply inv_goto h a _ _ hp <;> simp [phase, procOf, inExit, opOn, Loc, crit, adj]
  case h_15 o hp =>
    cases hs
    apply inv_leave h a _ (.tpStarted o) hp <;> first | rfl | simp [phase, procOf, inExit, opOn, Loc, crit, adj, State.leave]
    exact fun o' => ⟨(s.obj o').user, rfl, fun _ _ g => g⟩
  case h_16 o hp =>
    obtain ⟨ha, hal, hst, hos, hob⟩ := proc_facts h hp rfl
    rw [use_alive hal] at hs
    cases hs
    subst ha
    have hne : (s.obj o).state ≠ .ended := hob.2.2.1
    have hnh : ∀ c, s.holder = some c → c ≠ .worker o := by
      intro c g g'
      have := (h.lock c).mpr g
      rw [g', hp] at this
      cases this
    have hpb : ∀ c, c ≠ Actor.worker o → ((s.setObj o (fun b => { b with state := .started })).goto (.worker o) .client).pc c = s.pc c := fun c g => upd_other _ _ _ _ g
    have hobo : ((s.setObj o (fun b => { b with state := .started })).goto (.worker o) .client).obj o = { s.obj o with state := .started } := upd_same _ _ _
    have hobn : ∀ o', o' ≠ o → ((s.setObj o (fun b => { b with state := .started })).goto (.worker o) .client).obj o' = s.obj o' := fun o' g => upd_other _ _ _ _ g
    refine inv_obj (s' := (s.setObj o (fun b => { b with state := .started })).goto (.worker o) .client) h (.worker o) o _ .client hp (upd_same _ _ _) rfl hpb (fun _ _ => Iff.rfl) hobn rfl h.nofault
      (Or.inl rfl) ⟨by simp [phase], by simp [phase]⟩ (by simp [phase]) (by simp) ?_ (Or.inl rfl) rfl ?_ ⟨hst, by rw [hobo], by rw [hobo]; exact fun g => ⟨g, rfl⟩⟩ ?_ (by rw [hobo]; exact fun g => g)
      (fun g => absurd g hne) (fun b _ g => by rw [hobo]; exact ⟨g, rfl⟩) (by simp [opOn]) trivial ?_ rfl (by simp) (by simp)
    · rw [show ((s.setObj o (fun b => { b with state := .started })).goto (.worker o) .client).holder = s.holder from rfl]
      constructor
      · intro g; cases g
      · exact fun g => absurd rfl (hnh _ g)
    · rw [show ((s.setObj o (fun b => { b with state := .started })).goto (.worker o) .client).pc (.worker o) = .client from upd_same _ _ _]
      refine ⟨by rw [hobo]; exact hal, by rw [hobo]; exact hos, by rw [hobo]; simp, ?_⟩
      refine hob.2.2.2.imp id ?_
      rintro ⟨b, g1, g2⟩
      exact ⟨b, g1, by rw [hpb b (hnh b g1)]; exact g2⟩
    · rw [hobo]; exact fun _ => hal
    · have hc : cnt ((s.setObj o (fun b => { b with state := .started })).goto (.worker o) .client) = cnt s := by
        unfold cnt
        show ((s.threads.filter _).length : Int) = _
        congr 2
        apply List.filter_congr
        intro e he
        simp only [isEnded]
        by_cases hoo : e.2 = o
        · rw [hoo, hobo]
          have : ((s.obj o).state == TState.ended) = false := by simpa using hne
          rw [this]; rfl
        · rw [hobn _ hoo]
      rw [hc]
      have e : hadj ((s.setObj o (fun b => { b with state := .started })).goto (.worker o) .client) = hadj s := by
        unfold hadj
        show (match s.holder with | none => 0 | some b => adj (((s.setObj o (fun b => { b with state := .started })).goto (.worker o) .client).pc b)) = _
        cases hh : s.holder with
        | none => rfl
        | some b => simp only; rw [hpb b (hnh b hh)]
      rw [e]; exact h.count
  case h_17 o hp =>
    rw [hp] at hl
    obtain ⟨g, g'⟩ := enter_some hs
    cases g'
    apply inv_enter h a _ _ hp <;> first | assumption | simp [phase, procOf, inExit, opOn, crit, adj, Loc]
  case h_18 o hp =>
    obtain ⟨ha, hal, hst, hos, hob⟩ := proc_facts h hp rfl
    rw [use_alive hal] at hs
    cases hs
    subst ha
    have hha : s.holder = some (.worker o) := hcr.mp (by rw [hp]; rfl)
    have hne : (s.obj o).state ≠ .ended := hob.2.2.1
    have hin : InMap s o := worker_inMap h hha (by rw [hp]; rfl) (by rw [hp]; simp)
    generalize hs' : (s.setObj o (fun b => { b with state := .ended })).goto (.worker o) (.teFind o) = s'
    have hpb : ∀ c, c ≠ Actor.worker o → s'.pc c = s.pc c := fun c g => by rw [← hs']; exact upd_other _ _ _ _ g
    have hpa : s'.pc (.worker o) = .teFind o := by rw [← hs']; exact upd_same _ _ _
    have hobo : s'.obj o = { s.obj o with state := .ended } := by rw [← hs']; exact upd_same _ _ _
    have hobn : ∀ o', o' ≠ o → s'.obj o' = s.obj o' := fun o' g => by rw [← hs']; exact upd_other _ _ _ _ g
    have hhs : s'.holder = s.holder := by rw [← hs']; rfl
    have hth : s'.threads = s.threads := by rw [← hs']; rfl
    have hee : s'.ended = s.ended := by rw [← hs']; rfl
    refine inv_obj (s' := s') h (.worker o) o _ (.teFind o) hp hpa (by rw [← hs']; rfl) hpb (fun _ _ => by rw [hhs]) hobn hth (by rw [← hs']; exact h.nofault)
      (Or.inr ⟨rfl, rfl⟩) ⟨by simp [phase], by simp [phase]⟩ (by simp [phase]) (by simp) ?_ (Or.inr rfl) rfl ?_ ⟨hst, by rw [hobo], by rw [hobo]; exact fun g => ⟨g, rfl⟩⟩ ?_ (by rw [hobo]; exact fun g => g)
      (fun g => absurd g hne) (fun b _ g => by rw [hobo]; exact ⟨g, rfl⟩) (by simp [opOn]) trivial ?_ hee (by simp) (by simp)
    · rw [hhs, hha]; simp [crit]
    · rw [hpa]
      exact ⟨by rw [hobo]; exact hal, by rw [hobo]; exact hos, by rw [hobo], by simp only [InMap, hth]; exact hin⟩
    · rw [hobo]; exact fun _ => hal
    · obtain ⟨t, ht⟩ := hin
      have h1 := filter_key (P := isEnded s') (t := t) (o := o) (by simp only [isEnded, hobo, beq_self_eq_true]) _ h.keys ht
      have h2 : (s.threads.filter (isEnded s)).length = ((s.threads.filter (fun e => e.1 != t)).filter (isEnded s')).length := by
        rw [List.filter_filter]
        congr 1
        apply List.filter_congr
        intro e he
        obtain ⟨t', o'⟩ := e
        by_cases hoo : o' = o
        · subst hoo
          have e1 := (h.entry _ _ he).2.1
          have e2 := (h.entry _ _ ht).2.1
          rw [e1] at e2
          cases e2
          simp only [isEnded, hobo, bne_self_eq_false, Bool.and_false]
          simpa using hne
        · have htt : t' ≠ t := by
            intro g
            subst g
            have e1 := h.entry _ _ he
            have e2 := h.entry _ _ ht
            exact hoo (h.ids _ _ e1.2.2 e2.2.2 e1.1 e2.1 (by rw [e1.2.1, e2.2.1]))
          have htb : (t' != t) = true := by simpa using htt
          simp only [isEnded, hobn _ hoo, htb, Bool.and_true]
      have := h.count
      simp only [hadj, hha, hp, adj, cnt] at this
      simp only [hadj, hhs, hha, hpa, adj, cnt, hee, hth]
      omega
  case h_19 o hp =>
    obtain ⟨ha, hal, hst, hos, hob⟩ := proc_facts h hp rfl
    rw [use_alive hal] at hs
    rw [if_pos ((find_own h hst hal).mpr hob.2.2.2)] at hs
    cases hs
    apply inv_goto h a _ _ hp <;> simp [phase, procOf, inExit, opOn, Loc, crit, adj]
  case h_20 o hp =>
    cases hs
    apply inv_count h a _ (.teCast o) 1 hp <;> simp [phase, procOf, inExit, opOn, Loc, crit, adj]
  case h_21 o hp =>
    cases hs
    exact inv_cast h a o hp
  case h_22 o hp =>
    cases hs
    obtain ⟨ha, hal, hst, hos, hob⟩ := proc_facts h hp rfl
    subst ha
    have hha : s.holder = some (.worker o) := hcr.mp (by rw [hp]; rfl)
    generalize hs' : (s.setObj o (fun b => { b with os := .terminated })).leave (.worker o) .done = s'
    have hpb : ∀ c, c ≠ Actor.worker o → s'.pc c = s.pc c := fun c g => by rw [← hs']; exact upd_other _ _ _ _ g
    have hpa : s'.pc (.worker o) = .done := by rw [← hs']; exact upd_same _ _ _
    have hobo : s'.obj o = { s.obj o with os := .terminated } := by rw [← hs']; exact upd_same _ _ _
    have hobn : ∀ o', o' ≠ o → s'.obj o' = s.obj o' := fun o' g => by rw [← hs']; exact upd_other _ _ _ _ g
    have hhs : s'.holder = none := by rw [← hs']; rfl
    have hth : s'.threads = s.threads := by rw [← hs']; rfl
    have hee : s'.ended = s.ended := by rw [← hs']; rfl
    refine inv_obj (s' := s') h (.worker o) o _ .done hp hpa (by rw [← hs']; rfl) hpb (fun b hb => by rw [hhs, hha]; simp [Ne.symm hb]) hobn hth (by rw [← hs']; exact h.nofault)
      (Or.inr ⟨rfl, rfl⟩) ⟨by simp [phase], by simp [phase]⟩ (by simp [phase]) (by simp) ?_ (Or.inl rfl) rfl ?_ ⟨hst, by rw [hobo], by rw [hobo]; exact fun g => ⟨g, rfl⟩⟩ ?_ (by rw [hobo, hos]; intro g; cases g)
      (fun g => by rw [hobo]; exact g) (fun b _ g => by rw [hobo]; exact ⟨g, rfl⟩) (by simp [opOn]) trivial ?_ hee (by simp) (by simp)
    · rw [hhs]; simp [crit]
    · rw [hpa]
      exact ⟨by rw [hobo]; exact hob.2.2.1, Or.inl (by rw [hobo])⟩
    · rw [hobo]; exact fun _ => hal
    · have hc : cnt s' = cnt s := by
        unfold cnt
        rw [hth]
        have : isEnded s' = isEnded s := by
          funext e
          simp only [isEnded]
          by_cases hoo : e.2 = o
          · rw [hoo, hobo]
          · rw [hobn _ hoo]
        rw [this]
      have := h.count
      simp only [hadj, hha, hp, adj] at this
      simp only [hadj, hhs, hc, hee]
      exact this
  case h_23 o hp =>
    rw [hp] at hl
    rw [if_pos (hu o (by rw [hp]; rfl)).2.1] at hs
    unfold State.check at hs
    have hle : (s.obj o).state = .ended := hl
    rw [if_pos (by rw [hle]; rfl)] at hs
    cases hs
    apply inv_goto h a _ _ hp <;> first | assumption | simp [phase, procOf, inExit, opOn, crit, adj]
  case h_24 o hp =>
    rw [hp] at hl
    obtain ⟨g, g'⟩ := enter_some hs
    cases g'
    apply inv_enter h a _ _ hp <;> first | assumption | simp [phase, procOf, inExit, opOn, crit, adj, Loc]
  case h_25 o hp =>
    rw [hp] at hl
    have hal := (hu o (by rw [hp]; rfl)).2.1
    rw [use_alive hal] at hs
    have hd := ended_done h (hcr.mp (by rw [hp]; rfl)) (by rw [hp]; rfl) hl
    have hst : s.pc (.worker o) ≠ .unstarted := by rw [hd]; simp
    split at hs
    · rename_i g
      have hin := (find_own h hst hal).mp g
      cases hs
      apply inv_goto h a _ _ hp <;> first | exact ⟨hd, hin⟩ | simp [phase, procOf, inExit, opOn, crit, adj]
    · rename_i g
      have hin : ¬ InMap s o := fun g' => g ((find_own h hst hal).mpr g')
      cases hs
      apply inv_goto h a _ _ hp <;> first | exact ⟨hd, hin⟩ | simp [phase, procOf, inExit, opOn, crit, adj]
  case h_26 o hp =>
    rw [hp] at hl
    rw [use_alive (hu o (by rw [hp]; rfl)).2.1, if_pos (not_ended_done h hl.1)] at hs
    cases hs
    apply inv_goto h a _ _ hp <;> first | exact hl | simp [phase, procOf, inExit, opOn, crit, adj]
  case h_27 o hp =>
    rw [hp] at hl
    have hha := hcr.mp (by rw [hp]; rfl)
    have hpos : s.ended ≠ 0 := by
      obtain ⟨t, ht⟩ := hl.2
      have h1 := filter_key (P := isEnded s) (by simp only [isEnded, not_ended_done h hl.1, beq_self_eq_true]) _ h.keys ht
      have := h.count
      simp only [hadj, hha, hp, adj, cnt] at this
      omega
    cases hs
    apply inv_count h a _ (.reErase o) (-1) hp <;> first | exact hl | exact Or.inr hpos | simp [phase, procOf, inExit, opOn, crit, adj]
  case h_28 o hp =>
    rw [hp] at hl
    have hal := (hu o (by rw [hp]; rfl)).2.1
    rw [use_alive hal] at hs
    cases hs
    obtain ⟨hd, t, ht⟩ := hl
    have hid := (h.entry _ _ ht).2.1
    rw [hid]
    apply inv_erase h a t o _ (.reLeave o true) hp rfl rfl ht hd rfl rfl rfl rfl rfl (by simp) (by simp [opOn]) rfl
    intro g _
    refine ⟨?_, g⟩
    have : Actor.worker o ≠ a := by intro g; rw [g, hp] at hd; cases hd
    exact (upd_other _ _ _ _ this).trans hd
  case h_29 o f hp =>
    rw [hp] at hl
    cases hs
    apply inv_leave h a _ (.reClear o) hp <;> first | rfl | exact hl | simp [phase, procOf, inExit, opOn, crit, adj, State.leave]
    · exact fun o' => ⟨(s.obj o').user, rfl, fun _ _ g => g⟩
    · exact hu o (by rw [hp]; rfl)
  case h_30 o hp =>
    rw [hp] at hl
    obtain ⟨hus, hal, hlt⟩ := hu o (by rw [hp]; rfl)
    rw [use_alive hal] at hs
    cases hs
    obtain ⟨hd, hno⟩ := hl
    have hob := h.objs o
    rw [hd] at hob
    have hwa : Actor.worker o ≠ a := by intro g; rw [g, hp] at hd; cases hd
    have hnh : ∀ c, s.holder = some c → c ≠ a := by
      intro c g g'
      have := (h.lock c).mpr g
      rw [g', hp] at this
      cases this
    generalize hs' : (s.setObj o (fun b => { b with id := none, alive := false, user := none })).goto a .client = s'
    have hpb : ∀ c, c ≠ a → s'.pc c = s.pc c := fun c g => by rw [← hs']; exact upd_other _ _ _ _ g
    have hpa : s'.pc a = .client := by rw [← hs']; exact upd_same _ _ _
    have hobo : s'.obj o = { s.obj o with id := none, alive := false, user := none } := by rw [← hs']; exact upd_same _ _ _
    have hobn : ∀ o', o' ≠ o → s'.obj o' = s.obj o' := fun o' g => by rw [← hs']; exact upd_other _ _ _ _ g
    have hhs : s'.holder = s.holder := by rw [← hs']; rfl
    have hth : s'.threads = s.threads := by rw [← hs']; rfl
    have hee : s'.ended = s.ended := by rw [← hs']; rfl
    refine inv_obj (s' := s') h a o _ .client hp hpa (by rw [← hs']; rfl) hpb (fun _ _ => by rw [hhs]) hobn hth (by rw [← hs']; exact h.nofault)
      (Or.inl rfl) ⟨by simp [phase], by simp [phase]⟩ (by simp [phase]) (by simp) ?_ (Or.inl rfl) rfl ?_ ⟨by rw [hd]; simp, by rw [hobo], by rw [hobo]; intro g; cases g⟩ (fun g => absurd g hno)
      (by rw [hobo]; exact fun g => g) (by rw [hobo]; exact fun g => g) (fun b hb g => absurd (Option.some.inj (hus.symm.trans g)).symm hb) (by simp [opOn]) trivial ?_ hee (by simp) (by simp)
    · rw [hhs]
      constructor
      · intro g; cases g
      · exact fun g => absurd rfl (hnh _ g)
    · rw [hpb _ hwa, hd]
      simp only [phase, ObjOk, hobo]
      exact hob
    · have hc : cnt s' = cnt s := by
        unfold cnt
        rw [hth]
        have : isEnded s' = isEnded s := by
          funext e
          simp only [isEnded]
          by_cases hoo : e.2 = o
          · rw [hoo, hobo]
          · rw [hobn _ hoo]
        rw [this]
      have e : hadj s' = hadj s := by
        simp only [hadj, hhs]
        cases hh : s.holder with
        | none => rfl
        | some b => simp only; rw [hpb b (hnh b hh)]
      rw [hc, e, hee]; exact h.count
  case h_31 o hp =>
    rw [hp] at hl
    have hal := (hu o (by rw [hp]; rfl)).2.1
    rw [if_pos hal] at hs
    obtain ⟨⟨k, hk⟩, hid⟩ := h.osid o hl
    unfold State.check at hs
    have hne : selfId s a ≠ (s.obj o).id := by
      cases a with
      | ext n => rw [hid hal, hk]; simp [selfId]
      | worker o' =>
        have hw := h.objs o'
        rw [hp] at hw
        have hst : s.pc (.worker o') ≠ .unstarted := by rw [hp]; simp
        intro g
        simp only [selfId] at g
        rw [← (h.osid o' hst).2 hw.1] at g
        have := h.ids o' o hst hl hw.1 hal g
        exact hns _ o hp (by rw [this])
    rw [if_pos (by simp only [Bool.and_eq_true, bne_iff_ne, ne_eq]; exact ⟨hne, by rw [hid hal, hk]; rfl⟩)] at hs
    cases hs
    apply inv_goto h a _ _ hp <;> first | exact hl | simp [phase, procOf, inExit, opOn, crit, adj]
  case h_32 o hp =>
    rw [hp] at hl
    obtain ⟨hus, hal, hlt⟩ := hu o (by rw [hp]; rfl)
    split at hs
    · rename_i hterm
      cases hs
      have hd : s.pc (.worker o) = .done := by
        have := h.objs o
        cases hq : phase (s.pc (.worker o)) with
        | unstarted => rw [hq] at this; rw [this.1] at hterm; cases hterm
        | running => rw [hq] at this; rw [this.2.1] at hterm; cases hterm
        | ending => rw [hq] at this; rw [this.2.1] at hterm; cases hterm
        | done => exact phase_done.mpr hq
      have hob := h.objs o
      rw [hd] at hob
      have hwa : Actor.worker o ≠ a := by intro g; rw [g, hp] at hd; cases hd
      have hnh : ∀ c, s.holder = some c → c ≠ a := by
        intro c g g'
        have := (h.lock c).mpr g
        rw [g', hp] at this
        cases this
      generalize hs' : (s.setObj o (fun b => { b with os := .joined })).goto a (.joEnter o) = s'
      have hpb : ∀ c, c ≠ a → s'.pc c = s.pc c := fun c g => by rw [← hs']; exact upd_other _ _ _ _ g
      have hpa : s'.pc a = .joEnter o := by rw [← hs']; exact upd_same _ _ _
      have hobo : s'.obj o = { s.obj o with os := .joined } := by rw [← hs']; exact upd_same _ _ _
      have hobn : ∀ o', o' ≠ o → s'.obj o' = s.obj o' := fun o' g => by rw [← hs']; exact upd_other _ _ _ _ g
      have hhs : s'.holder = s.holder := by rw [← hs']; rfl
      have hth : s'.threads = s.threads := by rw [← hs']; rfl
      have hee : s'.ended = s.ended := by rw [← hs']; rfl
      refine inv_obj (s' := s') h a o _ (.joEnter o) hp hpa (by rw [← hs']; rfl) hpb (fun _ _ => by rw [hhs]) hobn hth (by rw [← hs']; exact h.nofault)
        (Or.inl rfl) ⟨by simp [phase], by simp [phase]⟩ (by simp [phase]) (by simp) ?_ (Or.inl rfl) rfl ?_ ⟨by rw [hd]; simp, by rw [hobo], by rw [hobo]; exact fun g => ⟨g, rfl⟩⟩ (fun _ => by rw [hobo]; exact hal)
        (by rw [hobo]; exact fun _ => rfl) (by rw [hobo]; exact fun g => g) (fun b hb g => absurd (Option.some.inj (hus.symm.trans g)).symm hb) ?_ ?_ ?_ hee (by simp) (by simp)
      · rw [hhs]
        constructor
        · intro g; cases g
        · exact fun g => absurd rfl (hnh _ g)
      · rw [hpb _ hwa, hd]
        simp only [phase, ObjOk, hobo]
        exact ⟨hob.1, Or.inr trivial⟩
      · intro o' g
        cases g
        rw [hobo]
        exact ⟨hus, hal, hlt⟩
      · show (s'.obj o).os = .joined
        rw [hobo]
      · have hc : cnt s' = cnt s := by
          unfold cnt
          rw [hth]
          have : isEnded s' = isEnded s := by
            funext e
            simp only [isEnded]
            by_cases hoo : e.2 = o
            · rw [hoo, hobo]
            · rw [hobn _ hoo]
          rw [this]
        have e : hadj s' = hadj s := by
          simp only [hadj, hhs]
          cases hh : s.holder with
          | none => rfl
          | some b => simp only; rw [hpb b (hnh b hh)]
        rw [hc, e, hee]; exact h.count
    · cases hs
  case h_33 o hp =>
    rw [hp] at hl
    obtain ⟨g, g'⟩ := enter_some hs
    cases g'
    apply inv_enter h a _ _ hp <;> first | assumption | simp [phase, procOf, inExit, opOn, crit, adj, Loc]
  case h_34 o hp =>
    rw [hp] at hl
    have hal := (hu o (by rw [hp]; rfl)).2.1
    rw [use_alive hal] at hs
    have hst := joined_started h hl
    split at hs
    · rename_i g
      have hin := (find_own h hst hal).mp g
      cases hs
      apply inv_goto h a _ _ hp <;> first | exact ⟨hl, hin⟩ | simp [phase, procOf, inExit, opOn, crit, adj]
    · rename_i g
      have hin : ¬ InMap s o := fun g' => g ((find_own h hst hal).mpr g')
      cases hs
      apply inv_goto h a _ _ hp <;> first | exact ⟨hl, hin⟩ | simp [phase, procOf, inExit, opOn, crit, adj]
  case h_35 o hp =>
    rw [hp] at hl
    have hal := (hu o (by rw [hp]; rfl)).2.1
    rw [if_pos hal] at hs
    obtain ⟨hj, t, ht⟩ := hl
    have hid := (h.entry _ _ ht).2.1
    have hd := joined_done h hj
    rw [hid] at hs
    unfold State.check at hs
    have hlen := filter_key (P := fun _ => true) (t := t) (o := o) rfl _ h.keys ht
    simp only [List.filter_true] at hlen
    rw [if_pos (by simpa [erase] using hlen)] at hs
    cases hs
    apply inv_erase h a t o _ (.joDec o) hp rfl rfl ht hd rfl rfl rfl rfl rfl (by simp) (by simp [opOn]) rfl
    intro g _
    exact ⟨hj, g⟩
  case h_36 o hp =>
    rw [hp] at hl
    have hha := hcr.mp (by rw [hp]; rfl)
    have hpos : s.ended ≠ 0 := by
      have := h.count
      simp only [hadj, hha, hp, adj, cnt] at this
      omega
    cases hs
    apply inv_count h a _ (.joLeave o true) (-1) hp <;> first | exact hl | exact Or.inr hpos | simp [phase, procOf, inExit, opOn, crit, adj]
  case h_37 o f hp =>
    cases hs
    have hus := (hu o (by rw [hp]; rfl)).1
    apply inv_leave h a _ .client hp <;> first | rfl | simp [phase, procOf, inExit, opOn, Loc, crit, adj, State.leave, State.setObj]
    intro o'
    by_cases hoo : o' = o
    · rw [hoo, upd_same]; exact ⟨none, rfl, fun b hb g => by rw [hus] at g; exact absurd (Option.some.inj g).symm hb⟩
    · rw [upd_other _ _ _ _ hoo]; exact ⟨_, rfl, fun _ _ g => g⟩
  case h_38 hp =>
    rw [hp] at hl
    obtain ⟨g, g'⟩ := enter_some hs
    cases g'
    apply inv_enter h a _ _ hp <;> first | assumption | simp [phase, procOf, inExit, opOn, crit, adj, Loc]
  case h_39 hp =>
    split at hs <;> cases hs <;> apply inv_goto h a _ _ hp <;> simp [phase, procOf, inExit, opOn, Loc, crit, adj]
  case h_40 hp =>
    cases hs
    apply inv_leave h a _ .client hp <;> first | rfl | simp [phase, procOf, inExit, opOn, Loc, crit, adj, State.leave]
    exact fun o' => ⟨(s.obj o').user, rfl, fun _ _ g => g⟩
  case h_41 hp =>
    split at hs
    · rename_i g
      cases hs
      apply inv_leave h a _ .jaWaiting hp <;> first | rfl | exact fun _ => g | simp [phase, procOf, inExit, opOn, Loc, crit, adj, State.leave]
      exact fun o' => ⟨(s.obj o').user, rfl, fun _ _ g => g⟩
    · rename_i g
      cases hs
      apply inv_goto h a _ _ hp <;> first | exact g | simp [phase, procOf, inExit, opOn, crit, adj]
  case h_42 hp =>
    cases hs
    apply inv_goto h a _ _ hp <;> simp [phase, procOf, inExit, opOn, Loc, crit, adj]
  case h_43 hp =>
    rw [hp] at hl
    obtain ⟨g, g'⟩ := enter_some hs
    cases g'
    apply inv_enter h a _ _ hp <;> first | assumption | simp [phase, procOf, inExit, opOn, crit, adj, Loc]
  case h_44 e hp =>
    have hall : s.threads.all (fun f => (s.obj f.2).alive) = true := by
      rw [List.all_eq_true]
      exact fun f hf => (h.entry f.1 f.2 hf).1
    rw [if_pos hall] at hs
    split at hs
    · rename_i t o
      split at hs
      · rename_i g
        cases hs
        have hd := ended_done h (hcr.mp (by rw [hp]; rfl)) (by rw [hp]; rfl) g.2
        apply inv_goto h a _ _ hp <;> first | exact ⟨g.1, hd⟩ | simp [phase, procOf, inExit, opOn, crit, adj]
      · cases hs
    · split at hs
      · cases hs
        apply inv_goto h a _ _ hp <;> simp [phase, procOf, inExit, opOn, Loc, crit, adj]
      · cases hs
  case h_45 t o hp =>
    rw [hp] at hl
    cases hs
    obtain ⟨ht, hd⟩ := hl
    apply inv_erase h a t o _ (.jaAssert t o) hp rfl rfl ht hd rfl rfl rfl rfl rfl (by simp) (by simp [opOn]) rfl
    intro g g'
    have : Actor.worker o ≠ a := by intro g; rw [g, hp] at hd; cases hd
    exact ⟨(upd_other _ _ _ _ this).trans hd, g, g'⟩
  case h_46 t o hp =>
    rw [hp] at hl
    unfold State.check at hs
    have hno : (find s.threads (some t)).isNone = true := by
      cases hf : find s.threads (some t) with
      | none => rfl
      | some o' =>
        obtain ⟨o'', g⟩ := (find_some (t := t)).mp (by rw [hf]; rfl)
        exact absurd rfl (hl.2.2 _ g)
    rw [if_pos hno] at hs
    cases hs
    apply inv_goto h a _ _ hp <;> first | exact ⟨hl.1, hl.2.1⟩ | simp [phase, procOf, inExit, opOn, crit, adj]
  case h_47 o hp =>
    rw [hp] at hl
    have hha := hcr.mp (by rw [hp]; rfl)
    have hpos : s.ended ≠ 0 := by
      have := h.count
      simp only [hadj, hha, hp, adj, cnt] at this
      omega
    cases hs
    apply inv_count h a _ (.jaLeave o) (-1) hp <;> first | exact hl | exact Or.inr hpos | simp [phase, procOf, inExit, opOn, crit, adj]
  case h_48 o hp =>
    cases hs
    apply inv_leave h a _ .client hp <;> first | rfl | simp [phase, procOf, inExit, opOn, Loc, crit, adj, State.leave]
    exact fun o' => ⟨(s.obj o').user, rfl, fun _ _ g => g⟩
  case h_49 ex hp =>
    rw [hp] at hnx
    cases ex
    · obtain ⟨g, g'⟩ := enter_some hs
      cases g'
      apply inv_enter h a _ _ hp <;> first | assumption | simp [phase, procOf, inExit, opOn, crit, adj, Loc]
    · cases hnx
  case h_50 ex hp =>
    rw [hp] at hnx
    cases ex
    · cases hs
      apply inv_goto h a _ _ hp <;> simp [phase, procOf, inExit, opOn, Loc, crit, adj]
    · cases hnx
  case h_51 ex r hp =>
    rw [hp] at hnx
    cases ex
    · cases hs
      apply inv_leave h a _ .client hp <;> first | rfl | simp [phase, procOf, inExit, opOn, Loc, crit, adj, State.leave]
      exact fun o' => ⟨(s.obj o').user, rfl, fun _ _ g => g⟩
    · cases hnx
  case h_58 => cases hs
  all_goals
    rename_i hp
    rw [hp] at hnx
    cases hnx

/-- where `a` goes, if not into join, changes nothing about that -/
theorem notSelf_upd {s : State} (h : NotSelf s) {s' : State} (a : Actor) (hpc : ∀ b, s'.pc b = s.pc b ∨ (∀ o, s'.pc b ≠ .joAssert o)) : NotSelf s' := by
  intro b o hb
  rcases hpc b with g | g
  · rw [g] at hb; exact h b o hb
  · exact absurd hb (g o)

end Strpp.Th
