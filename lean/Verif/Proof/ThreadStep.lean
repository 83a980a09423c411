import Verif.Proof.Thread
/-! Every step keeps the invariant. -/
namespace Strpp.Th

theorem inv_construct {s : State} (h : Inv s) (v : Obj) (h1 : v.alive = true) (h2 : v.os = .none) (h3 : v.state ≠ .ended) : Inv { s with n := s.n + 1, obj := upd s.obj s.n v } := by
  have hun := h.unborn s.n (Nat.le_refl _)
  have hother : ∀ o, s.pc (.worker o) ≠ .unstarted → upd s.obj s.n v o = s.obj o := by
    intro o ho
    exact upd_other _ _ _ _ (fun g => ho (by rw [g]; exact hun))
  have hin : ∀ o, InMap s o → o ≠ s.n := fun o ⟨t, g⟩ g' => (h.entry _ _ g).2.2 (by rw [g']; exact hun)
  have hlt : ∀ o, o < s.n → upd s.obj s.n v o = s.obj o := fun o ho => upd_other _ _ _ _ (by omega)
  refine ⟨h.lock, h.own, h.noexit, fun o ho => h.unborn o (by simp only at ho; omega), fun o ho g => ?_, fun o => ?_, fun o ho => ?_, fun o1 o2 g1 g2 g3 g4 g5 => ?_, fun t o ht => ?_, h.keys,
    fun b o hb => ?_, fun b => ?_, ?_, h.waiting, h.nofault⟩
  · simp only at ho ⊢
    by_cases hon : o = s.n
    · rw [hon, upd_same]; exact h1
    · rw [upd_other _ _ _ _ hon]; exact h.born o (by omega) g
  · have := h.objs o
    simp only
    by_cases hon : o = s.n
    · rw [hon, hun] at this ⊢
      simp only [phase, ObjOk, upd_same]
      exact ⟨h2, h3, fun ⟨t, g⟩ => this.2.2 ⟨t, g⟩⟩
    · revert this
      cases phase (s.pc (.worker o)) <;> simp only [ObjOk, upd_other _ _ _ _ hon] <;> exact fun g => g
  · simp only at ho ⊢
    rw [hother o ho]; exact h.osid o ho
  · simp only at g1 g2 g3 g4 g5
    rw [hother o1 g1] at g3 g5
    rw [hother o2 g2] at g4 g5
    exact h.ids o1 o2 g1 g2 g3 g4 g5
  · have := h.entry t o ht
    simp only
    rw [hother o this.2.2]; exact this
  · obtain ⟨g1, g2, g3⟩ := h.user b o hb
    simp only
    rw [hlt o g3]; exact ⟨g1, g2, by omega⟩
  · have := h.loc b
    have hus := h.user b
    simp only
    revert this hus
    cases s.pc b <;> simp only [Loc, opOn] <;> first | exact fun g _ => g | skip
    all_goals
      intro g hus
      rw [hlt _ (hus _ rfl).2.2]
      exact g
  · have : isEnded { s with n := s.n + 1, obj := upd s.obj s.n v } = fun e => (upd s.obj s.n v e.2).state == .ended := rfl
    have hc : cnt { s with n := s.n + 1, obj := upd s.obj s.n v } = cnt s := by
      unfold cnt
      simp only
      congr 2
      apply List.filter_congr
      intro e he
      have := (h.entry e.1 e.2 he).2.2
      simp only [isEnded, hother _ this]
    rw [hc]; exact h.count

theorem inv_create {s : State} (h : Inv s) (a : Actor) (o k : Nat) (hp : s.pc a = .rsCreate o) (hfresh : ∀ o' < s.n, (s.obj o').alive = true → (s.obj o').id ≠ some (.made k)) :
    Inv { s with obj := upd s.obj o { s.obj o with id := some (.made k), os := .running, osId := some (.made k) }, pc := upd (upd s.pc (.worker o) (.tpEnter o)) a (.rsInsert o) } := by
  obtain ⟨hu1, hu2, hu3⟩ := h.user a o (by rw [hp]; rfl)
  have hw : s.pc (.worker o) = .unstarted := by have := h.loc a; rw [hp] at this; exact this
  have haw : a ≠ .worker o := by intro g; rw [g, hw] at hp; cases hp
  have hha : s.holder = some a := (h.lock a).mp (by rw [hp]; rfl)
  have hobjo := h.objs o
  rw [hw] at hobjo
  obtain ⟨ho1, ho2, ho3⟩ := hobjo
  have hpa : upd (upd s.pc (.worker o) (.tpEnter o)) a (.rsInsert o) a = .rsInsert o := upd_same _ _ _
  have hpw : upd (upd s.pc (.worker o) (.tpEnter o)) a (.rsInsert o) (.worker o) = .tpEnter o := by rw [upd_other _ _ _ _ (Ne.symm haw), upd_same]
  have hpb : ∀ b, b ≠ a → b ≠ .worker o → upd (upd s.pc (.worker o) (.tpEnter o)) a (.rsInsert o) b = s.pc b := fun b h1 h2 => by rw [upd_other _ _ _ _ h1, upd_other _ _ _ _ h2]
  have hwo : ∀ o', o' ≠ o → Actor.worker o' ≠ .worker o := fun o' g g' => g (by injection g')
  have hph : ∀ o', o' ≠ o → phase (upd (upd s.pc (.worker o) (.tpEnter o)) a (.rsInsert o) (.worker o')) = phase (s.pc (.worker o')) := by
    intro o' ho'
    by_cases hb : Actor.worker o' = a
    · rw [hb, hpa, hp]; rfl
    · rw [hpb _ hb (hwo o' ho')]
  have hun : ∀ o', o' ≠ o → (upd (upd s.pc (.worker o) (.tpEnter o)) a (.rsInsert o) (.worker o') = .unstarted ↔ s.pc (.worker o') = .unstarted) := fun o' g => by rw [phase_unstarted, phase_unstarted, hph o' g]
  have hdn : ∀ o', o' ≠ o → (upd (upd s.pc (.worker o) (.tpEnter o)) a (.rsInsert o) (.worker o') = .done ↔ s.pc (.worker o') = .done) := fun o' g => by rw [phase_done, phase_done, hph o' g]
  have hlt : ∀ o', s.pc (.worker o') ≠ .unstarted → o' < s.n := fun o' g => by
    by_contra hc
    exact g (h.unborn o' (by omega))
  have huniq : ∀ b o', b ≠ a → opOn (s.pc b) = some o' → o' ≠ o := by
    intro b o' hba g g'
    have := (h.user b o' g).1
    rw [g', hu1] at this
    exact hba (Option.some.inj this).symm
  refine ⟨fun b => ?_, fun b o' hb => ?_, fun b => ?_, fun o' ho => ?_, fun o' ho g => ?_, fun o' => ?_, fun o' ho => ?_, fun o1 o2 g1 g2 g3 g4 g5 => ?_, fun t o' ht => ?_, h.keys, fun b o' hb => ?_,
    fun b => ?_, ?_, fun b hb => ?_, h.nofault⟩
  · simp only
    by_cases hb : b = a
    · rw [hb, hpa, hha]; simp [crit]
    · by_cases hbw : b = .worker o
      · rw [hbw, hpw, hha]; simp [crit, haw]
      · rw [hpb b hb hbw]; exact h.lock b
  · simp only at hb
    by_cases hba : b = a
    · rw [hba, hpa] at hb; cases hb
    · by_cases hbw : b = .worker o
      · rw [hbw, hpw] at hb; cases hb; exact hbw
      · rw [hpb b hba hbw] at hb; exact h.own b o' hb
  · simp only
    by_cases hba : b = a
    · rw [hba, hpa]; rfl
    · by_cases hbw : b = .worker o
      · rw [hbw, hpw]; rfl
      · rw [hpb b hba hbw]; exact h.noexit b
  · simp only at ho ⊢
    rw [hun o' (by omega)]; exact h.unborn o' ho
  · simp only at ho g ⊢
    by_cases hoo : o' = o
    · rw [hoo, hpw] at g; cases g
    · rw [upd_other _ _ _ _ hoo]; exact h.born o' ho ((hun o' hoo).mp g)
  · simp only
    by_cases hoo : o' = o
    · rw [hoo, hpw]
      simp only [phase, ObjOk, upd_same]
      exact ⟨hu2, trivial, ho2, Or.inr ⟨a, hha, upd_same _ _ _⟩⟩
    · rw [hph o' hoo]
      have := h.objs o'
      revert this
      cases phase (s.pc (.worker o')) <;> simp only [ObjOk, upd_other _ _ _ _ hoo] <;> first | exact fun g => g | skip
      rintro ⟨g1, g2, g3, g4⟩
      refine ⟨g1, g2, g3, g4.imp id ?_⟩
      rintro ⟨b, g5, g6⟩
      rw [hha] at g5
      cases g5
      rw [hp] at g6
      cases g6
  · simp only at ho ⊢
    by_cases hoo : o' = o
    · rw [hoo, upd_same]; exact ⟨⟨k, rfl⟩, fun _ => rfl⟩
    · rw [upd_other _ _ _ _ hoo]; exact h.osid o' (fun g => ho ((hun o' hoo).mpr g))
  · simp only at g1 g2 g3 g4 g5
    by_cases h1 : o1 = o
    · by_cases h2 : o2 = o
      · rw [h1, h2]
      · rw [h1, upd_same, upd_other _ _ _ _ h2] at g5
        rw [upd_other _ _ _ _ h2] at g4
        exact absurd g5.symm (hfresh o2 (hlt o2 (fun g => g2 ((hun o2 h2).mpr g))) g4)
    · by_cases h2 : o2 = o
      · rw [h2, upd_same, upd_other _ _ _ _ h1] at g5
        rw [upd_other _ _ _ _ h1] at g3
        exact absurd g5 (hfresh o1 (hlt o1 (fun g => g1 ((hun o1 h1).mpr g))) g3)
      · rw [upd_other _ _ _ _ h1, upd_other _ _ _ _ h2] at g5
        rw [upd_other _ _ _ _ h1] at g3
        rw [upd_other _ _ _ _ h2] at g4
        exact h.ids o1 o2 (fun g => g1 ((hun o1 h1).mpr g)) (fun g => g2 ((hun o2 h2).mpr g)) g3 g4 g5
  · simp only at ht ⊢
    have hoo : o' ≠ o := fun g => ho3 ⟨t, by rw [← g]; exact ht⟩
    have := h.entry t o' ht
    rw [upd_other _ _ _ _ hoo, ne_eq, hun o' hoo]; exact this
  · simp only at hb ⊢
    by_cases hba : b = a
    · rw [hba, hpa] at hb
      cases hb
      rw [hba, upd_same]; exact ⟨hu1, hu2, hu3⟩
    · by_cases hbw : b = .worker o
      · rw [hbw, hpw] at hb; cases hb
      · rw [hpb b hba hbw] at hb
        rw [upd_other _ _ _ _ (huniq b o' hba hb)]
        exact h.user b o' hb
  · simp only
    by_cases hba : b = a
    · rw [hba, hpa]
      exact ⟨by simp only; rw [hpw]; rfl, ho3⟩
    · by_cases hbw : b = .worker o
      · rw [hbw, hpw]; trivial
      · rw [hpb b hba hbw]
        have hout := others_out h hha hba
        have := h.loc b
        have hq := huniq b
        revert this hq hout
        cases hq : s.pc b <;> simp only [Loc, opOn, crit] <;> first | (intro _ g _; exact g) | (intro g; cases g; done) | skip
        all_goals
          intro _ g hq
          have hoo := hq _ hba rfl
          first
            | (simp only [ne_eq, hun _ hoo]; exact g)
            | (rw [upd_other _ _ _ _ hoo]; exact g)
            | (simp only [hdn _ hoo]; exact g)
  · have hc : cnt { s with obj := upd s.obj o { s.obj o with id := some (.made k), os := .running, osId := some (.made k) }, pc := upd (upd s.pc (.worker o) (.tpEnter o)) a (.rsInsert o) } = cnt s := by
      unfold cnt
      simp only
      congr 2
      apply List.filter_congr
      intro e he
      have hoo : e.2 ≠ o := fun g => ho3 ⟨e.1, by rw [← g]; exact he⟩
      simp only [isEnded, upd_other _ _ _ _ hoo]
    rw [hc]
    have := h.count
    simp only [hadj, hha, hp] at this
    simp only [hadj, hha, hpa]
    exact this
  · simp only at hb ⊢
    have hba : b ≠ a := by intro g; rw [g, hpa] at hb; cases hb
    have hbw : b ≠ .worker o := by intro g; rw [g, hpw] at hb; cases hb
    rw [hpb b hba hbw] at hb
    refine (h.waiting b hb).imp id ?_
    rintro ⟨c, o', g1, g2⟩
    rw [hha] at g1
    cases g1
    rw [hp] at g2
    cases g2

theorem inv_insert {s : State} (h : Inv s) (a : Actor) (o : Nat) (hp : s.pc a = .rsInsert o) :
    Inv { s with threads := insert s.threads (s.obj o).id o, pc := upd s.pc a (.rsLeave o) } := by
  obtain ⟨hu1, hu2, hu3⟩ := h.user a o (by rw [hp]; rfl)
  have hl := h.loc a
  rw [hp] at hl
  obtain ⟨hrun, hno⟩ := hl
  have hst : s.pc (.worker o) ≠ .unstarted := fun g => by rw [g] at hrun; cases hrun
  have hha : s.holder = some a := (h.lock a).mp (by rw [hp]; rfl)
  obtain ⟨⟨k, hk⟩, hid⟩ := h.osid o hst
  have hid := (hid hu2).trans hk
  have hnf : ¬ (find s.threads (s.obj o).id).isSome = true := fun g => hno ((find_own h hst hu2).mp g)
  have hins : insert s.threads (s.obj o).id o = s.threads ++ [(.made k, o)] := by
    rw [hid] at hnf ⊢
    unfold insert
    simp only [find, Option.isSome_map] at hnf
    simp only
    rw [if_neg hnf]
  have hkey : ∀ e ∈ s.threads, e.1 ≠ .made k := by
    intro e he g
    rw [hid] at hnf
    exact hnf (find_some.mpr ⟨e.2, by rw [← g]; exact he⟩)
  rw [hins]
  have hpa : upd s.pc a (.rsLeave o) a = .rsLeave o := upd_same _ _ _
  have hpb : ∀ b, b ≠ a → upd s.pc a (.rsLeave o) b = s.pc b := fun b g => upd_other _ _ _ _ g
  have hph : ∀ b, phase (upd s.pc a (.rsLeave o) b) = phase (s.pc b) := by
    intro b
    by_cases g : b = a
    · rw [g, hpa, hp]; rfl
    · rw [hpb b g]
  have hun : ∀ b, upd s.pc a (.rsLeave o) b = .unstarted ↔ s.pc b = .unstarted := fun b => by rw [phase_unstarted, phase_unstarted, hph]
  have hdn : ∀ b, upd s.pc a (.rsLeave o) b = .done ↔ s.pc b = .done := fun b => by rw [phase_done, phase_done, hph]
  generalize hT : s.threads ++ [(Id.made k, o)] = T
  have hmem : ∀ e, e ∈ T ↔ e ∈ s.threads ∨ e = (.made k, o) := fun e => by rw [← hT]; simp
  have hmap : ∀ o', o' ≠ o → ((∃ t, (t, o') ∈ T) ↔ InMap s o') := by
    intro o' ho
    constructor
    · rintro ⟨t, g⟩
      rcases (hmem _).mp g with g | g
      · exact ⟨t, g⟩
      · cases g; exact absurd rfl ho
    · rintro ⟨t, g⟩; exact ⟨t, (hmem _).mpr (Or.inl g)⟩
  have hobjo := h.objs o
  rw [hrun] at hobjo
  refine ⟨fun b => ?_, fun b o' hb => ?_, fun b => ?_, fun o' ho => (hun _).mpr (h.unborn o' ho), fun o' ho g => h.born o' ho ((hun _).mp g), fun o' => ?_, fun o' ho => h.osid o' (fun g => ho ((hun _).mpr g)),
    fun o1 o2 g1 g2 g3 g4 g5 => h.ids o1 o2 (fun g => g1 ((hun _).mpr g)) (fun g => g2 ((hun _).mpr g)) g3 g4 g5, fun t o' ht => ?_, ?_, fun b o' hb => ?_,
    fun b => ?_, ?_, fun b hb => ?_, h.nofault⟩
  · simp only
    by_cases hb : b = a
    · rw [hb, hpa, hha]; simp [crit]
    · rw [hpb b hb]; exact h.lock b
  · simp only at hb
    by_cases hba : b = a
    · rw [hba, hpa] at hb; cases hb
    · rw [hpb b hba] at hb; exact h.own b o' hb
  · simp only
    by_cases hba : b = a
    · rw [hba, hpa]; rfl
    · rw [hpb b hba]; exact h.noexit b
  · simp only
    rw [hph]
    by_cases hoo : o' = o
    · rw [hoo, hrun]
      exact ⟨hobjo.1, hobjo.2.1, hobjo.2.2.1, Or.inl ⟨.made k, (hmem _).mpr (Or.inr rfl)⟩⟩
    · have := h.objs o'
      revert this
      cases phase (s.pc (.worker o')) with
      | unstarted => exact fun g => ⟨g.1, g.2.1, fun g' => g.2.2 ((hmap o' hoo).mp g')⟩
      | running =>
        rintro ⟨g1, g2, g3, g4⟩
        refine ⟨g1, g2, g3, Or.inl ((hmap o' hoo).mpr ?_)⟩
        rcases g4 with g4 | ⟨b, g5, g6⟩
        · exact g4
        · rw [hha] at g5
          cases g5
          rw [hp] at g6
          cases g6
          exact absurd rfl hoo
      | ending => exact fun g => ⟨g.1, g.2.1, g.2.2.1, (hmap o' hoo).mpr g.2.2.2⟩
      | done => exact fun g => g
  · simp only at ht ⊢
    rw [ne_eq, hun]
    rcases (hmem _).mp ht with g | g
    · exact h.entry t o' g
    · cases g; exact ⟨hu2, hid, hst⟩
  · simp only
    rw [← hT, List.map_append, List.nodup_append]
    refine ⟨h.keys, by simp, ?_⟩
    intro x hx y hy
    simp only [List.map_cons, List.map_nil, List.mem_singleton] at hy
    obtain ⟨e, he, rfl⟩ := List.mem_map.mp hx
    rw [hy]; exact hkey e he
  · simp only at hb ⊢
    by_cases hba : b = a
    · rw [hba, hpa] at hb
      cases hb
      rw [hba]; exact ⟨hu1, hu2, hu3⟩
    · rw [hpb b hba] at hb; exact h.user b o' hb
  · simp only
    by_cases hba : b = a
    · rw [hba, hpa]
      simp only [Loc, ne_eq, hun]
      exact hst
    · rw [hpb b hba]
      have hout := others_out h hha hba
      have := h.loc b
      revert this hout
      cases hq : s.pc b with
      | reClear o' =>
        simp only [Loc, hdn]
        rintro - ⟨g1, g2⟩
        have hoo : o' ≠ o := by
          intro g
          rw [g] at g1
          rw [g1] at hrun
          cases hrun
        exact ⟨g1, fun g => g2 ((hmap o' hoo).mp g)⟩
      | _ => simp [Loc, crit, hun]
  · have hc : cnt { s with threads := T, pc := upd s.pc a (.rsLeave o) } = cnt s := by
      unfold cnt
      simp only [← hT, List.filter_append]
      have : isEnded { s with threads := T, pc := upd s.pc a (.rsLeave o) } (Id.made k, o) = false := by
        simp only [isEnded]
        simpa using hobjo.2.2.1
      rw [hT, List.filter_cons_of_neg (by rw [this]; simp), List.filter_nil, List.append_nil]
      rfl
    rw [hc]
    have := h.count
    simp only [hadj, hha, hp] at this
    simp only [hadj, hha, hpa]
    exact this
  · simp only at hb ⊢
    have hba : b ≠ a := by intro g; rw [g, hpa] at hb; cases hb
    rw [hpb b hba] at hb
    refine (h.waiting b hb).imp id ?_
    rintro ⟨c, o', g1, g2⟩
    rw [hha] at g1
    cases g1
    rw [hp] at g2
    cases g2

theorem inv_cast {s : State} (h : Inv s) (a : Actor) (o : Nat) (hp : s.pc a = .teCast o) : Inv (s.broadcast.goto a (.teLeave o)) := by
  have hha : s.holder = some a := (h.lock a).mp (by rw [hp]; rfl)
  have hpa : (s.broadcast.goto a (.teLeave o)).pc a = .teLeave o := upd_same _ _ _
  have hpb : ∀ b, b ≠ a → (s.broadcast.goto a (.teLeave o)).pc b = if s.pc b = .jaWaiting then .jaWoken else s.pc b := fun b g => upd_other _ _ _ _ g
  have hnw : ∀ b, (s.broadcast.goto a (.teLeave o)).pc b ≠ .jaWaiting := by
    intro b g
    by_cases hb : b = a
    · rw [hb, hpa] at g; cases g
    · rw [hpb b hb] at g
      split at g
      · cases g
      · contradiction
  have hph : ∀ b, phase ((s.broadcast.goto a (.teLeave o)).pc b) = phase (s.pc b) := by
    intro b
    by_cases hb : b = a
    · rw [hb, hpa, hp]; rfl
    · rw [hpb b hb]
      split
      · rename_i g; rw [g]; rfl
      · rfl
  have hun : ∀ b, (s.broadcast.goto a (.teLeave o)).pc b = .unstarted ↔ s.pc b = .unstarted := fun b => by rw [phase_unstarted, phase_unstarted, hph]
  have hdn : ∀ b, (s.broadcast.goto a (.teLeave o)).pc b = .done ↔ s.pc b = .done := fun b => by rw [phase_done, phase_done, hph]
  generalize hs' : s.broadcast.goto a (.teLeave o) = s' at *
  have e1 : s'.obj = s.obj := by rw [← hs']; rfl
  have e2 : s'.threads = s.threads := by rw [← hs']; rfl
  have e3 : s'.holder = s.holder := by rw [← hs']; rfl
  have e4 : s'.n = s.n := by rw [← hs']; rfl
  have e5 : s'.ended = s.ended := by rw [← hs']; rfl
  have e6 : s'.fault = s.fault := by rw [← hs']; rfl
  have hmap : ∀ o, InMap s' o ↔ InMap s o := fun o => by simp only [InMap, e2]
  have hown := h.own a o (by rw [hp]; rfl)
  refine ⟨fun b => ?_, fun b o' hb => ?_, fun b => ?_, fun o' ho => (hun _).mpr (h.unborn o' (by omega)), fun o' ho g => by rw [e1]; exact h.born o' (by omega) ((hun _).mp g), fun o' => ?_,
    fun o' ho => by rw [e1]; exact h.osid o' (fun g => ho ((hun _).mpr g)),
    fun o1 o2 g1 g2 => by rw [e1]; exact h.ids o1 o2 (fun g => g1 ((hun _).mpr g)) (fun g => g2 ((hun _).mpr g)), fun t o' ht => ?_, by rw [e2]; exact h.keys, fun b o' hb => ?_,
    fun b => ?_, ?_, fun b hb => absurd hb (hnw b), by rw [e6]; exact h.nofault⟩
  · by_cases hb : b = a
    · rw [hb, hpa, e3, hha]; simp [crit]
    · rw [hpb b hb, e3, ← h.lock b]
      split
      · rename_i g; rw [g]; simp [crit]
      · rfl
  · by_cases hba : b = a
    · rw [hba, hpa] at hb; cases hb; rw [hba]; exact hown
    · rw [hpb b hba] at hb
      split at hb
      · cases hb
      · exact h.own b o' hb
  · by_cases hba : b = a
    · rw [hba, hpa]; rfl
    · rw [hpb b hba]
      split
      · rfl
      · exact h.noexit b
  · rw [hph]
    have := h.objs o'
    revert this
    cases phase (s.pc (.worker o')) <;> simp only [ObjOk, e1, hmap, e3] <;> first | exact fun g => g | skip
    rintro ⟨g1, g2, g3, g4⟩
    refine ⟨g1, g2, g3, g4.imp id ?_⟩
    rintro ⟨b, g5, g6⟩
    rw [hha] at g5
    cases g5
    rw [hp] at g6
    cases g6
  · rw [e1, ne_eq, hun]; rw [e2] at ht; exact h.entry t o' ht
  · rw [e1, e4]
    by_cases hba : b = a
    · rw [hba, hpa] at hb; cases hb
    · rw [hpb b hba] at hb
      split at hb
      · cases hb
      · exact h.user b o' hb
  · by_cases hba : b = a
    · rw [hba, hpa]; trivial
    · rw [hpb b hba]
      split
      · trivial
      · have hout := others_out h hha hba
        have := h.loc b
        revert this hout
        cases hq : s.pc b <;> simp [Loc, crit, hun, hdn, e1, hmap]
  · have hc : cnt s' = cnt s := by
      unfold cnt
      rw [e2]
      have : isEnded s' = isEnded s := by funext e; simp only [isEnded, e1]
      rw [this]
    rw [hc, e5]
    have := h.count
    simp only [hadj, hha, hp] at this
    simp only [hadj, e3, hha, hpa]
    exact this

end Strpp.Th
