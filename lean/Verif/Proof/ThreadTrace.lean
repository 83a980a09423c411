import Verif.Proof.ThreadInv
/-! The events and the state: what has ended, what was reaped. -/
set_option linter.unusedSimpArgs false
set_option linter.unusedVariables false
namespace Strpp.Th

theorem notSelf_step {P : Policy} {s : State} (h : NotSelf s) (a : Actor) (x : Act) (s' : State) (e : Option Event) (hs : step P s a x = some (s', e)) : NotSelf s' := by
  intro b o hb
  have key : s'.pc b = s.pc b ∨ (∀ o, s'.pc b ≠ .joAssert o) ∨ (b = a ∧ ∃ o, s'.pc b = .joAssert o ∧ a ≠ .worker o) := by
    by_cases hba : b = a
    · subst hba
      unfold step at hs
      split at hs
      · cases hs
      · split at hs
        case h_4 o hp =>
          split at hs
          · rename_i g
            cases hs
            right; right
            simp only [Bool.and_eq_true, bne_iff_ne, ne_eq] at g
            exact ⟨rfl, o, upd_same _ _ _, g.2⟩
          · cases hs
        all_goals
          try simp only [State.use, State.check, State.enter] at hs
          repeat' split at hs
          all_goals first
            | (cases hs; done)
            | (cases hs; left; rfl)
            | (cases hs; right; left; intro o; simp [State.goto, State.leave, State.setObj, State.broadcast, upd]; done)
            | (cases hs; right; left; intro o; simp only [State.goto, State.leave, State.setObj, State.broadcast, upd]; simp; split <;> simp; done)
    · unfold step at hs
      split at hs
      · cases hs
      · split at hs
        all_goals
          try simp only [State.use, State.check, State.enter] at hs
          repeat' split at hs
          all_goals first
            | (cases hs; done)
            | (cases hs; left; rfl)
            | (cases hs; left; simp [State.goto, State.leave, State.setObj, State.broadcast, upd, hba]; done)
            | skip
        · cases hs
          by_cases hw : b = .worker ‹Nat›
          · right; left; intro o; rw [hw]; simp [State.goto, upd]; split <;> simp
          · left; simp [State.goto, State.setObj, upd, hba, hw]
        · cases hs
          simp only [State.goto, State.broadcast, upd, hba, if_false]
          split
          · right; left; intro o; simp
          · left; rfl
        · cases hs
          simp only [State.goto, State.broadcast, upd, hba, if_false]
          split
          · right; left; intro o; simp
          · left; rfl
  rcases key with g | g | ⟨g, o', g1, g2⟩
  · rw [g] at hb; exact h b o hb
  · exact absurd hb (g o)
  · rw [hb] at g1; cases g1; rw [g]; exact g2

/-- out of the list, the event not yet given -/
def pend : Pc → Option Nat
  | .reLeave o true | .joDec o | .joLeave o true | .jaAssert _ o | .jaDec o | .jaLeave o => some o
  | _ => none

structure TInv (s : State) (tr : List Event) : Prop where
  enodup : (endedIn tr).Nodup
  ended : ∀ o, o ∈ endedIn tr ↔ s.pc (.worker o) = .done
  rnodup : (reapedIn tr).Nodup
  reaped : ∀ o, o ∈ reapedIn tr → s.pc (.worker o) = .done ∧ ¬ InMap s o
  pending : ∀ a o, pend (s.pc a) = some o → o ∉ reapedIn tr
  all : ∀ o, s.pc (.worker o) = .done → o ∈ reapedIn tr ∨ InMap s o ∨ ∃ a, pend (s.pc a) = some o

theorem tinv_init : TInv init [] := by
  refine ⟨List.nodup_nil, fun o => ?_, List.nodup_nil, fun o h => ?_, fun a o h => ?_, fun o h => ?_⟩
  · simp [endedIn, init]
  · cases h
  · exact fun g => by cases g
  · simp [init] at h

/-- an event that says nothing about the end of a thread -/
def quiet : Option Event → Bool
  | some (.ended _) | some (.reaped _ _) => false
  | _ => true

theorem quiet_add {e : Option Event} (h : quiet e = true) (tr : List Event) : endedIn (add e tr) = endedIn tr ∧ reapedIn (add e tr) = reapedIn tr := by
  cases e with
  | none => exact ⟨rfl, rfl⟩
  | some e => cases e <;> first | exact ⟨rfl, rfl⟩ | cases h

theorem tinv_frame {s s' : State} {tr : List Event} {e : Option Event} (h : TInv s tr) (hq : quiet e = true) (hd : ∀ o, s'.pc (.worker o) = .done ↔ s.pc (.worker o) = .done) (hth : s'.threads = s.threads)
    (hp : ∀ b, pend (s'.pc b) = pend (s.pc b)) : TInv s' (add e tr) := by
  have hm : ∀ o, InMap s' o ↔ InMap s o := fun o => by simp only [InMap, hth]
  obtain ⟨q1, q2⟩ := quiet_add hq tr
  refine ⟨by rw [q1]; exact h.enodup, fun o => by rw [q1, hd]; exact h.ended o, by rw [q2]; exact h.rnodup, fun o => by rw [q2, hd, hm]; exact h.reaped o, fun a o => by rw [q2, hp]; exact h.pending a o,
    fun o => ?_⟩
  rw [q2, hd, hm]
  simp only [hp]
  exact h.all o

/-- one thread goes on, with no news about the end of a thread -/
theorem tinv_upd {s s' : State} {tr : List Event} {e : Option Event} (h : TInv s tr) (hq : quiet e = true) (a : Actor) (p p' : Pc) (hp : s.pc a = p) (hpc : s'.pc = upd s.pc a p') (hth : s'.threads = s.threads)
    (hd : p' = .done ↔ p = .done) (hpe : pend p' = pend p) : TInv s' (add e tr) := by
  refine tinv_frame h hq (fun o => ?_) hth (fun b => ?_)
  · rw [hpc]
    by_cases hb : Actor.worker o = a
    · rw [hb, upd_same, hp]; exact hd
    · rw [upd_other _ _ _ _ hb]
  · rw [hpc]
    by_cases hb : b = a
    · rw [hb, upd_same, hp]; exact hpe
    · rw [upd_other _ _ _ _ hb]

/-- an entry is taken out -/
theorem tinv_erase {s s' : State} {tr : List Event} (h : TInv s tr) (hi : Inv s) (a : Actor) (p p' : Pc) (t : Id) (o : Nat) (hp : s.pc a = p) (hpc : s'.pc = upd s.pc a p') (ht : (t, o) ∈ s.threads)
    (hth : s'.threads = erase s.threads (some t)) (hpp : pend p = none) (hpp' : pend p' = some o) (hd : s.pc (.worker o) = .done) (hnd : p ≠ .done ∧ p' ≠ .done) : TInv s' (add none tr) := by
  have hmem : ∀ e, e ∈ s'.threads ↔ e ∈ s.threads ∧ e.1 ≠ t := fun e => by rw [hth]; simp [erase]
  have hsub : ∀ o', InMap s' o' → InMap s o' := fun o' ⟨t', g⟩ => ⟨t', ((hmem _).mp g).1⟩
  have hkeep : ∀ o', o' ≠ o → InMap s o' → InMap s' o' := by
    rintro o' hne ⟨t', g⟩
    refine ⟨t', (hmem _).mpr ⟨g, ?_⟩⟩
    intro (htt : t' = t)
    subst htt
    obtain ⟨a1, a2, a3⟩ := hi.entry _ _ g
    obtain ⟨b1, b2, b3⟩ := hi.entry _ _ ht
    exact hne (hi.ids _ _ a3 b3 a1 b1 (by rw [a2, b2]))
  have hdn : ∀ o, s'.pc (.worker o) = .done ↔ s.pc (.worker o) = .done := by
    intro o
    rw [hpc]
    by_cases hb : Actor.worker o = a
    · rw [hb, upd_same, hp]; exact ⟨fun g => absurd g hnd.2, fun g => absurd g hnd.1⟩
    · rw [upd_other _ _ _ _ hb]
  refine ⟨h.enodup, fun o => by rw [hdn]; exact h.ended o, h.rnodup, fun o' g => by rw [hdn]; exact ⟨(h.reaped o' g).1, fun g' => (h.reaped o' g).2 (hsub _ g')⟩, fun b o' g => ?_, fun o' g => ?_⟩
  · rw [hpc] at g
    by_cases hb : b = a
    · rw [hb, upd_same, hpp'] at g
      cases g
      exact fun g => (h.reaped o g).2 ⟨t, ht⟩
    · rw [upd_other _ _ _ _ hb] at g; exact h.pending b o' g
  · by_cases hoo : o' = o
    · exact Or.inr (Or.inr ⟨a, by rw [hpc, upd_same, hpp', hoo]⟩)
    · rcases h.all o' ((hdn _).mp g) with g1 | g1 | ⟨b, g1⟩
      · exact Or.inl g1
      · exact Or.inr (Or.inl (hkeep o' hoo g1))
      · have hba : b ≠ a := by intro g; rw [g, hp, hpp] at g1; cases g1
        exact Or.inr (Or.inr ⟨b, by rw [hpc, upd_other _ _ _ _ hba]; exact g1⟩)

/-- the news about a reaped one -/
theorem tinv_reap {s s' : State} {tr : List Event} {how : How} (h : TInv s tr) (hi : Inv s) (a : Actor) (p p' : Pc) (o : Nat) (hp : s.pc a = p) (hpc : s'.pc = upd s.pc a p') (hth : s'.threads = s.threads)
    (hc : crit p = true) (hpp : pend p = some o) (hpp' : pend p' = none) (hd : s.pc (.worker o) = .done) (hno : ¬ InMap s o) (hnd : p ≠ .done ∧ p' ≠ .done) : TInv s' (add (some (.reaped o how)) tr) := by
  have hha : s.holder = some a := (hi.lock a).mp (by rw [hp]; exact hc)
  have hdn : ∀ o, s'.pc (.worker o) = .done ↔ s.pc (.worker o) = .done := by
    intro o
    rw [hpc]
    by_cases hb : Actor.worker o = a
    · rw [hb, upd_same, hp]; exact ⟨fun g => absurd g hnd.2, fun g => absurd g hnd.1⟩
    · rw [upd_other _ _ _ _ hb]
  have hm : ∀ o, InMap s' o ↔ InMap s o := fun o => by simp only [InMap, hth]
  have hnp : ∀ b, b ≠ a → pend (s.pc b) = none := by
    intro b hb
    have := others_out hi hha hb
    revert this
    cases hq : s.pc b <;> simp [crit, pend]
  refine ⟨h.enodup, fun o => by rw [hdn]; exact h.ended o, ?_, fun o' g => ?_, fun b o' g => ?_, fun o' g => ?_⟩
  · exact List.nodup_cons.mpr ⟨h.pending a o (by rw [hp]; exact hpp), h.rnodup⟩
  · rw [hdn, hm]
    rcases List.mem_cons.mp g with g | g
    · rw [g]; exact ⟨hd, hno⟩
    · exact h.reaped o' g
  · rw [hpc] at g
    by_cases hb : b = a
    · rw [hb, upd_same, hpp'] at g; cases g
    · rw [upd_other _ _ _ _ hb, hnp b hb] at g; cases g
  · rw [hm]
    rcases h.all o' ((hdn _).mp g) with g1 | g1 | ⟨b, g1⟩
    · exact Or.inl (List.mem_cons_of_mem _ g1)
    · exact Or.inr (Or.inl g1)
    · by_cases hb : b = a
      · rw [hb, hp, hpp] at g1
        cases g1
        exact Or.inl List.mem_cons_self
      · rw [hnp b hb] at g1; cases g1

theorem tinv_step {s : State} {tr : List Event} (h : TInv s tr) (hi : Inv s) (a : Actor) (x : Act) (s' : State) (e : Option Event) (hs : step strict s a x = some (s', e)) : TInv s' (add e tr) := by
  unfold step at hs
  rw [if_neg (by rw [hi.nofault]; simp)] at hs
  have hl := hi.loc a
  have hu := hi.user a
  have hcr := hi.lock a
  have hnx := hi.noexit a
  split at hs
  case h_10 o t hp =>
    have hlw : s.pc (.worker o) = .unstarted := by rw [hp] at hl; exact hl
    rw [use_alive (hu o (by rw [hp]; rfl)).2.1] at hs
    split at hs
    · cases hs
      refine tinv_frame h rfl (fun o' => ?_) rfl (fun b => ?_)
      · simp only [State.goto, State.setObj]
        by_cases hb : Actor.worker o' = a
        · rw [hb, upd_same, hp]; simp
        · rw [upd_other _ _ _ _ hb]
          by_cases hb : Actor.worker o' = .worker o
          · rw [hb, upd_same, hlw]; simp
          · rw [upd_other _ _ _ _ hb]
      · simp only [State.goto, State.setObj]
        by_cases hb : b = a
        · rw [hb, upd_same, hp]; rfl
        · rw [upd_other _ _ _ _ hb]
          by_cases hb : b = .worker o
          · rw [hb, upd_same, hlw]; rfl
          · rw [upd_other _ _ _ _ hb]
    · cases hs
  case h_11 o hp =>
    have hl' := hl
    rw [hp] at hl'
    obtain ⟨hrun, hno⟩ := hl'
    have hal := (hu o (by rw [hp]; rfl)).2.1
    rw [use_alive hal] at hs
    cases hs
    have hdn : ∀ o', upd s.pc a (.rsLeave o) (.worker o') = .done ↔ s.pc (.worker o') = .done := by
      intro o'
      by_cases hb : Actor.worker o' = a
      · rw [hb, upd_same, hp]; simp
      · rw [upd_other _ _ _ _ hb]
    have hpe : ∀ b, pend (upd s.pc a (.rsLeave o) b) = pend (s.pc b) := by
      intro b
      by_cases hb : b = a
      · rw [hb, upd_same, hp]; rfl
      · rw [upd_other _ _ _ _ hb]
    have hm : ∀ o', (∃ t, (t, o') ∈ insert s.threads (s.obj o).id o) → InMap s o' ∨ o' = o := by
      rintro o' ⟨t, g⟩
      unfold insert at g
      split at g
      · exact Or.inl ⟨t, g⟩
      · split at g
        · exact Or.inl ⟨t, g⟩
        · rcases List.mem_append.mp g with g | g
          · exact Or.inl ⟨t, g⟩
          · simp at g; exact Or.inr g.2
    have hm' : ∀ o', InMap s o' → ∃ t, (t, o') ∈ insert s.threads (s.obj o).id o := by
      rintro o' ⟨t, g⟩
      refine ⟨t, ?_⟩
      unfold insert
      split
      · exact g
      · split
        · exact g
        · exact List.mem_append_left _ g
    refine ⟨h.enodup, fun o' => ?_, h.rnodup, fun o' g => ?_, fun b o' g => ?_, fun o' g => ?_⟩
    · exact (h.ended o').trans (hdn o').symm
    · refine ⟨(hdn o').mpr (h.reaped o' g).1, fun g' => ?_⟩
      rcases hm o' g' with g1 | g1
      · exact (h.reaped o' g).2 g1
      · have := (h.reaped o' g).1
        rw [g1] at this
        rw [this] at hrun
        cases hrun
    · exact h.pending b o' ((hpe b).symm.trans g)
    · rcases h.all o' ((hdn o').mp g) with g1 | g1 | ⟨b, g1⟩
      · exact Or.inl g1
      · exact Or.inr (Or.inl (hm' o' g1))
      · exact Or.inr (Or.inr ⟨b, (hpe b).trans g1⟩)
  case h_21 o hp =>
    cases hs
    refine tinv_frame h rfl (fun o' => ?_) rfl (fun b => ?_)
    · simp only [State.goto, State.broadcast]
      by_cases hb : Actor.worker o' = a
      · rw [hb, upd_same, hp]; simp
      · rw [upd_other _ _ _ _ hb]
        split
        · rename_i g; rw [g]; simp
        · rfl
    · simp only [State.goto, State.broadcast]
      by_cases hb : b = a
      · rw [hb, upd_same, hp]; rfl
      · rw [upd_other _ _ _ _ hb]
        split
        · rename_i g; rw [g]; rfl
        · rfl
  case h_22 o hp =>
    cases hs
    have ha := (proc_facts hi hp rfl).1
    have hob := (proc_facts hi hp rfl).2.2.2.2
    have hpc : ∀ b, b ≠ a → upd s.pc a .done b = s.pc b := fun b g => upd_other _ _ _ _ g
    have hpe : ∀ b, pend (upd s.pc a .done b) = pend (s.pc b) := by
      intro b
      by_cases hb : b = a
      · rw [hb, upd_same, hp]; rfl
      · rw [upd_other _ _ _ _ hb]
    have hnm : o ∉ endedIn tr := fun g => by
      have := (h.ended o).mp g
      rw [← ha, hp] at this
      cases this
    have hdn : ∀ o', o' ≠ o → (upd s.pc a .done (.worker o') = .done ↔ s.pc (.worker o') = .done) := by
      intro o' g
      rw [hpc _ (by rw [ha]; intro g'; injection g' with g'; exact g g')]
    have hdo : upd s.pc a .done (.worker o) = .done := by rw [ha, upd_same]
    refine ⟨List.nodup_cons.mpr ⟨hnm, h.enodup⟩, fun o' => ?_, h.rnodup, fun o' g => ?_, fun b o' g => h.pending b o' ((hpe b).symm.trans g), fun o' g => ?_⟩
    · show o' ∈ o :: endedIn tr ↔ upd s.pc a .done (.worker o') = .done
      by_cases hoo : o' = o
      · rw [hoo, hdo]; simp
      · rw [hdn o' hoo, List.mem_cons, h.ended o']; simp [hoo]
    · refine ⟨?_, (h.reaped o' g).2⟩
      by_cases hoo : o' = o
      · rw [hoo]; exact hdo
      · exact (hdn o' hoo).mpr (h.reaped o' g).1
    · by_cases hoo : o' = o
      · rw [hoo]; exact Or.inr (Or.inl hob.2.2.2)
      · rcases h.all o' ((hdn o' hoo).mp g) with g1 | g1 | ⟨b, g1⟩
        · exact Or.inl g1
        · exact Or.inr (Or.inl g1)
        · exact Or.inr (Or.inr ⟨b, (hpe b).trans g1⟩)
  case h_28 o hp =>
    rw [hp] at hl
    have hal := (hu o (by rw [hp]; rfl)).2.1
    rw [use_alive hal] at hs
    cases hs
    obtain ⟨hd, t, ht⟩ := hl
    have hid := (hi.entry _ _ ht).2.1
    exact tinv_erase h hi a _ (.reLeave o true) t o hp rfl ht (by rw [← hid]; rfl) rfl rfl hd (by simp)
  case h_29 o f hp =>
    cases hs
    cases f
    · exact tinv_upd h rfl a _ (.reClear o) hp rfl rfl (by simp) rfl
    · rw [hp] at hl
      exact tinv_reap h hi a _ (.reClear o) o hp rfl rfl rfl rfl rfl hl.1 hl.2 (by simp)
  case h_35 o hp =>
    rw [hp] at hl
    have hal := (hu o (by rw [hp]; rfl)).2.1
    rw [if_pos hal] at hs
    obtain ⟨hj, t, ht⟩ := hl
    have hid := (hi.entry _ _ ht).2.1
    have hd := joined_done hi hj
    unfold State.check at hs
    split at hs
    · cases hs
      exact tinv_erase h hi a _ (.joDec o) t o hp rfl ht (by rw [← hid]; rfl) rfl rfl hd (by simp)
    · cases hs
      exact tinv_frame h rfl (fun _ => Iff.rfl) rfl (fun _ => rfl)
  case h_37 o f hp =>
    cases hs
    cases f
    · exact tinv_upd h rfl a _ .client hp rfl rfl (by simp) rfl
    · rw [hp] at hl
      exact tinv_reap h hi a _ .client o hp rfl rfl rfl rfl rfl (joined_done hi hl.1) hl.2 (by simp)
  case h_45 t o hp =>
    rw [hp] at hl
    cases hs
    exact tinv_erase h hi a _ (.jaAssert t o) t o hp rfl hl.1 rfl rfl rfl hl.2 (by simp)
  case h_48 o hp =>
    rw [hp] at hl
    cases hs
    exact tinv_reap h hi a _ .client o hp rfl rfl rfl rfl rfl hl.1 hl.2 (by simp)
  case h_8 =>
    rename_i hp
    split at hs
    · cases hs
      rename_i o
      exact tinv_upd h rfl (.worker o) _ (.teEnter o) hp rfl rfl (by simp) rfl
    · cases hs
  case h_56 =>
    rename_i hp
    rw [hp] at hnx
    cases hnx
  all_goals
    try simp only [State.use, State.check, State.enter] at hs
    try repeat' split at hs
    all_goals first
      | (cases hs; done)
      | (cases hs; exact tinv_frame h rfl (fun _ => Iff.rfl) rfl (fun _ => rfl))
      | (cases hs; exact tinv_upd h rfl a _ _ (by assumption) rfl rfl (by simp) rfl)
      | (cases hs; exact tinv_upd h rfl a _ _ rfl rfl rfl (by simp_all) (by simp_all [pend]))
      | skip

end Strpp.Th
