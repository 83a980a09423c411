import Verif.Proof.ThreadTrace
import Mathlib.Data.List.Perm.Basic
import Mathlib.Data.List.Perm.Lattice
/-! What current() finds; what follows for all runs. -/
set_option linter.unusedSimpArgs false
set_option linter.unusedVariables false
namespace Strpp.Th

/-- current() has found the Thread of the thread -/
def CurOk (s : State) : Prop := ∀ a ex r, s.pc a = .cuLeave ex r → r = owner a

theorem find_key {m : List (Id × Nat)} (hk : (m.map Prod.fst).Nodup) {t : Id} {o : Nat} (h : (t, o) ∈ m) : find m (some t) = some o := by
  induction m with
  | nil => cases h
  | cons e m ih =>
    rw [List.map_cons, List.nodup_cons] at hk
    unfold find
    simp only [List.find?_cons]
    rcases List.mem_cons.mp h with rfl | h
    · simp
    · have : (e.1 == t) = false := by
        simp only [beq_eq_false_iff_ne]
        exact fun g => hk.1 (List.mem_map.mpr ⟨_, h, g.symm⟩)
      rw [this]
      exact ih hk.2 h

theorem cur_find {s : State} (hi : Inv s) {a : Actor} {ex : Bool} (hp : s.pc a = .cuFind ex) : find s.threads (selfId s a) = owner a := by
  cases a with
  | ext n =>
    cases hf : find s.threads (selfId s (.ext n)) with
    | none => rfl
    | some o =>
      obtain ⟨o', g⟩ := (find_some (m := s.threads) (t := .ext n)).mp (by rw [show some (Id.ext n) = selfId s (.ext n) from rfl, hf]; rfl)
      obtain ⟨h1, h2, h3⟩ := hi.entry _ _ g
      obtain ⟨⟨k, hk⟩, h4⟩ := hi.osid o' h3
      rw [h4 h1, hk] at h2
      cases h2
  | worker o =>
    have hha := (hi.lock (.worker o)).mp (by rw [hp]; rfl)
    obtain ⟨t, ht⟩ := worker_inMap hi hha (by rw [hp]; rfl) (by rw [hp]; simp)
    obtain ⟨h1, h2, h3⟩ := hi.entry _ _ ht
    show find s.threads (s.obj o).osId = some o
    rw [← (hi.osid o h3).2 h1, h2]
    exact find_key hi.keys ht

theorem curOk_step {P : Policy} {s : State} (h : CurOk s) (hi : Inv s) (a : Actor) (x : Act) (s' : State) (e : Option Event) (hs : step P s a x = some (s', e)) : CurOk s' := by
  intro b ex r hb
  have key : s'.pc b = s.pc b ∨ (∀ ex r, s'.pc b ≠ .cuLeave ex r) ∨ (b = a ∧ ∃ ex, s.pc a = .cuFind ex ∧ s'.pc b = .cuLeave ex (find s.threads (selfId s a))) := by
    by_cases hba : b = a
    · subst hba
      unfold step at hs
      split at hs
      · cases hs
      · split at hs
        case h_50 ex hp =>
          cases hs
          right; right
          exact ⟨rfl, ex, hp, upd_same _ _ _⟩
        all_goals
          try simp only [State.use, State.check, State.enter] at hs
          repeat' split at hs
          all_goals first
            | (cases hs; done)
            | (cases hs; left; rfl)
            | (cases hs; right; left; intro ex r; simp [State.goto, State.leave, State.setObj, State.broadcast, upd]; done)
            | (cases hs; right; left; intro ex r; simp only [State.goto, State.leave, State.setObj, State.broadcast, upd]; simp; split <;> simp; done)
    · unfold step at hs
      split at hs
      · cases hs
      · split at hs
        all_goals
          try simp only [State.use, State.check, State.enter] at hs
          repeat' split at hs
          all_goals first
            | (cases hs; done)
            | (cases hs; left; rfl)
            | (cases hs; left; simp [State.goto, State.leave, State.setObj, State.broadcast, upd, hba]; done)
            | skip
        · cases hs
          by_cases hw : b = .worker ‹Nat›
          · right; left; intro ex r; rw [hw]; simp [State.goto, upd]; split <;> simp
          · left; simp [State.goto, State.setObj, upd, hba, hw]
        · cases hs
          simp only [State.goto, State.broadcast, upd, hba, if_false]
          split
          · right; left; intro ex r; simp
          · left; rfl
        · cases hs
          simp only [State.goto, State.broadcast, upd, hba, if_false]
          split
          · right; left; intro ex r; simp
          · left; rfl
  rcases key with g | g | ⟨g, ex', g1, g2⟩
  · rw [g] at hb; exact h b ex r hb
  · exact absurd hb (g ex r)
  · rw [hb] at g2
    injection g2 with _ g2
    rw [g2, g]
    exact cur_find hi g1

/-- all that is so in a run -/
structure AllInv (s : State) (tr : List Event) : Prop where
  inv : Inv s
  self : NotSelf s
  cur : CurOk s
  trace : TInv s tr

theorem all_reach {s : State} {tr : List Event} (h : Reach strict s tr) : AllInv s tr := by
  induction h with
  | init =>
    refine ⟨inv_init, fun a o g => ?_, fun a ex r g => ?_, tinv_init⟩
    · cases a <;> cases g
    · cases a <;> cases g
  | step a x _ hs ih => exact ⟨inv_step ih.inv ih.self a x _ _ hs, notSelf_step ih.self a x _ _ hs, curOk_step ih.cur ih.inv a x _ _ hs, tinv_step ih.trace ih.inv a x _ _ hs⟩

theorem happened {P : Policy} {s : State} {tr' : List Event} (h : Reach P s tr') : ∀ e tr, tr' = e :: tr → ∃ s0 s1 a c, Reach P s0 tr ∧ step P s0 a c = some (s1, some e) := by
  induction h with
  | init => intro e tr h; cases h
  | step a c hr hs ih =>
    rename_i e'
    intro e tr h
    cases e' with
    | none => exact ih e tr h
    | some e' => cases h; exact ⟨_, _, a, c, hr, hs⟩

/-- the ended ones in the list have threads that are done, where nobody is at the end of ThreadProc -/
theorem cnt_done {s : State} (hi : Inv s) (hh : ∀ a, s.holder = some a → phase (s.pc a) = .running) (o : Nat) : (s.obj o).state = .ended ↔ s.pc (.worker o) = .done := by
  refine ⟨fun he => ?_, not_ended_done hi⟩
  have := hi.objs o
  cases hq : phase (s.pc (.worker o)) with
  | unstarted => rw [hq] at this; exact absurd he this.2.1
  | running => rw [hq] at this; exact absurd he this.2.2.1
  | done => exact phase_done.mpr hq
  | ending =>
    have hc : crit (s.pc (.worker o)) = true := by
      revert hq
      cases s.pc (.worker o) <;> simp [phase, crit]
    have := hh _ ((hi.lock _).mp hc)
    rw [hq] at this
    cases this

/-- The ended ones are those that were reaped and those in the list. -/
theorem ended_perm {s : State} {tr : List Event} (h : AllInv s tr) (hh : ∀ a, s.holder = some a → phase (s.pc a) = .running ∧ pend (s.pc a) = none) :
    (endedIn tr).Perm (reapedIn tr ++ (s.threads.filter (isEnded s)).map Prod.snd) := by
  have hnp : ∀ a, pend (s.pc a) = none := by
    intro a
    by_cases hc : crit (s.pc a) = true
    · exact (hh a ((h.inv.lock a).mp hc)).2
    · revert hc
      cases hq : s.pc a <;> simp [crit, pend]
  have hst := cnt_done h.inv (fun a g => (hh a g).1)
  have hsnd : ∀ m : List (Id × Nat), (∀ e ∈ m, e ∈ s.threads) → (m.map Prod.fst).Nodup → (m.map Prod.snd).Nodup := by
    intro m
    induction m with
    | nil => intro _ _; exact List.nodup_nil
    | cons e m ih =>
      intro hm hk
      rw [List.map_cons, List.nodup_cons] at hk ⊢
      refine ⟨?_, ih (fun f hf => hm f (List.mem_cons_of_mem _ hf)) hk.2⟩
      intro g
      obtain ⟨f, hf, hfe⟩ := List.mem_map.mp g
      have h1 := (h.inv.entry _ _ (hm e List.mem_cons_self)).2.1
      have h2 := (h.inv.entry _ _ (hm f (List.mem_cons_of_mem _ hf))).2.1
      rw [hfe, h1] at h2
      exact hk.1 (List.mem_map.mpr ⟨f, hf, (Option.some.inj h2).symm⟩)
  rw [List.perm_ext_iff_of_nodup h.trace.enodup]
  · intro o
    rw [h.trace.ended, List.mem_append, List.mem_map]
    constructor
    · intro hd
      rcases h.trace.all o hd with g | ⟨t, g⟩ | ⟨a, g⟩
      · exact Or.inl g
      · right
        exact ⟨(t, o), List.mem_filter.mpr ⟨g, by simp only [isEnded, beq_iff_eq]; exact (hst o).mpr hd⟩, rfl⟩
      · rw [hnp a] at g; cases g
    · rintro (g | ⟨e, g, rfl⟩)
      · exact (h.trace.reaped o g).1
      · have := (List.mem_filter.mp g).2
        simp only [isEnded, beq_iff_eq] at this
        exact (hst _).mp this
  · rw [List.nodup_append]
    refine ⟨h.trace.rnodup, ?_, ?_⟩
    · exact hsnd _ (fun e g => (List.mem_filter.mp g).1) (h.inv.keys.sublist (List.Sublist.map _ List.filter_sublist))
    · intro o1 g1 o2 g2 g
      obtain ⟨e, he, rfl⟩ := List.mem_map.mp g2
      exact (h.trace.reaped o1 g1).2 ⟨e.1, by rw [g]; exact (List.mem_filter.mp he).1⟩

end Strpp.Th
