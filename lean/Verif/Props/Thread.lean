import Verif.Proof.ThreadCur
/-! C45, C57, C58: class Thread (include/thread.h, src/thread.cpp) under every interleaving of any number of threads making any calls. -/
set_option linter.unusedSimpArgs false
set_option linter.unusedVariables false
namespace Strpp.Th

/-- C45 for runs in which exit() is not called, no id is given again while a Thread with that id exists, and no new Thread happens to be
in storage that says Ended. Missing: those runs (see the refutations below), and that joinAny waits when one Thread is left. -/
theorem C45_count_partial {s : State} {tr : List Event} (h : Reach strict s tr) (hfree : s.holder = none) :
    s.ended + (reapedIn tr).length = (endedIn tr).length := by
  have ha := all_reach h
  have hp := ended_perm ha (fun a g => by rw [hfree] at g; cases g)
  have := hp.length_eq
  have hc := ha.inv.count
  simp only [List.length_append, List.length_map] at this
  simp only [hadj, hfree, cnt] at hc
  omega

/-- No thread ends twice, none is joined, destroyed or returned twice, and only when it has ended. -/
theorem C45_once_partial {s : State} {tr : List Event} (h : Reach strict s tr) : (endedIn tr).Nodup ∧ (reapedIn tr).Nodup ∧ ∀ o ∈ reapedIn tr, o ∈ endedIn tr := by
  have ha := (all_reach h).trace
  exact ⟨ha.enodup, ha.rnodup, fun o g => (ha.ended o).mpr (ha.reaped o g).1⟩

/-- joinAny returns a Thread whose thread has ended and which was not returned or joined before. -/
theorem C45_joinAny_partial {s : State} {tr : List Event} {o : Nat} {how : How} (h : Reach strict s (.reaped o how :: tr)) : o ∈ endedIn tr ∧ o ∉ reapedIn tr := by
  have ha := C45_once_partial h
  exact ⟨ha.2.2 o List.mem_cons_self, (List.nodup_cons.mp ha.2.1).1⟩

/-- No assertion fails, and no Thread is used after it was destroyed. -/
theorem C45_no_fault_partial {s : State} {tr : List Event} (h : Reach strict s tr) : s.fault = none := (all_reach h).inv.nofault

/-- While a thread waits in joinAny and the latch is free, there is no ended thread that was not yet joined, destroyed or returned. -/
theorem C57_no_lost_wakeup {s : State} {tr : List Event} (h : Reach strict s tr) (hfree : s.holder = none) {a : Actor} (hw : s.pc a = .jaWaiting) : ∀ o ∈ endedIn tr, o ∈ reapedIn tr := by
  have ha := all_reach h
  have he : s.ended = 0 := by
    rcases ha.inv.waiting a hw with g | ⟨b, o, g, -⟩
    · exact g
    · rw [hfree] at g; cases g
  have hp := ended_perm ha (fun a g => by rw [hfree] at g; cases g)
  have hc := ha.inv.count
  simp only [hadj, hfree, cnt, he] at hc
  have hz : s.threads.filter (isEnded s) = [] := List.eq_nil_of_length_eq_zero (by omega)
  intro o ho
  have := hp.mem_iff.mp ho
  rw [hz] at this
  simpa using this

/-- `n` actions of thread `a`, during which it keeps the latch -/
inductive Holding (a : Actor) : Nat → State → State → Prop
  | nil (s) : Holding a 0 s s
  | cons {n : Nat} {s s' s'' : State} (x : Act) (e : Option Event) : s.holder = some a → step strict s a x = some (s', e) → Holding a n s' s'' → Holding a (n + 1) s s''

/-- how many actions are left -/
def left : Pc → Nat
  | .rsCreate _ => 3 | .rsInsert _ => 2 | .rsLeave _ => 1
  | .tpAssert _ => 2 | .tpLeave _ => 1
  | .teState _ => 5 | .teFind _ => 4 | .teCount _ => 3 | .teCast _ => 2 | .teLeave _ => 1
  | .reFind _ => 5 | .reState _ => 4 | .reDec _ => 3 | .reErase _ => 2 | .reLeave _ _ => 1
  | .joFind _ => 4 | .joErase _ => 3 | .joDec _ => 2 | .joLeave _ _ => 1
  | .jaSize => 7 | .jaNone => 1 | .jaTest => 6 | .jaScan => 5 | .jaErase _ _ => 4 | .jaAssert _ _ => 3 | .jaDec _ => 2 | .jaLeave _ => 1
  | .cuFind _ => 2 | .cuLeave _ _ => 1
  | _ => 0

/-- the scan of joinAny finds one -/
theorem scan_some {s : State} (hi : Inv s) {a : Actor} (hp : s.pc a = .jaScan) : ∃ t o, (t, o) ∈ s.threads ∧ (s.obj o).state = .ended := by
  have hha := (hi.lock a).mp (by rw [hp]; rfl)
  have hl := hi.loc a
  rw [hp] at hl
  have hl : s.ended ≠ 0 := hl
  have hc := hi.count
  simp only [hadj, hha, hp, adj, cnt] at hc
  cases hf : s.threads.filter (isEnded s) with
  | nil => rw [hf] at hc; simp at hc; exact absurd hc hl
  | cons e m =>
    have : e ∈ s.threads.filter (isEnded s) := by rw [hf]; exact List.mem_cons_self
    obtain ⟨g1, g2⟩ := List.mem_filter.mp this
    exact ⟨e.1, e.2, g1, by simpa [isEnded] using g2⟩

theorem step_left {s : State} (hi : Inv s) (hi' : NotSelf s) {a : Actor} {x : Act} {s' : State} {e : Option Event} (hh : s.holder = some a) (hs : step strict s a x = some (s', e)) :
    s'.holder = none ∨ left (s'.pc a) < left (s.pc a) := by
  have hf := (inv_step hi hi' a x s' e hs).nofault
  have hcr := (hi.lock a).mpr hh
  have hnx := hi.noexit a
  have hscan := @scan_some s hi a
  unfold step at hs
  rw [if_neg (by rw [hi.nofault]; simp)] at hs
  split at hs
  all_goals
    rename_i hp
    try (rw [hp] at hcr; cases hcr; done)
    try (rw [hp] at hnx; cases hnx; done)
    try simp only [State.use, State.check, State.enter] at hs
    repeat' split at hs
    all_goals first
      | (cases hs; done)
      | (cases hs; cases hf; done)
      | (cases hs; left; rfl)
      | (cases hs; right; rw [hp]; simp [State.goto, State.leave, State.setObj, State.broadcast, upd, left]; done)
      | (cases hs; right; rw [hp]; simp [State.goto, State.leave, State.setObj, State.broadcast, upd, left]; split <;> simp; done)
      | skip
  rename_i hall
  obtain ⟨t, o, g1, g2⟩ := hscan hp
  have := (List.all_eq_true.mp hall) _ g1
  rw [g2] at this
  cases this

theorem fresh_ids (s : State) : ∀ n, ∃ k, ∀ o, o < n → ∀ j, k ≤ j → (s.obj o).osId ≠ some (.made j) ∧ (s.obj o).id ≠ some (.made j) := by
  have one : ∀ i : Option Id, ∃ k, ∀ j, k ≤ j → i ≠ some (.made j) := by
    intro i
    match i with
    | none => exact ⟨0, fun j _ => by simp⟩
    | some (.ext m) => exact ⟨0, fun j _ => by simp⟩
    | some (.made m) => exact ⟨m + 1, fun j hj => by simp; omega⟩
  intro n
  induction n with
  | zero => exact ⟨0, fun o ho => by omega⟩
  | succ n ih =>
    obtain ⟨k, hk⟩ := ih
    obtain ⟨k1, h1⟩ := one (s.obj n).osId
    obtain ⟨k2, h2⟩ := one (s.obj n).id
    refine ⟨k + k1 + k2, fun o ho j hj => ?_⟩
    by_cases hon : o = n
    · rw [hon]; exact ⟨h1 j (by omega), h2 j (by omega)⟩
    · exact hk o (by omega) j (by omega)

theorem step_enabled {s : State} (hi : Inv s) {a : Actor} (hh : s.holder = some a) : ∃ x s' e, step strict s a x = some (s', e) := by
  have hcr := (hi.lock a).mpr hh
  have hnx := hi.noexit a
  have hr : ∀ x, (step strict s a x).isSome = true → ∃ x s' e, step strict s a x = some (s', e) := by
    intro x hx
    obtain ⟨⟨s', e⟩, g⟩ := Option.isSome_iff_exists.mp hx
    exact ⟨x, s', e, g⟩
  cases hp : s.pc a
  case rsCreate o =>
    obtain ⟨k, hk⟩ := fresh_ids s s.n
    refine hr (.create (.made k)) ?_
    unfold step
    rw [if_neg (by rw [hi.nofault]; simp), hp]
    have h1 : posixFresh s (.made k) = true := by
      simp only [posixFresh, Bool.true_and, List.all_eq_true, List.mem_range, Bool.or_eq_true, bne_iff_ne]
      exact fun o ho => Or.inr (hk o ho k (Nat.le_refl _)).1
    have h2 : ownFresh s (.made k) = true := by
      simp only [ownFresh, List.all_eq_true, List.mem_range, Bool.or_eq_true, bne_iff_ne]
      exact fun o ho => Or.inr (hk o ho k (Nat.le_refl _)).2
    simp only [h1, h2, Bool.or_true, Bool.and_true, if_true, State.use]
    split <;> rfl
  case jaScan =>
    obtain ⟨t, o, g1, g2⟩ := scan_some hi hp
    refine hr (.pick (some (t, o))) ?_
    unfold step
    rw [if_neg (by rw [hi.nofault]; simp), hp]
    simp only
    split
    · rw [if_pos ⟨g1, g2⟩]; rfl
    · rfl
  case cuLeave ex r =>
    refine hr .run ?_
    unfold step
    rw [if_neg (by rw [hi.nofault]; simp), hp]
    rw [hp] at hnx
    cases ex
    · rfl
    · cases hnx
  all_goals
    rw [hp] at hcr
    first
      | (cases hcr; done)
      | (refine hr .run ?_
         unfold step
         rw [if_neg (by rw [hi.nofault]; simp), hp]
         simp only [State.use, State.check]
         repeat' split
         all_goals rfl)

/-- The thread that holds the latch can always go on, and has given it up after at most seven actions, whatever it does. -/
theorem C57_latch_released {s : State} {tr : List Event} (h : Reach strict s tr) {a : Actor} (hh : s.holder = some a) :
    (∃ x s' e, step strict s a x = some (s', e)) ∧ ∀ n s', Holding a n s s' → n ≤ 7 ∧ (n = 7 → s'.holder ≠ some a) := by
  refine ⟨step_enabled (all_reach h).inv hh, ?_⟩
  have key : ∀ n s s' tr, Reach strict s tr → Holding a n s s' → s.holder = some a → n ≤ left (s.pc a) ∧ (n = left (s.pc a) → s'.holder ≠ some a) := by
    intro n
    induction n with
    | zero =>
      intro s s' tr hr hn hh
      have hcr := ((all_reach hr).inv.lock a).mpr hh
      have hnx := (all_reach hr).inv.noexit a
      have hpos : 0 < left (s.pc a) := by
        revert hcr hnx
        cases s.pc a <;> simp [crit, left, inExit]
      exact ⟨by omega, fun g => by omega⟩
    | succ n ih =>
      intro s s' tr hr hn hh
      cases hn with
      | cons x e _ hs hrest =>
        rename_i s1 _
        have ha := all_reach hr
        have hcr := (ha.inv.lock a).mpr hh
        have hpos : 0 < left (s.pc a) := by
          have hnx := ha.inv.noexit a
          revert hcr hnx
          cases s.pc a <;> simp [crit, left, inExit]
        have hnone : s1.holder = none → n = 0 ∧ s'.holder = none := by
          intro g
          cases hrest with
          | nil => exact ⟨rfl, g⟩
          | cons x e g' _ _ => rw [g] at g'; cases g'
        rcases step_left ha.inv ha.self hh hs with g | g
        · obtain ⟨g1, g2⟩ := hnone g
          subst g1
          exact ⟨by omega, fun _ => by rw [g2]; simp⟩
        · by_cases hh1 : s1.holder = some a
          · obtain ⟨g1, g2⟩ := ih s1 s' _ (.step a x hr hs) hrest hh1
            exact ⟨by omega, fun g3 => g2 (by omega)⟩
          · cases hrest with
            | nil => exact ⟨by omega, fun _ => hh1⟩
            | cons x e g' _ _ => exact absurd g' hh1
  have h7 : left (s.pc a) ≤ 7 := by cases s.pc a <;> simp [left]
  intro n s' hn
  obtain ⟨h1, h2⟩ := key n s s' tr h hn hh
  exact ⟨by omega, fun g => h2 (by omega)⟩

/-- actions of one thread, with the events -/
inductive Solo (a : Actor) : State → List Event → State → List Event → Prop
  | nil (s tr) : Solo a s tr s tr
  | cons {s s' s'' : State} {tr tr' : List Event} (x : Act) (e : Option Event) : step strict s a x = some (s', e) → Solo a s' (add e tr) s'' tr' → Solo a s tr s'' tr'

theorem Solo.append {a : Actor} {s s' s'' : State} {tr tr' tr'' : List Event} (h1 : Solo a s tr s' tr') (h2 : Solo a s' tr' s'' tr'') : Solo a s tr s'' tr'' := by
  induction h1 with
  | nil => exact h2
  | cons x e hs _ ih => exact .cons x e hs (ih h2)

/-- joinAny returns a Thread if a thread has ended and was not returned, joined or destroyed, and when it is called there is another Thread in the
list: when the latch is free, the caller (or one that has been woken) gets there on its own. -/
theorem C57_joinAny_returns {s : State} {tr : List Event} (h : Reach strict s tr) (hfree : s.holder = none) {a : Actor} (ha : (s.pc a = .jaEnter ∧ 2 ≤ s.threads.length) ∨ s.pc a = .jaWoken)
    {o : Nat} (ho : o ∈ endedIn tr) (ho' : o ∉ reapedIn tr) : ∃ s' o', Solo a s tr s' (.reaped o' .any :: tr) := by
  have hi := (all_reach h).inv
  have hnz : s.ended ≠ 0 := by
    have hp := ended_perm (all_reach h) (fun a g => by rw [hfree] at g; cases g)
    have hm := hp.mem_iff.mp ho
    have hc := hi.count
    simp only [hadj, hfree, cnt] at hc
    intro he
    rw [he] at hc
    have hz : s.threads.filter (isEnded s) = [] := List.eq_nil_of_length_eq_zero (by omega)
    rw [hz] at hm
    simp [ho'] at hm
  have htest : ∃ s1, Solo a s tr s1 tr ∧ Reach strict s1 tr ∧ s1.pc a = .jaTest ∧ s1.ended ≠ 0 := by
    rcases ha with ⟨hp, hlen⟩ | hp
    · have e1 : step strict s a .run = some ({ s with holder := some a, pc := upd s.pc a .jaSize }, none) := by
        unfold step
        rw [if_neg (by rw [hi.nofault]; simp), hp]
        simp only [State.enter, hfree, if_true]
      have hr1 := Reach.step a .run h e1
      generalize hs1 : { s with holder := some a, pc := upd s.pc a .jaSize } = s1 at *
      have e2 : step strict s1 a .run = some (s1.goto a .jaTest, none) := by
        unfold step
        rw [if_neg (by rw [(all_reach hr1).inv.nofault]; simp)]
        have hpp : s1.pc a = .jaSize := by rw [← hs1]; exact upd_same _ _ _
        have hth : s1.threads = s.threads := by rw [← hs1]
        rw [hpp]
        simp only [hth]
        rw [if_neg (by omega)]
      exact ⟨_, .cons _ _ e1 (.cons _ _ e2 (.nil _ _)), .step a .run hr1 e2, upd_same _ _ _, by rw [← hs1]; exact hnz⟩
    · have e1 : step strict s a .run = some ({ s with holder := some a, pc := upd s.pc a .jaTest }, none) := by
        unfold step
        rw [if_neg (by rw [hi.nofault]; simp), hp]
        simp only [State.enter, hfree, if_true]
      exact ⟨_, .cons _ _ e1 (.nil _ _), .step a .run h e1, upd_same _ _ _, hnz⟩
  obtain ⟨s1, hsolo, hr1, hp1, hnz1⟩ := htest
  have nf : ∀ {s : State} {tr : List Event}, Reach strict s tr → ¬ s.fault.isSome = true := fun hr => by rw [(all_reach hr).inv.nofault]; simp
  have e2 : step strict s1 a .run = some (s1.goto a .jaScan, none) := by
    unfold step
    rw [if_neg (nf hr1), hp1]
    simp only
    rw [if_neg hnz1]
  have hr2 := Reach.step a .run hr1 e2
  have hp2 : (s1.goto a .jaScan).pc a = .jaScan := upd_same _ _ _
  generalize s1.goto a .jaScan = s2 at *
  obtain ⟨t, o', g1, g2⟩ := scan_some (all_reach hr2).inv hp2
  have e3 : step strict s2 a (.pick (some (t, o'))) = some (s2.goto a (.jaErase t o'), none) := by
    unfold step
    rw [if_neg (nf hr2), hp2]
    simp only
    have hal : s2.threads.all (fun f => (s2.obj f.2).alive) = true := List.all_eq_true.mpr (fun f hf => ((all_reach hr2).inv.entry _ _ hf).1)
    rw [if_pos hal, if_pos ⟨g1, g2⟩]
  have hr3 := Reach.step a _ hr2 e3
  have hp3 : (s2.goto a (.jaErase t o')).pc a = .jaErase t o' := upd_same _ _ _
  generalize s2.goto a (.jaErase t o') = s3 at *
  have e4 : step strict s3 a .run = some ({ s3 with threads := erase s3.threads (some t) }.goto a (.jaAssert t o'), none) := by
    unfold step
    rw [if_neg (nf hr3), hp3]
  have hr4 := Reach.step a _ hr3 e4
  have hp4 : ({ s3 with threads := erase s3.threads (some t) }.goto a (.jaAssert t o')).pc a = .jaAssert t o' := upd_same _ _ _
  have hnf : (find ({ s3 with threads := erase s3.threads (some t) }.goto a (.jaAssert t o')).threads (some t)).isNone = true := by
    have hl := (all_reach hr4).inv.loc a
    rw [hp4] at hl
    cases hf : find ({ s3 with threads := erase s3.threads (some t) }.goto a (.jaAssert t o')).threads (some t) with
    | none => rfl
    | some o1 =>
      obtain ⟨o2, g⟩ := find_some.mp (by rw [hf]; rfl)
      exact absurd rfl (hl.2.2 _ g)
  generalize { s3 with threads := erase s3.threads (some t) }.goto a (.jaAssert t o') = s4 at *
  have e5 : step strict s4 a .run = some (s4.goto a (.jaDec o'), none) := by
    unfold step
    rw [if_neg (nf hr4), hp4]
    simp only [State.check]
    rw [if_pos hnf]
  have hr5 := Reach.step a _ hr4 e5
  have hp5 : (s4.goto a (.jaDec o')).pc a = .jaDec o' := upd_same _ _ _
  generalize s4.goto a (.jaDec o') = s5 at *
  have e6 : step strict s5 a .run = some ({ s5 with ended := s5.ended - 1 }.goto a (.jaLeave o'), none) := by
    unfold step
    rw [if_neg (nf hr5), hp5]
  have hr6 := Reach.step a _ hr5 e6
  have hp6 : ({ s5 with ended := s5.ended - 1 }.goto a (.jaLeave o')).pc a = .jaLeave o' := upd_same _ _ _
  generalize { s5 with ended := s5.ended - 1 }.goto a (.jaLeave o') = s6 at *
  have e7 : step strict s6 a .run = some (s6.leave a .client, some (.reaped o' .any)) := by
    unfold step
    rw [if_neg (nf hr6), hp6]
  exact ⟨_, o', hsolo.append (.cons _ _ e2 (.cons _ _ e3 (.cons _ _ e4 (.cons _ _ e5 (.cons _ _ e6 (.cons _ _ e7 (.nil _ _)))))))⟩

/-- current() in the thread of a Thread gives that Thread; in any other thread, such as the main thread, null. -/
theorem C58_current {s : State} {tr : List Event} {a : Actor} {r : Option Nat} (h : Reach strict s (.current a r :: tr)) : r = owner a := by
  obtain ⟨s0, s1, b, x, hr, hs⟩ := happened h _ _ rfl
  have hc := (all_reach hr).cur b
  unfold step at hs
  rw [if_neg (by rw [(all_reach hr).inv.nofault]; simp)] at hs
  have : a = b ∧ s0.pc b = .cuLeave false r := by
    split at hs
    all_goals
      try simp only [State.use, State.check, State.enter] at hs
      repeat' split at hs
      all_goals first
        | (cases hs; done)
        | (simp only [Option.some.injEq, Prod.mk.injEq, reduceCtorEq, and_false] at hs; done)
        | skip
    rename_i hp
    cases hs
    exact ⟨rfl, hp⟩
  rw [this.1, hc _ _ this.2]

/-- The place of a worker in its own code: it is in the list as long as it runs. -/
theorem C58_listed {s : State} {tr : List Event} (h : Reach strict s tr) (hfree : s.holder = none) (o : Nat) :
    (s.pc (.worker o) ≠ .unstarted ∧ s.pc (.worker o) ≠ .done) ∨ (o ∈ endedIn tr ∧ o ∉ reapedIn tr) ↔ ∃ t, (t, o) ∈ s.threads := by
  have ha := all_reach h
  have hno := ha.inv.objs o
  have hnp : ∀ a, pend (s.pc a) = none := by
    intro a
    cases hq : crit (s.pc a) with
    | true => have := (ha.inv.lock a).mp hq; rw [hfree] at this; cases this
    | false => revert hq; cases s.pc a <;> simp [crit, pend]
  constructor
  · rintro (⟨h1, h2⟩ | ⟨h1, h2⟩)
    · rw [ne_eq, phase_unstarted] at h1
      rw [ne_eq, phase_done] at h2
      cases hq : phase (s.pc (.worker o)) with
      | unstarted => exact absurd hq h1
      | done => exact absurd hq h2
      | running =>
        rw [hq] at hno
        rcases hno.2.2.2 with g | ⟨a, g, -⟩
        · exact g
        · rw [hfree] at g; cases g
      | ending => rw [hq] at hno; exact hno.2.2.2
    · rcases ha.trace.all o ((ha.trace.ended o).mp h1) with g | g | ⟨a, g⟩
      · exact absurd g h2
      · exact g
      · rw [hnp a] at g; cases g
  · rintro ⟨t, g⟩
    obtain ⟨h1, h2, h3⟩ := ha.inv.entry t o g
    by_cases hd : s.pc (.worker o) = .done
    · exact Or.inr ⟨(ha.trace.ended o).mpr hd, fun g' => (ha.trace.reaped o g').2 ⟨t, g⟩⟩
    · exact Or.inl ⟨h3, hd⟩

/-! ### Runs -/

def play (P : Policy) : List (Actor × Act) → State → List Event → Option (State × List Event)
  | [], s, tr => some (s, tr)
  | (a, c) :: cs, s, tr =>
    match step P s a c with
    | none => none
    | some (s', e) => play P cs s' (add e tr)

theorem play_reach {P : Policy} : ∀ (cs : List (Actor × Act)) (s : State) (tr : List Event) (s' : State) (tr' : List Event), Reach P s tr → play P cs s tr = some (s', tr') → Reach P s' tr' := by
  intro cs
  induction cs with
  | nil => intro s tr s' tr' h hp; cases hp; exact h
  | cons c cs ih =>
    intro s tr s' tr' h hp
    obtain ⟨a, c⟩ := c
    simp only [play] at hp
    split at hp
    · cases hp
    · exact ih _ _ _ _ (.step a c h (by assumption)) hp

def main : Actor := .ext 0
def runs (a : Actor) (n : Nat) : List (Actor × Act) := List.replicate n (a, .run)
/-- the main thread makes Thread `o` and resumes it -/
def start (o : Nat) (t : Nat) : List (Actor × Act) := [(main, .construct .new), (main, .resume o), (main, .run), (main, .create (.made t)), (main, .run), (main, .run)]
/-- the thread of `o` runs and ends -/
def life (o : Nat) : List (Actor × Act) := runs (.worker o) 4 ++ [(.worker o, .finish)] ++ runs (.worker o) 6

theorem witness {P : Policy} {R : State → List Event → Bool} (cs : List (Actor × Act)) (h : (match play P cs init [] with | some (s, tr) => R s tr | none => false) = true) : ∃ s tr, Reach P s tr ∧ R s tr = true := by
  cases hp : play P cs init [] with
  | none => rw [hp] at h; cases h
  | some r => rw [hp] at h; exact ⟨r.1, r.2, play_reach cs _ _ _ _ .init hp, h⟩

/-- two threads; the main thread waits, one ends and wakes it; joinAny returns it, then the other is joined and both are destroyed -/
example : (play strict (start 0 7 ++ start 1 3 ++ [(main, .joinAny)] ++ runs main 3 ++ life 1 ++ [(main, .run), (main, .run), (main, .pick (some (.made 3, 1)))] ++ runs main 4 ++
    life 0 ++ [(main, .join 0)] ++ runs main 7 ++ [(main, .destroy 0)] ++ runs main 5 ++ [(main, .destroy 1)] ++ runs main 5) init []).map (fun r => (r.2, r.1.ended, r.1.threads)) =
    some ([.reaped 0 .join, .ended 0, .reaped 1 .any, .ended 1], 0, []) := by decide +kernel

/-- a thread waits in joinAny, the latch is free -/
example : ∃ s tr, Reach strict s tr ∧ (s.holder = none ∧ s.pc main = .jaWaiting ∧ s.threads.length = 2) := by
  obtain ⟨s, tr, h1, h2⟩ := witness (P := strict) (R := fun s _ => s.holder == none && s.pc main == .jaWaiting && s.threads.length == 2) (start 0 7 ++ start 1 3 ++ [(main, .joinAny)] ++ runs main 3) (by decide +kernel)
  exact ⟨s, tr, h1, by simpa [and_assoc] using h2⟩

/-- it has been woken and there is an ended one; C57_joinAny_returns applies -/
example : ∃ s tr, Reach strict s tr ∧ (s.holder = none ∧ s.pc main = .jaWoken ∧ endedIn tr = [1] ∧ reapedIn tr = []) := by
  obtain ⟨s, tr, h1, h2⟩ := witness (P := strict) (R := fun s tr => s.holder == none && s.pc main == .jaWoken && endedIn tr == [1] && reapedIn tr == []) (start 0 7 ++ start 1 3 ++ [(main, .joinAny)] ++ runs main 3 ++ life 1) (by decide +kernel)
  exact ⟨s, tr, h1, by simpa [and_assoc] using h2⟩

/-- current() in a worker and in the main thread -/
example : (play strict (start 0 7 ++ runs (.worker 0) 4 ++ [(.worker 0, .current)] ++ runs (.worker 0) 3 ++ [(main, .current)] ++ runs main 3) init []).map Prod.snd = some [.current main none, .current (.worker 0) (some 0)] := by decide +kernel

/-! ### Where C45 does not hold -/

/-- With one Thread, that has ended and was not returned, joinAny returns 0: the list of threads does not have the main thread in it, as the comment says. -/
theorem C45_refuted_last : ∃ s tr, Reach strict s (.noThread main :: tr) ∧ endedIn tr = [0] ∧ reapedIn tr = [] := by
  obtain ⟨s, tr, h1, h2⟩ := witness (P := strict) (R := fun _ tr => tr == [.noThread main, .ended 0]) (start 0 7 ++ life 0 ++ [(main, .joinAny)] ++ runs main 3) (by decide +kernel)
  exact ⟨s, [.ended 0], by have := beq_iff_eq.mp h2; rw [← this]; exact h1, rfl, rfl⟩

/-- exit() returns, and the thread is counted again when it ends; joinAny returns it while it runs. -/
theorem C45_refuted_exit : (∃ s tr, Reach ⟨false, false, true⟩ s tr ∧ s.holder = none ∧ s.ended + (reapedIn tr).length = 2 ∧ (endedIn tr).length = 1) ∧
    ∃ s tr o, Reach ⟨false, false, true⟩ s (.reaped o .any :: tr) ∧ o ∉ endedIn tr := by
  constructor
  · obtain ⟨s, tr, h1, h2⟩ := witness (P := ⟨false, false, true⟩) (R := fun s tr => s.holder == none && s.ended + (reapedIn tr).length == 2 && (endedIn tr).length == 1)
      (start 0 7 ++ runs (.worker 0) 4 ++ [(.worker 0, .exit)] ++ runs (.worker 0) 9 ++ [(.worker 0, .finish)] ++ runs (.worker 0) 6) (by decide +kernel)
    exact ⟨s, tr, h1, by simpa [and_assoc] using h2⟩
  · obtain ⟨s, tr, h1, h2⟩ := witness (P := ⟨false, false, true⟩) (R := fun s tr => tr == [.reaped 0 .any])
      (start 0 7 ++ start 1 3 ++ runs (.worker 0) 4 ++ [(.worker 0, .exit)] ++ runs (.worker 0) 9 ++ [(main, .joinAny)] ++ runs main 3 ++ [(main, .pick (some (.made 7, 0)))] ++ runs main 4) (by decide +kernel)
    exact ⟨s, [], 0, by have := beq_iff_eq.mp h2; rw [← this]; exact h1, by simp [endedIn]⟩

/-- When the system gives the id of a joined thread again, the destructor of that Thread takes out the new one, which is then never returned. -/
theorem C45_refuted_reuse : ∃ s tr, Reach ⟨false, true, false⟩ s tr ∧ s.holder = none ∧ reapedIn tr = [0, 0] ∧ endedIn tr = [1, 0] ∧ s.threads = [] := by
  obtain ⟨s, tr, h1, h2⟩ := witness (P := ⟨false, true, false⟩) (R := fun s tr => s.holder == none && reapedIn tr == [0, 0] && endedIn tr == [1, 0] && s.threads == [])
    (start 0 7 ++ life 0 ++ [(main, .join 0)] ++ runs main 7 ++ start 1 7 ++ life 1 ++ [(main, .destroy 0)] ++ runs main 8) (by decide +kernel)
  exact ⟨s, tr, h1, by simpa [and_assoc] using h2⟩

/-- When a new Thread is in storage that says Ended, joinAny returns it while it runs. -/
theorem C45_refuted_garbage : ∃ s tr o, Reach ⟨true, false, false⟩ s (.reaped o .any :: tr) ∧ o ∉ endedIn tr := by
  obtain ⟨s, tr, h1, h2⟩ := witness (P := ⟨true, false, false⟩) (R := fun s tr => tr == [.reaped 0 .any, .ended 1])
    ([(main, .construct .ended), (main, .resume 0), (main, .run), (main, .create (.made 7)), (main, .run), (main, .run)] ++ start 1 3 ++ life 1 ++ [(main, .joinAny)] ++ runs main 3 ++
      [(main, .pick (some (.made 7, 0)))] ++ runs main 4) (by decide +kernel)
  exact ⟨s, [.ended 1], 0, by have := beq_iff_eq.mp h2; rw [← this]; exact h1, by simp [endedIn]⟩

end Strpp.Th
