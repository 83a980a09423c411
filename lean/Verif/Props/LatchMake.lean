import Verif.Model.LatchMake
/-!
C71: Latches made by any number of threads. C72: timed waits.
-/
namespace Strpp.LM

/-- No thread is making a Latch. -/
def State.Quiet (s : State) : Prop := ∀ a, s.pc a = .out

structure Inv (s : State) : Prop where
  dflt : s.attr = .default → ∃ a, s.pc a = .setType
  raw : s.attr = .raw → s.initialised = true → ∃ a, s.pc a = .attrInit
  first : s.initialised = false → s.made = [] ∧ ∀ a, s.pc a = .out ∨ s.pc a = .store

theorem go_pc (s : State) (a b : Nat) (p : Pc) : (s.go a p).pc b = if b = a then p else s.pc b := rfl

theorem tick_inv {s : State} (h : Inv s) (a : Nat) : Inv (s.tick a) := by
  obtain ⟨h1, h2, h3⟩ := h
  unfold State.tick
  cases hp : s.pc a with
  | out =>
    simp only
    split
    · rename_i hi
      refine ⟨fun hd => ?_, fun hr _ => ?_, fun hf => ?_⟩
      · obtain ⟨b, hb⟩ := h1 hd
        exact ⟨b, by rw [go_pc, if_neg (by rintro rfl; rw [hp] at hb; cases hb)]; exact hb⟩
      · obtain ⟨b, hb⟩ := h2 hr hi
        exact ⟨b, by rw [go_pc, if_neg (by rintro rfl; rw [hp] at hb; cases hb)]; exact hb⟩
      · exact absurd hi (by rw [show s.initialised = false from hf]; simp)
    · rename_i hi
      refine ⟨fun hd => ?_, fun hr h => ?_, fun hf => ⟨(h3 hf).1, fun b => ?_⟩⟩
      · obtain ⟨b, hb⟩ := h1 hd
        exact ⟨b, by rw [go_pc, if_neg (by rintro rfl; rw [hp] at hb; cases hb)]; exact hb⟩
      · exact absurd h hi
      · rw [go_pc]
        split
        · exact Or.inr rfl
        · exact (h3 hf).2 b
  | store =>
    refine ⟨fun hd => ?_, fun hr _ => ⟨a, by simp [go_pc]⟩, fun hf => ?_⟩
    · obtain ⟨b, hb⟩ := h1 hd
      exact ⟨b, by simp only [go_pc]; rw [if_neg (by rintro rfl; rw [hp] at hb; cases hb)]; exact hb⟩
    · cases hf
  | attrInit =>
    refine ⟨fun _ => ⟨a, by simp [go_pc]⟩, fun hr => (by cases hr), fun hf => ?_⟩
    rcases (h3 hf).2 a with h | h <;> rw [hp] at h <;> cases h
  | setType =>
    refine ⟨fun hd => (by cases hd), fun hr => (by cases hr), fun hf => ?_⟩
    rcases (h3 hf).2 a with h | h <;> rw [hp] at h <;> cases h
  | mutexInit =>
    refine ⟨fun hd => ?_, fun hr hi => ?_, fun hf => ?_⟩
    · obtain ⟨b, hb⟩ := h1 hd
      exact ⟨b, by simp only [go_pc]; rw [if_neg (by rintro rfl; rw [hp] at hb; cases hb)]; exact hb⟩
    · obtain ⟨b, hb⟩ := h2 hr hi
      exact ⟨b, by simp only [go_pc]; rw [if_neg (by rintro rfl; rw [hp] at hb; cases hb)]; exact hb⟩
    · rcases (h3 hf).2 a with h | h <;> rw [hp] at h <;> cases h

theorem run_inv : ∀ (sched : List Nat) {s : State}, Inv s → Inv (s.run sched) := by
  intro sched
  induction sched with
  | nil => intro s h; exact h
  | cons a sched ih => intro s h; exact ih (tick_inv h a)

theorem init_inv : Inv State.init :=
  ⟨fun h => (by cases h), fun _ h => (by cases h), fun _ => ⟨rfl, fun _ => Or.inl rfl⟩⟩

/-- what holds once the attributes are right and no thread will change them -/
structure Settled (s : State) (old : List (Nat × Kind)) : Prop where
  init : s.initialised = true
  attr : s.attr = .errorCheck
  pcs : ∀ a, s.pc a = .out ∨ s.pc a = .mutexInit
  new : ∃ l, s.made = l ++ old ∧ ∀ x ∈ l, x.2 = .errorCheck

theorem tick_settled {s : State} {old : List (Nat × Kind)} (h : Settled s old) (a : Nat) : Settled (s.tick a) old := by
  obtain ⟨h1, h2, h3, l, h4, h5⟩ := h
  unfold State.tick
  rcases h3 a with hp | hp
  · rw [hp]
    simp only
    rw [if_pos h1]
    refine ⟨h1, h2, fun b => ?_, l, h4, h5⟩
    rw [go_pc]
    split
    · exact Or.inr rfl
    · exact h3 b
  · rw [hp]
    refine ⟨h1, h2, fun b => ?_, (a, s.attr) :: l, by simp [h4], ?_⟩
    · simp only [go_pc]
      split
      · exact Or.inl rfl
      · exact h3 b
    · intro x hx
      rcases List.mem_cons.1 hx with rfl | hx
      · exact h2
      · exact h5 x hx

theorem run_settled {old : List (Nat × Kind)} : ∀ (sched : List Nat) {s : State}, Settled s old → Settled (s.run sched) old := by
  intro sched
  induction sched with
  | nil => intro s h; exact h
  | cons a sched ih => intro s h; exact ih (tick_settled h a)

/-- C71. If ever some Latch has been made and no thread is making one, all those made from then on, by whatever threads, are
error checking. -/
theorem C71_after_quiet_partial (before after : List Nat) (hq : (State.init.run before).Quiet) (hm : (State.init.run before).made ≠ []) :
    ∃ l, (State.init.run (before ++ after)).made = l ++ (State.init.run before).made ∧ ∀ x ∈ l, x.2 = .errorCheck := by
  obtain ⟨h1, h2, h3⟩ := run_inv before init_inv
  have e1 : (State.init.run before).initialised = true := by
    cases hi : (State.init.run before).initialised with
    | true => rfl
    | false => exact absurd (h3 hi).1 hm
  have e2 : (State.init.run before).attr = .errorCheck := by
    cases ha : (State.init.run before).attr with
    | errorCheck => rfl
    | raw => obtain ⟨a, h⟩ := h2 ha e1; rw [hq a] at h; cases h
    | default => obtain ⟨a, h⟩ := h1 ha; rw [hq a] at h; cases h
  have hs : Settled (State.init.run before) (State.init.run before).made := ⟨e1, e2, fun a => Or.inl (hq a), [], rfl, by simp⟩
  have := run_settled after hs
  unfold State.run at this ⊢
  rw [List.foldl_append]
  exact this.new

/-- C71. So if the first Latch is made while no other thread makes any (it is a static object, say), all of them are error
checking. -/
theorem C71_first_alone_partial (a : Nat) (after : List Nat) :
    ∀ x ∈ (State.init.run (List.replicate 5 a ++ after)).made, x.2 = .errorCheck := by
  have e : (State.init.run (List.replicate 5 a)).made = [(a, .errorCheck)] ∧ (State.init.run (List.replicate 5 a)).Quiet := by
    constructor
    · simp [State.run, List.replicate, State.tick, State.init, State.go]
    · intro b
      simp [State.run, List.replicate, State.tick, State.init, State.go]
      intros; split <;> simp_all
  obtain ⟨l, h1, h2⟩ := C71_after_quiet_partial (List.replicate 5 a) after e.2 (by rw [e.1]; simp)
  rw [h1, e.1]
  intro x hx
  rcases List.mem_append.1 hx with h | h
  · exact h2 x h
  · rw [List.mem_singleton.1 h]

/-- C71 is false in general: a second thread makes its Latch when the first one has set `initialised` but not yet `attr`. Its
`leave` waits for ever; and a thread that was overtaken in the middle can spoil the attributes again, after two Latches have been
made well. -/
theorem C71_refuted_race :
    (State.init.run [0, 0, 1, 1]).made = [(1, .raw)] ∧
    (State.init.run [0, 0, 0, 1, 1]).made = [(1, .default)] ∧
    (State.init.run [0, 1, 1, 1, 1, 1, 1, 1, 0, 0, 1, 1]).made = [(1, .default), (1, .errorCheck), (1, .errorCheck)] ∧
    leave .default (some 1) 1 = none ∧ leave .errorCheck (some 1) 1 = some (.ok none) := by
  refine ⟨?_, ?_, ?_, by decide, by decide⟩ <;> simp [State.run, State.tick, State.init, State.go]

/-- the hypotheses of C71_after_quiet_partial, met after a start where two threads raced -/
example : (State.init.run [0, 0, 1, 1, 0, 0, 0]).made = [(0, .errorCheck), (1, .raw)] ∧ (State.init.run [0, 0, 1, 1, 0, 0, 0]).Quiet := by
  refine ⟨by simp [State.run, State.tick, State.init, State.go], fun a => ?_⟩
  simp [State.run, State.tick, State.init, State.go]
  intros; split <;> simp_all

/-! ### C72 -/

/-- C72. The `timespec` is well-formed and is the delay to the millisecond. -/
theorem C72_deadline_partial (ms : Nat) (h : ms < 9223372036854775808) :
    (deadline ms).2 < 1000000000 ∧ (deadline ms).1 * 1000000000 + (deadline ms).2 = ms * 1000000 := by
  unfold deadline
  have : ((ms : Int) % 18446744073709551616).toNat = ms := by omega
  rw [this]
  omega

/-- C72 is false: the delay is taken for a time on the clock, so with a clock after the year 2000 no delay of less than thirty
years waits at all. -/
theorem C72_refuted_no_wait (now ms : Nat) (hnow : 946684800 * 1000000000 ≤ now) (hms : ms ≤ 946684800 * 1000) :
    waits now (deadline ms) = 0 := by
  have h := (C72_deadline_partial ms (by omega)).2
  unfold waits
  omega

/-- on 2025-01-01 with a delay of one second -/
example : waits (1735689600 * 1000000000) (deadline 1000) = 0 := C72_refuted_no_wait _ 1000 (by omega) (by omega)

end Strpp.LM
