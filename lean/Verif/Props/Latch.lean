import Verif.Proof.Latch
/-! C46: Latch (include/lockfree.h) under every interleaving of any number of threads making any calls. -/
namespace Strpp.Lt

/-- At most one thread is between `enter` (or a successful `probe`) and `leave`. -/
theorem C46_exclusive {s : State} {tr : List Event} (h : Reach s tr) (a b : Nat) (ha : Inside a tr) (hb : Inside b tr) : a = b := by
  have h1 := ((inv_reach h).inside a).mp ha
  have h2 := ((inv_reach h).inside b).mp hb
  rw [h1.1] at h2
  exact Option.some.inj h2.1

/-- Only when none is inside does a thread get in. -/
theorem C46_enters {s : State} {tr : List Event} (a : Nat) (h : Reach s (.entered a :: tr) ∨ Reach s (.probed a true :: tr)) : ∀ b, ¬ Inside b tr := by
  have key : ∀ e, e = Event.entered a ∨ e = Event.probed a true → Reach s (e :: tr) → ∀ b, ¬ Inside b tr := by
    intro e he h b hb
    obtain ⟨s0, s1, a', c, hr, hs⟩ := happened h _ _ rfl
    have := ((inv_reach hr).inside b).mp hb
    unfold step at hs
    split at hs
    · cases hs
    · rcases he with rfl | rfl <;> split at hs <;> (try split at hs) <;> (try split at hs) <;> simp_all
  rcases h with h | h
  · exact key _ (Or.inl rfl) h
  · exact key _ (Or.inr rfl) h

/-- `holding` tells a thread whether it is inside. -/
theorem C46_holding {s : State} {tr : List Event} (a : Nat) (yes : Bool) (h : Reach s (.held a yes :: tr)) : yes = true ↔ Inside a tr := by
  obtain ⟨s0, s1, a', c, hr, hs⟩ := happened h _ _ rfl
  have hi := (inv_reach hr).inside a
  unfold step at hs
  split at hs
  · cases hs
  · split at hs <;> (try split at hs) <;> (try split at hs) <;> simp_all [Pc.leaving]

/-- An assertion fails only in `enter` by a thread that is inside, or after some thread called `leave` without being inside. -/
theorem C46_aborts {s : State} {tr : List Event} (a : Nat) (h : Reach s (.aborted a :: tr)) :
    (Calling a tr = some .enter ∧ Inside a tr) ∨ (Calling a tr = some .leave ∧ ¬ Proper tr) := by
  obtain ⟨s0, s1, a', c, hr, hs⟩ := happened h _ _ rfl
  have hi := (inv_reach hr).inside a
  have h3 := (inv_reach hr).held a
  have h4 := (inv_reach hr).proper
  have h5 := (inv_reach hr).calling a
  unfold step at hs
  split at hs
  · cases hs
  · rename_i hab
    have h4 := h4 (by simpa using hab) a
    split at hs <;> (try split at hs) <;> (try split at hs) <;> simp_all [Pc.leaving, Pc.call]

/-- If `probe` does not get in, some thread is inside, or is in the middle of `leave` or of `holding`. -/
theorem C46_probe {s : State} {tr : List Event} (a : Nat) (h : Reach s (.probed a false :: tr)) :
    ∃ b, Inside b tr ∨ Calling b tr = some .leave ∨ Calling b tr = some .holding := by
  obtain ⟨s0, s1, a', c, hr, hs⟩ := happened h _ _ rfl
  unfold step at hs
  split at hs
  · cases hs
  · split at hs <;> (try split at hs) <;> (try split at hs) <;> simp_all
    rename_i b _ _ hh
    refine ⟨b, ?_⟩
    rw [(inv_reach hr).inside b, (inv_reach hr).calling b]
    cases hp : s0.pc b with
    | leaveLock r => cases r <;> simp [Pc.call]
    | leaveUnlock r => cases r <;> simp [Pc.call]
    | _ => simp [hh, Pc.leaving]

/-- actions one after the other -/
inductive Steps : State → List Nat → State → Prop
  | nil (s) : Steps s [] s
  | cons {s s' s'' : State} (b : Nat) (bs : List Nat) (e : Option Event) : step s b none = some (s', e) → Steps s' bs s'' → Steps s (b :: bs) s''

/-- A thread waiting in `enter` gets in when none is inside: at once, or after at most two actions of one other thread, which is on
its way out and is not waiting for anything. -/
theorem C46_lets_in {s : State} {tr : List Event} (h : Reach s tr) (hab : s.aborted = false) (a : Nat) (ha : s.pc a = .enterLock) (hno : ∀ b, ¬ Inside b tr) :
    ∃ b bs s' s'', (bs = [] ∨ bs = [b] ∨ bs = [b, b]) ∧ Steps s bs s' ∧ step s' a none = some (s'', some (.entered a)) := by
  have hin : ∀ s' : State, s'.aborted = false → s'.holder = none → s'.pc a = .enterLock → ∃ s'', step s' a none = some (s'', some (.entered a)) := by
    intro s' h1 h2 h3
    exact ⟨_, by unfold step; rw [if_neg (by simp [h1]), h3]; simp only [h2]; rfl⟩
  cases hh : s.holder with
  | none =>
    obtain ⟨s'', hs⟩ := hin s hab hh ha
    exact ⟨a, [], s, s'', Or.inl rfl, .nil s, hs⟩
  | some b =>
    have hb : ¬ (s.pc b).leaving = false := fun hl => hno b (((inv_reach h).inside b).mpr ⟨hh, hl⟩)
    have hba : b ≠ a := by
      intro hba
      rw [hba, ha] at hb
      exact hb rfl
    have hun : ∀ (s1 : State) (r : Bool), s1.aborted = false → s1.holder = some b → s1.pc a = .enterLock → s1.pc b = .leaveUnlock r →
        ∃ s2 e, step s1 b none = some (s2, e) ∧ s2.aborted = false ∧ s2.holder = none ∧ s2.pc a = .enterLock := by
      intro s1 r h1 h2 h3 h4
      refine ⟨{ s1 with holder := none, pc := upd s1.pc b .out }, some (if r then .held b false else .left b), ?_, h1, rfl, ?_⟩
      · unfold step
        rw [if_neg (by simp [h1]), h4]
        simp only [h2, if_true]
      · simp only
        rw [upd_other _ _ _ _ (fun h => hba h.symm)]; exact h3
    cases hp : s.pc b with
    | leaveUnlock r =>
      obtain ⟨s2, e, g1, g2, g3, g4⟩ := hun s r hab hh ha hp
      obtain ⟨s'', hs⟩ := hin s2 g2 g3 g4
      exact ⟨b, [b], s2, s'', Or.inr (Or.inl rfl), .cons b [] e g1 (.nil _), hs⟩
    | leaveLock r =>
      have hl : step s b none = some ({ s with pc := upd s.pc b (.leaveUnlock r) }, none) := by
        unfold step
        rw [if_neg (by simp [hab]), hp]
        simp only [hh, if_true]
      obtain ⟨s2, e, g1, g2, g3, g4⟩ := hun { s with pc := upd s.pc b (.leaveUnlock r) } r hab hh (by simp only; rw [upd_other _ _ _ _ (fun h => hba h.symm)]; exact ha) (by simp)
      obtain ⟨s'', hs⟩ := hin s2 g2 g3 g4
      exact ⟨b, [b, b], s2, s'', Or.inr (Or.inr rfl), .cons b [b] none hl (.cons b [] e g1 (.nil _)), hs⟩
    | _ => rw [hp] at hb; exact absurd rfl hb

/-- runs of actions, for examples -/
def play : List (Nat × Option Call) → State → List Event → Option (State × List Event)
  | [], s, tr => some (s, tr)
  | (a, c) :: cs, s, tr =>
    match step s a c with
    | none => none
    | some (s', e) => play cs s' (add e tr)

theorem play_reach : ∀ (cs : List (Nat × Option Call)) (s : State) (tr : List Event) (s' : State) (tr' : List Event), Reach s tr → play cs s tr = some (s', tr') → Reach s' tr' := by
  intro cs
  induction cs with
  | nil => intro s tr s' tr' h hp; cases hp; exact h
  | cons c cs ih =>
    intro s tr s' tr' h hp
    obtain ⟨a, c⟩ := c
    simp only [play] at hp
    split at hp
    · cases hp
    · rename_i s1 e hs
      refine ih _ _ _ _ ?_ hp
      cases e with
      | none => exact .quiet a c h hs
      | some e => exact .seen a c e h hs

/-- two threads: 1 enters and finds it holds the latch, 2 waits, 1 leaves, 2 enters -/
example : (play [(1, some .enter), (1, none), (2, some .enter), (1, some .holding), (1, none), (1, some .leave), (1, none), (1, none), (2, none)] init []).map Prod.snd =
    some [.entered 2, .left 1, .call 1 .leave, .held 1 true, .call 1 .holding, .call 2 .enter, .entered 1, .call 1 .enter] := by decide +kernel

/-- 2 waits while 1 is inside -/
example : play [(1, some .enter), (1, none), (2, some .enter), (2, none)] init [] = none := by
  have : (play [(1, some .enter), (1, none), (2, some .enter), (2, none)] init []).isSome = false := by decide +kernel
  simpa using this

/-- no thread is inside, and yet `probe` does not get in: 2 is looking whether it holds the latch -/
example : (play [(2, some .holding), (2, none), (1, some .probe), (1, none)] init []).map Prod.snd = some [.probed 1 false, .call 1 .probe, .call 2 .holding] := by decide +kernel

end Strpp.Lt
