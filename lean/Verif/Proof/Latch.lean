import Verif.Spec.Latch
/-! The invariant of the latch machine. -/
namespace Strpp.Lt

@[simp] theorem upd_same {α : Type} (f : Nat → α) (a : Nat) (v : α) : upd f a v a = v := by simp [upd]
theorem upd_other {α : Type} (f : Nat → α) (a b : Nat) (v : α) (h : b ≠ a) : upd f a v b = f b := by simp [upd, h]

/-- the call a thread is in, by where it is -/
def Pc.call : Pc → Option Call
  | .out => none
  | .enterLock => some .enter
  | .probeLock => some .probe
  | .leaveLock false => some .leave
  | .leaveUnlock false => some .leave
  | .leaveLock true => some .holding
  | .leaveUnlock true => some .holding
  | .holdLock => some .holding

/-- is the thread in the middle of giving the mutex back? -/
def Pc.leaving : Pc → Bool
  | .leaveLock _ => true
  | .leaveUnlock _ => true
  | _ => false

structure Inv (s : State) (tr : List Event) : Prop where
  inside : ∀ a, Inside a tr ↔ s.holder = some a ∧ (s.pc a).leaving = false
  unlock : ∀ a r, s.pc a = .leaveUnlock r → s.holder = some a
  held : ∀ a, s.pc a = .leaveLock true → s.holder = some a
  proper : s.aborted = false → ∀ a, s.pc a = .leaveLock false → s.holder = some a ∨ ¬ Proper tr
  calling : ∀ a, Calling a tr = (s.pc a).call

theorem inv_init : Inv init [] := by
  refine ⟨?_, ?_, ?_, ?_, ?_⟩ <;> simp [init, Inside, Calling, Pc.call]

/-- the trace after a step -/
def add (e : Option Event) (tr : List Event) : List Event :=
  match e with
  | some e => e :: tr
  | none => tr

/-- what changes for the others is nothing -/
theorem inv_of {s s' : State} {tr tr' : List Event} (h : Inv s tr) (a : Nat) (hpc : ∀ b, b ≠ a → s'.pc b = s.pc b) (hh : ∀ b, b ≠ a → (s'.holder = some b ↔ s.holder = some b))
    (hin : ∀ b, b ≠ a → (Inside b tr' ↔ Inside b tr)) (hcall : ∀ b, b ≠ a → Calling b tr' = Calling b tr) (hprop : Proper tr' → Proper tr) (hab : s.aborted = false)
    (i1 : Inside a tr' ↔ s'.holder = some a ∧ (s'.pc a).leaving = false) (i2 : ∀ r, s'.pc a = .leaveUnlock r → s'.holder = some a) (i3 : s'.pc a = .leaveLock true → s'.holder = some a)
    (i4 : s'.aborted = false → s'.pc a = .leaveLock false → s'.holder = some a ∨ ¬ Proper tr') (i5 : Calling a tr' = (s'.pc a).call) : Inv s' tr' := by
  refine ⟨fun b => ?_, fun b r hb => ?_, fun b hb => ?_, fun h' b hb => ?_, fun b => ?_⟩ <;> by_cases hba : b = a
  · rw [hba]; exact i1
  · rw [hin b hba, hh b hba, hpc b hba]; exact h.inside b
  · rw [hba] at hb ⊢; exact i2 r hb
  · rw [hpc b hba] at hb; rw [hh b hba]; exact h.unlock b r hb
  · rw [hba] at hb ⊢; exact i3 hb
  · rw [hpc b hba] at hb; rw [hh b hba]; exact h.held b hb
  · rw [hba] at hb ⊢; exact i4 h' hb
  · rw [hpc b hba] at hb; rw [hh b hba]
    exact (h.proper hab b hb).imp id (fun g g' => g (hprop g'))
  · rw [hba]; exact i5
  · rw [hcall b hba, hpc b hba]; exact h.calling b

theorem inv_step {s : State} {tr : List Event} (h : Inv s tr) (a : Nat) (c : Option Call) (s' : State) (e : Option Event) (hs : step s a c = some (s', e)) : Inv s' (add e tr) := by
  unfold step at hs
  split at hs
  · cases hs
  rename_i hab
  have hab : s.aborted = false := by simpa using hab
  have hi := h.inside a
  have h2 := h.unlock a
  have h3 := h.held a
  have h4 := h.proper hab a
  have h5 := h.calling a
  have hne : ∀ b, b ≠ a → a ≠ b := fun b h h' => h h'.symm
  split at hs
  case h_5 hp =>
    split at hs
    · rename_i hh
      cases hs
      apply inv_of h a <;> simp_all +contextual [upd, add, Inside, Proper, Calling, Pc.call, Pc.leaving]
    · split at hs
      · rename_i hh hha
        cases hs
        apply inv_of h a <;> simp_all +contextual [upd, add, Inside, Proper, Calling, Pc.call, Pc.leaving]
      · cases hs
  case h_6 hp =>
    split at hs
    · rename_i hh
      cases hs
      apply inv_of h a <;> simp_all +contextual [upd, add, Inside, Proper, Calling, Pc.call, Pc.leaving]
    · rename_i hh
      cases hs
      apply inv_of h a <;> simp_all +contextual [upd, add, Inside, Proper, Calling, Pc.call, Pc.leaving]
  case h_7 r hp =>
    split at hs
    · rename_i hh
      cases hs
      apply inv_of h a <;> cases r <;> simp_all +contextual [upd, add, Inside, Proper, Calling, Pc.call, Pc.leaving]
    · split at hs
      · rename_i hh hha
        cases hs
        apply inv_of h a <;> cases r <;> simp_all +contextual [upd, add, Inside, Proper, Calling, Pc.call, Pc.leaving]
      · cases hs
  case h_8 r hp =>
    cases hs
    apply inv_of h a <;> cases r <;> simp_all +contextual [upd, add, Inside, Proper, Calling, Pc.call, Pc.leaving]
  case h_9 hp =>
    split at hs
    · rename_i hh
      cases hs
      apply inv_of h a <;> simp_all +contextual [upd, add, Inside, Proper, Calling, Pc.call, Pc.leaving]
    · split at hs
      · rename_i hh hha
        cases hs
        apply inv_of h a <;> simp_all +contextual [upd, add, Inside, Proper, Calling, Pc.call, Pc.leaving]
      · cases hs
  case h_10 => cases hs
  case h_2 hp _ =>
    cases hs
    apply inv_of h a <;> simp_all +contextual [upd, add, Inside, Proper, Calling, Pc.call, Pc.leaving]
    by_cases hx : s.holder = some a
    · exact Or.inl hx
    · exact Or.inr (fun h => absurd h hx)
  all_goals
    cases hs
    apply inv_of h a <;> simp_all +contextual [upd, add, Inside, Proper, Calling, Pc.call, Pc.leaving]

/-- where an event happened -/
theorem happened {s : State} {tr' : List Event} (h : Reach s tr') : ∀ e tr, tr' = e :: tr → ∃ s0 s1 a c, Reach s0 tr ∧ step s0 a c = some (s1, some e) := by
  induction h with
  | init => intro e tr h; cases h
  | quiet a c _ _ ih => exact ih
  | seen a c e' hr hs ih =>
    intro e tr h
    cases h
    exact ⟨_, _, a, c, hr, hs⟩

theorem inv_reach {s : State} {tr : List Event} (h : Reach s tr) : Inv s tr := by
  induction h with
  | init => exact inv_init
  | quiet a c _ hs ih => exact inv_step ih a c _ none hs
  | seen a c e _ hs ih => exact inv_step ih a c _ (some e) hs

end Strpp.Lt
