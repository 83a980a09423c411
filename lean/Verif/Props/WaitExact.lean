import Verif.Props.LatchMake
/-! Property C93: how long a timed wait lasts and what it leaves in its argument (src/condition.cpp:140-158). -/
namespace Strpp.LM

/-- The time, in nanoseconds since 1970, that the argument names: it is in milliseconds since 1970; a negative one is taken
modulo 2^64. -/
def named (timeout : Int) : Int := (if timeout < 0 then timeout + 18446744073709551616 else timeout) * 1000000

theorem deadline_named (timeout : Int) (h : -9223372036854775808 ≤ timeout ∧ timeout < 9223372036854775808) :
    (((deadline timeout).1 * 1000000000 + (deadline timeout).2 : Nat) : Int) = named timeout := by
  unfold deadline named
  simp only
  split <;> omega

theorem min_spec (l : List Nat) (t : Nat) (h : l.min? = some t) : t ∈ l ∧ ∀ x ∈ l, t ≤ x :=
  (List.min?_eq_some_iff).mp h

/-- C93. Called at `now` with any `long`: it returns at the first signal that comes before the time named, and then leaves the
argument as it was; if there is none, it returns at the time named, or at once if that has passed, and leaves 0. -/
theorem C93_wait (timeout : Int) (h : -9223372036854775808 ≤ timeout ∧ timeout < 9223372036854775808) (now : Nat) (signals : List Nat) :
    (∃ t ∈ signals, now ≤ t ∧ (t : Int) < named timeout ∧ (∀ u ∈ signals, now ≤ u → t ≤ u) ∧ timedWait timeout now signals = (t, timeout)) ∨
    ((∀ t ∈ signals, now ≤ t → named timeout ≤ t) ∧ ((timedWait timeout now signals).1 : Int) = max (now : Int) (named timeout) ∧
      (timedWait timeout now signals).2 = 0) := by
  have hd := deadline_named timeout h
  unfold timedWait
  cases hm : (signals.filter (fun t => decide (now ≤ t) && decide (t < (deadline timeout).1 * 1000000000 + (deadline timeout).2))).min? with
  | some t =>
    left
    obtain ⟨h1, h2⟩ := min_spec _ _ hm
    obtain ⟨h3, h4⟩ := List.mem_filter.mp h1
    simp only [Bool.and_eq_true, decide_eq_true_eq] at h4
    refine ⟨t, h3, h4.1, by omega, fun u hu hn => ?_, by simp only [hm]⟩
    by_cases hud : u < (deadline timeout).1 * 1000000000 + (deadline timeout).2
    · exact h2 u (List.mem_filter.mpr ⟨hu, by simp [hn, hud]⟩)
    · omega
  | none =>
    right
    rw [List.min?_eq_none_iff, List.filter_eq_nil_iff] at hm
    have hm' : (signals.filter (fun t => decide (now ≤ t) && decide (t < (deadline timeout).1 * 1000000000 + (deadline timeout).2))).min? = none := by
      rw [List.min?_eq_none_iff, List.filter_eq_nil_iff]; exact hm
    refine ⟨fun t ht hn => ?_, ?_, ?_⟩
    · have := hm t ht
      simp only [Bool.and_eq_true, decide_eq_true_eq, not_and] at this
      have := this hn
      omega
    · simp only [hm']
      omega
    · simp only [hm']

/-- C93. So on any date after 2000 a delay of up to thirty years does not wait at all and misses every signal. -/
theorem C93_at_once (ms : Nat) (hms : ms ≤ 946684800 * 1000) (now : Nat) (hnow : 946684800 * 1000000000 ≤ now) (signals : List Nat) :
    timedWait ms now signals = (now, 0) := by
  rcases C93_wait ms (by omega) now signals with ⟨t, -, h1, h2, -, -⟩ | ⟨-, h1, h2⟩
  · unfold named at h2
    split at h2 <;> omega
  · unfold named at h1
    have : (timedWait ms now signals).1 = now := by split at h1 <;> omega
    exact Prod.ext this h2

/-- C93. A negative delay does not return before a signal until the year 292 million at least. -/
theorem C93_negative (timeout : Int) (h : -9223372036854775808 ≤ timeout ∧ timeout < 0) (now : Nat) (signals : List Nat)
    (hno : ∀ t ∈ signals, now ≤ t → 9223372036854775808 * 1000000 ≤ t) : 9223372036854775808 * 1000000 ≤ (timedWait timeout now signals).1 := by
  have hn : 9223372036854775808 * 1000000 ≤ named timeout := by unfold named; rw [if_pos h.2]; omega
  rcases C93_wait timeout (by omega) now signals with ⟨t, ht, h1, h2, h3, e⟩ | ⟨-, h1, -⟩
  · rw [e]; exact hno t ht h1
  · omega

/-- a delay of a second in 2025 misses the signal half a second later; the time of day two seconds ahead, in milliseconds since
1970, meets it; and the delay is then left as it was, although half a second has gone -/
example : timedWait 1000 1735689600000000000 [1735689600500000000] = (1735689600000000000, 0) ∧
    timedWait 1735689602000 1735689600000000000 [1735689600500000000] = (1735689600500000000, 1735689602000) ∧
    timedWait 1735689602000 1735689600000000000 [] = (1735689602000000000, 0) := by decide +kernel

end Strpp.LM
