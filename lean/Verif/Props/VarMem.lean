import Verif.Proof.VarMemStep
/-!
C64. Variants, arrays of Variants and maps of Variants are values, and their memory is released exactly once.

`Spec.VM.steps` says what a history of calls means if every variable has a copy of its own. The memory of `Model/VarMem.lean`
has shared, counted bodies.
-/
namespace Strpp.VM

open Spec.VM Var

/-- C64: whatever calls are made (on variables that exist and have the kind the call needs), none accesses a body that has been
deleted or aborts, and the variables show the values they would have if nothing were shared: a change through one variable
shows in no other. -/
theorem C64_values (ops : List Op) (σ : Vals) (h : steps [] ops = some σ) : ∃ s, execAll State.init ops = .ok s ∧ Shows s σ := by
  obtain ⟨L, ⟨s, e, _, w⟩, _⟩ := exec_steps init_inv init_shows h
  exact ⟨s, e, w⟩

/-- C64: if no string was coerced to a number, everything that is in memory is in use: it is reached from a variable. -/
theorem C64_no_leak_partial (ops : List Op) (σ : Vals) (h : steps [] ops = some σ) (hf : frugal [] ops = true) :
    ∃ s, execAll State.init ops = .ok s ∧ ∀ b, Live s b → Reached s b := by
  obtain ⟨L, ⟨s, e, i, w⟩, hL⟩ := exec_steps init_inv init_shows h
  rw [hL.1 hf] at i
  exact ⟨s, e, fun b hb => reached_of_inv i hb⟩

/-- C64: and when all the variables are gone, so is everything in memory. -/
theorem C64_all_released_partial (ops : List Op) (σ : Vals) (h : steps [] ops = some σ) (hf : frugal [] ops = true)
    (hgone : ∀ v : Nat, v < σ.length → σ[v]? = some none) : ∃ s, execAll State.init ops = .ok s ∧ ∀ b, ¬ Live s b := by
  obtain ⟨L, ⟨s, e, i, w⟩, hL⟩ := exec_steps init_inv init_shows h
  rw [hL.1 hf] at i
  refine ⟨s, e, fun b hb => ?_⟩
  have hr := reached_of_inv i hb
  clear hb
  induction hr with
  | var v c b hv _ =>
    obtain ⟨x, hx, _⟩ := shows_some w hv
    rw [hgone v (List.getElem?_eq_some_iff.mp hx).1] at hx
    cases hx
  | body b b' x _ _ _ ih => exact ih

/-- A body is in use as long as it is reached: nothing reached from a variable has been deleted (in any history). -/
theorem C64_reached_exists (ops : List Op) (σ : Vals) (h : steps [] ops = some σ) :
    ∃ s, execAll State.init ops = .ok s ∧ ∀ b, Reached s b → Live s b := by
  obtain ⟨L, ⟨s, e, i, w⟩, _⟩ := exec_steps init_inv init_shows h
  refine ⟨s, e, fun b hb => ?_⟩
  have toLive : ∀ {b}, (∃ x, cont s b = some x) → Live s b := by
    rintro b ⟨x, hx⟩
    obtain ⟨y, hy, _⟩ := body_of_cont hx
    exact ⟨y, hy⟩
  cases hb with
  | var v c b hv hin => exact toLive (i.live_var hv hin)
  | body b b' x _ hx hin => exact toLive (i.live_body (cont_of_body hx) hin)

/-- The count of each body is the number of references to it (in histories without such coercions). -/
theorem C64_counts_partial (ops : List Op) (σ : Vals) (h : steps [] ops = some σ) (hf : frugal [] ops = true) :
    ∃ s, execAll State.init ops = .ok s ∧ ∀ b x, s.bodies[b]? = some (some x) →
      x.count = (s.vars.flatMap varRefs).count b + (s.bodies.flatMap bodyRefs).count b := by
  obtain ⟨L, ⟨s, e, i, w⟩, hL⟩ := exec_steps init_inv init_shows h
  rw [hL.1 hf] at i
  refine ⟨s, e, fun b x hx => ?_⟩
  have := i.cnt b
  rw [cnt_of_body hx] at this
  simpa [vocc, bocc] using this

/-- A history without such coercions: an array holding a number and a string, a copy of it pushed onto itself, a map holding the
array, and its value changed after the fact. Then all variables go. -/
def busy : List Op :=
  [.int 7, .str [0x61#32, 0x62#32], .array [0, 1], .copy 2, .push 2 3, .set 2 0 1, .emptyMap, .insert 4 1 2, .lookup 4 1,
    .assign 5 5, .elem 5 2, .erase 4 1, .pull 2, .pair 2 4, .coerce 0 0#64 0 .string,
    .destroy 4, .destroy 2, .destroy 0, .destroy 1, .destroy 8, .destroy 6, .destroy 7, .destroy 3]

/-- `busy` meets the hypotheses of C64_values and C64_no_leak_partial; before the last destructor runs two bodies remain, and they
are reached from variable 5 only. -/
example : (steps [] busy).isSome = true ∧ frugal [] busy = true ∧
    (execAll State.init busy).map (fun s => s.bodies.map (·.map (·.count))) =
      .ok [some 3, some 1, some 1, none, none, none] := by decide +kernel

/-- ... and with the last one it meets those of C64_all_released_partial. -/
example : ((steps [] (busy ++ [.destroy 5])).map (fun σ => σ.all (·.isNone))) = some true ∧ frugal [] (busy ++ [.destroy 5]) = true ∧
    (execAll State.init (busy ++ [.destroy 5])).map (fun s => s.bodies.all (·.isNone)) = .ok true := by decide +kernel

/-- The history of a leak: a string variable is made, coerced to a number by as_longlong() and destroyed. -/
def leaky : List Op := [.str [0x34#32, 0x32#32], .coerce 0 0#64 0 .longLong, .destroy 0]

/-- C64 is false as it stands: a Variant that holds a string and is coerced to a number does not release the string, whose body
is never deleted (include/variant.h:338; also 297 and 318). -/
theorem C64_refuted_leak : (steps [] leaky).isSome = true ∧
    ∃ s, execAll State.init leaky = .ok s ∧ (∀ v : Nat, v < s.vars.length → s.vars[v]? = some none) ∧ Live s 0 ∧ ¬ Reached s 0 := by
  refine ⟨by decide +kernel, ⟨[some ⟨1, .text [0x34#32, 0x32#32]⟩], [none]⟩, by decide +kernel, ?_, ⟨_, rfl⟩, ?_⟩
  · intro v hv
    have : v = 0 := by simp at hv; omega
    subst this; rfl
  · have h : ∀ b, ¬ Reached ⟨[some ⟨1, .text [0x34#32, 0x32#32]⟩], [none]⟩ b := by
      intro b hr
      induction hr with
      | var v c b hv _ =>
        cases v with
        | zero => simp at hv
        | succ v => simp at hv
      | body b b' x _ _ _ ih => exact ih
    exact h 0

end Strpp.VM
