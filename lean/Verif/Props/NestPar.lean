import Verif.Proof.NestParEnd
/-! C88: values that hold values are values, whatever the threads do. -/
set_option linter.unusedSectionVars false
set_option linter.unusedSimpArgs false
namespace Strpp.NestPar
open Spec

/-- C88. A legal call can be started. -/
theorem C88_start_ok {s : State} {A : View} (h : History s A) {c : Call} (hl : Legal s A c) : ∃ s', start s c = .ok s' := by
  obtain ⟨s', h1, _⟩ := start_J (history_J h) hl
  exact ⟨s', h1⟩

/-- C88. No step of a call in progress faults: no deleted body is used and no assertion fails. -/
theorem C88_no_fault {s : State} {A : View} (h : History s A) (i : Nat) : ∃ s', tick s i = .ok s' := by
  obtain ⟨s', h1, _⟩ := tick_J (history_J h) i
  exact ⟨s', h1⟩

/-- C88. At every moment, a variable that no thread is writing has, down to its last element, the value that the calls on it
have made of it, whatever has been or is being done to other variables that share parts of it. -/
theorem C88_value {s : State} {A : View} (h : History s A) {v : Nat} (hv : Readable s v) {x : Val} (hx : A[v]? = some (some x)) : Shows s v x :=
  (history_J h).shows hv hx

/-- C88. When a call is about to write the elements of a body, or to free it, no other call is about to
write, free or read them, or to use the count. -/
theorem C88_no_race {s : State} {A : View} (h : History s A) {i k : Nat} {x y : Job} (hx : s.jobs[i]? = some x) (hy : s.jobs[k]? = some y) (hik : i ≠ k)
    {p : Nat} (hw : Writes x p) : ¬ Writes y p ∧ ¬ Reads y p ∧ ¬ Counts y p := by
  have hs : Sep x y := by
    have hp := List.pairwise_iff_getElem.1 (history_J h).inv.sep
    obtain ⟨h1, h2⟩ := List.getElem?_eq_some_iff.1 hx
    obtain ⟨h3, h4⟩ := List.getElem?_eq_some_iff.1 hy
    subst h2 h4
    rcases (show i < k ∨ k < i by omega) with h5 | h5
    · exact hp i k h1 h3 h5
    · exact (hp k i h3 h1 h5).symm
  have hm := hs.own p (writes_owns hw)
  exact ⟨fun h => hm (writes_owns h).mentions, fun h => hm (reads_mentions h), fun h => hm (counts_mentions h)⟩

/-- C88. No call is about to write or free any part of the value of a variable that no thread is writing: it can be read
without a race. -/
theorem C88_read_no_race {s : State} {A : View} (h : History s A) {v : Nat} (hv : Readable s v) {p : Nat} (hp : Part s v p) {x : Job} (hx : x ∈ s.jobs) : ¬ Writes x p := by
  intro hw
  obtain ⟨_, h1, h2⟩ := ((history_J h).inv.jobs x hx).own p (writes_owns hw)
  cases hp with
  | root hr => exact hv x hx (h1 v hr).symm
  | kid _ hb hk => exact h2 _ _ hb hk

/-- C88. When a call writes a body as it is started (there is room for an element in a body that nobody else refers to, or a
text is changed in place), no call in progress is about to write, free or read it or to use its count, and it is part of
the value of the variable that is written and of no other. -/
theorem C88_start_no_race {s s' : State} {A : View} (h : History s A) {c : Call} (hl : Legal s A c) (hs : start s c = .ok s') {p : Nat} (hp : p < s.bodies.length)
    (hne : s'.bodies[p]? ≠ s.bodies[p]?) : (∀ x ∈ s.jobs, ¬ Writes x p ∧ ¬ Reads x p ∧ ¬ Counts x p) ∧ ∃ v, Idle s v ∧ ∀ u, Part s u p ↔ u = v := by
  obtain ⟨v, b, h1, h2, h3, h4⟩ := start_changed (history_J h) hl hs hp hne
  obtain ⟨honly, hnk, hprivate⟩ := (history_J h).private h1 h2 h3 h4
  refine ⟨fun x hx => ⟨fun h => hprivate x hx (writes_owns h).mentions, fun h => hprivate x hx (reads_mentions h), fun h => hprivate x hx (counts_mentions h)⟩, v, h4, fun u => ⟨fun hu => ?_, ?_⟩⟩
  · cases hu with
    | root hr => exact honly u hr
    | kid _ hb hk => exact absurd hk (hnk _ _ hb)
  · rintro rfl; exact Part.root h1

/-- C88. The calls in progress end whatever the order of their steps: there is a bound on the number of steps they can make
before another call is started. No call waits for another. -/
theorem C88_calls_end (s : State) : ∃ N, ∀ n s', Ticks s n s' → n ≤ N := by
  refine ⟨(total s).toNat, fun n s' ht => ?_⟩
  induction ht with
  | done s => exact Nat.zero_le _
  | @step s s1 _ _ i hi he _ ih =>
    have := tick_total hi he
    have := total_nonneg s1
    omega

/-- C88. From every moment on the calls in progress can be finished, and this leaves the values as they are expected to be. -/
theorem C88_can_finish {s : State} {A : View} (h : History s A) : ∃ s', History s' A ∧ s'.jobs = [] := by
  generalize hN : (total s).toNat = N
  induction N using Nat.strongRecOn generalizing s with
  | _ N ih =>
    by_cases hw : s.jobs = []
    · exact ⟨s, h, hw⟩
    · have hlt : 0 < s.jobs.length := List.length_pos_iff.2 hw
      obtain ⟨s1, h1⟩ := C88_no_fault h 0
      have := tick_total hlt h1
      have := total_nonneg s1
      exact ih (total s1).toNat (by omega) (History.tick 0 h h1) rfl

/-- C88. Nothing is leaked or freed early: when no call is in progress, the bodies that have not been deleted are those
that are part of the value of some variable. -/
theorem C88_released {s : State} {A : View} (h : History s A) (hq : s.jobs = []) (o : Nat) (b : Body) (hb : s.bodies[o]? = some b) :
    b.live = true ↔ ∃ v, Part s v o := by
  constructor
  · intro hl
    exact quiet_part (history_J h) (history_empty h) hq ⟨b, hb, hl⟩
  · rintro ⟨v, hv⟩
    obtain ⟨b', h1, h2⟩ := part_alive (history_J h) hv
    rw [hb] at h1; cases h1; exact h2

/-- C88. A part of the value of a variable is never freed, not even while calls are in progress. -/
theorem C88_kept {s : State} {A : View} (h : History s A) {v o : Nat} (hv : Part s v o) : ∃ b, s.bodies[o]? = some b ∧ b.live = true :=
  part_alive (history_J h) hv

/-- C88. When all variables have been destroyed and the calls have ended, all bodies have been deleted, however deep they were nested. -/
theorem C88_all_released {s : State} {A : View} (h : History s A) (hq : s.jobs = []) (hd : ∀ x ∈ A, x = none) (o : Nat) (b : Body)
    (hb : s.bodies[o]? = some b) : b.live = false := by
  cases hl : b.live with
  | false => rfl
  | true =>
    obtain ⟨v, hv⟩ := (C88_released h hq o b hb).1 hl
    have hroot : ∀ p, Part s v p → ∃ q, s.vars[v]? = some (some (.ref q)) := by
      intro p hp
      induction hp with
      | root hr => exact ⟨_, hr⟩
      | kid _ _ _ ih => exact ih
    obtain ⟨q, hq'⟩ := hroot o hv
    have hlt := (List.getElem?_eq_some_iff.1 hq').1
    have hA : A[v]? = some none := by
      have hlen := (history_J h).len
      have := List.getElem?_eq_getElem (l := A) (i := v) (by omega)
      rw [this, hd _ (List.getElem_mem ..)]
    rw [history_gone h v hA] at hq'
    cases hq'

/-! ### The histories are not vacuous -/

instance (A : View) (v : Nat) : Decidable (Exists A v) :=
  match h : A[v]? with
  | some (some x) => isTrue ⟨x, h⟩
  | some none => isFalse (by intro ⟨x, hx⟩; rw [h] at hx; cases hx)
  | none => isFalse (by intro ⟨x, hx⟩; rw [h] at hx; cases hx)

instance (x : Val) : Decidable (∃ xs, x = Val.obj [] xs) :=
  match x with
  | .num n => isFalse (by rintro ⟨xs, h⟩; cases h)
  | .obj [] xs => isTrue ⟨xs, rfl⟩
  | .obj (a :: t) xs => isFalse (by rintro ⟨xs, h⟩; cases h)

instance (x : Val) : Decidable (∃ t, x = Val.obj t []) :=
  match x with
  | .num n => isFalse (by rintro ⟨xs, h⟩; cases h)
  | .obj t [] => isTrue ⟨t, rfl⟩
  | .obj t (a :: xs) => isFalse (by rintro ⟨xs, h⟩; cases h)

instance (s : State) (v : Nat) : Decidable (Readable s v) := by unfold Readable; infer_instance
instance (s : State) (v : Nat) : Decidable (Idle s v) := by unfold Idle; infer_instance
instance (s : State) (A : View) (c : Call) : Decidable (Legal s A c) := by cases c <;> (simp only [Legal]; infer_instance)

/-- run a list of starts of calls (if legal) and of steps of the calls in progress -/
def tryRun : State → View → List (Sum Call Nat) → Option (State × View)
  | s, A, [] => some (s, A)
  | s, A, .inl c :: cs =>
    if Legal s A c then
      match start s c with
      | .ok s => tryRun s (A.call c) cs
      | .error _ => none
    else none
  | s, A, .inr i :: cs =>
    match tick s i with
    | .ok s => tryRun s A cs
    | .error _ => none

theorem tryRun_history {s s' : State} {A A' : View} (cs : List (Sum Call Nat)) (h : History s A)
    (hr : tryRun s A cs = some (s', A')) : History s' A' := by
  induction cs generalizing s A with
  | nil => cases hr; exact h
  | cons e cs ih =>
    cases e with
    | inl c =>
      simp only [tryRun] at hr
      split at hr
      · rename_i hl
        split at hr
        · rename_i he; exact ih (History.call c h hl he) hr
        · cases hr
      · cases hr
    | inr i =>
      simp only [tryRun] at hr
      split at hr
      · rename_i ht; exact ih (History.tick i h ht) hr
      · cases hr

/-- start calls without asking whether they are legal -/
def runAny : State → List (Sum Call Nat) → Res State
  | s, [] => .ok s
  | s, .inl c :: cs => do
    let s ← start s c
    runAny s cs
  | s, .inr i :: cs => do
    let s ← tick s i
    runAny s cs

/-- a value as a list of numbers, to depth `n`, for the examples -/
def flat : Nat → Val → List Int
  | _, .num m => [0, m]
  | 0, .obj _ _ => [-1]
  | n + 1, .obj t xs => [1, (t.length : Int), (xs.length : Int)] ++ t.map (fun c => (c.toNat : Int)) ++ xs.flatMap (flat n)

/-- what a variable shows, in the same form -/
def shown (s : State) (v : Nat) : List Int :=
  match s.vars[v]? with
  | some (some c) => ((valueAt s.bodies 9 c).map (flat 9)).getD [-2]
  | _ => [-3]

/-- `n` steps of the first call in progress -/
def go (n : Nat) : List (Sum Call Nat) := (List.range n).map fun _ => .inr 0

/-- "ab", 7, an array of the two (2), a copy of the array (3), and an array of the two arrays (4); all calls finished -/
def nested : List (Sum Call Nat) :=
  [.inl (.str [97#32, 98#32])] ++ go 4 ++ [.inl (.number 7), .inl (.array [0, 1])] ++ go 30 ++ [.inl (.copy 2)] ++ go 8 ++ [.inl (.array [2, 3])] ++ go 50

/-- While one thread sets an element of one copy of the inner array, another sets an element of the outer array, a third
takes an element of the other copy, and a fourth destroys the string. -/
def busy : List (Sum Call Nat) :=
  nested ++ [.inl (.setElem 2 0 1), .inl (.setElem 4 1 3), .inl (.elem 3 0), .inl (.destroy 0)] ++ (List.range 200).map (fun i => .inr (i % 4)) ++ go 100

set_option maxRecDepth 100000 in
example : (tryRun init [] nested).map (fun r => (r.1.jobs.length, (List.range 5).map (shown r.1))) =
    some (0, [[1, 2, 0, 97, 98], [0, 7], [1, 0, 2, 1, 2, 0, 97, 98, 0, 7], [1, 0, 2, 1, 2, 0, 97, 98, 0, 7],
      [1, 0, 2, 1, 0, 2, 1, 2, 0, 97, 98, 0, 7, 1, 0, 2, 1, 2, 0, 97, 98, 0, 7]]) := by decide +kernel

set_option maxRecDepth 100000 in
example : (tryRun init [] busy).map (fun r => (r.1.jobs.length, (List.range 6).map (shown r.1))) =
    some (0, [[-3], [0, 7], [1, 0, 2, 0, 7, 0, 7], [1, 0, 2, 1, 2, 0, 97, 98, 0, 7],
      [1, 0, 2, 1, 0, 2, 1, 2, 0, 97, 98, 0, 7, 1, 0, 2, 1, 2, 0, 97, 98, 0, 7], [1, 2, 0, 97, 98]]) := by decide +kernel

/-- "ab" and an array with it: the string is changed and the array is pushed to, first while they share storage, then not -/
def grown : List (Sum Call Nat) :=
  [.inl (.str [97#32, 98#32])] ++ go 4 ++ [.inl (.array [0])] ++ go 30 ++ [.inl (.copy 1)] ++ go 8 ++
    [.inl (.edit 0 [120#32]), .inl (.push 1 2)] ++ (List.range 80).map (fun i => .inr (i % 2)) ++ go 40 ++ [.inl (.edit 0 [121#32, 122#32]), .inl (.push 1 0)] ++ go 40

set_option maxRecDepth 100000 in
example : (tryRun init [] grown).map (fun r => (r.1.jobs.length, r.1.bodies.length, (List.range 3).map (shown r.1))) =
    some (0, 4, [[1, 2, 0, 121, 122], [1, 0, 3, 1, 2, 0, 97, 98, 1, 0, 1, 1, 2, 0, 97, 98, 1, 2, 0, 121, 122], [1, 0, 1, 1, 2, 0, 97, 98]]) := by decide +kernel

/-- there are steps at which a call is about to write a body, and others at which it is about to read one -/
example : ∃ (s : State) (A : View) (i : Nat) (x : Job) (p : Nat), History s A ∧ s.jobs.length = 3 ∧ s.jobs[i]? = some x ∧ Writes x p := by
  have h : (tryRun init [] (nested ++ [.inl (.setElem 2 0 1), .inl (.elem 3 0), .inl (.destroy 0), .inr 0, .inr 0, .inr 0])).isSome = true := by decide +kernel
  obtain ⟨⟨s, A⟩, hs⟩ := Option.isSome_iff_exists.1 h
  have hj : (tryRun init [] (nested ++ [.inl (.setElem 2 0 1), .inl (.elem 3 0), .inl (.destroy 0), .inr 0, .inr 0, .inr 0])).map (fun r => r.1.jobs.length) = some 3 := by decide +kernel
  have hh : (tryRun init [] (nested ++ [.inl (.setElem 2 0 1), .inl (.elem 3 0), .inl (.destroy 0), .inr 0, .inr 0, .inr 0])).map (fun r => (r.1.jobs[0]?).map (fun j => j.todo.head?)) =
      some (some (some (.swap (.kid 3 0) (.num 0)))) := by decide +kernel
  rw [hs] at hj hh
  simp only [Option.map_some, Option.some.injEq] at hj hh
  obtain ⟨j, hj0, hjt⟩ := Option.map_eq_some_iff.1 hh
  refine ⟨s, A, 0, j, 3, tryRun_history _ .start hs, hj, hj0, ?_⟩
  obtain ⟨v, r, t⟩ := j
  cases t with
  | nil => cases hjt
  | cons a t => simp at hjt; subst hjt; rfl

/-- all destroyed: the inner bodies are deleted with the outer ones -/
example : (tryRun init [] (busy ++ [.inl (.destroy 2), .inl (.destroy 3), .inl (.destroy 4), .inl (.destroy 5), .inl (.destroy 1)] ++
      (List.range 60).map (fun i => .inr (i % 5)) ++ go 40)).map (fun r => (r.1.jobs.length, r.1.bodies.map (·.live), r.2.map (·.isSome))) =
    some (0, [false, false, false, false], [false, false, false, false, false, false]) := by decide +kernel

/-- Two threads that write the same array at once (which is not legal) can use a body that has been deleted. -/
example : (runAny init (nested ++ [.inl (.setElem 2 0 1), .inl (.setElem 2 1 1)] ++ (List.range 200).map (fun i => .inr (i % 2)))).toOption.isSome = false := by decide +kernel

end Strpp.NestPar
