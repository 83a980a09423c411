import Verif.Proof.TextParStart
/-! C87: StrVals are values, whatever the threads do. -/
set_option linter.unusedSectionVars false
set_option linter.unusedSimpArgs false
namespace Strpp.TextPar
open Spec
open RC (Pc Job)
open ArrPar (Uses mem_mid mem_self excl_fresh)

variable {F : Type} {ap : F → Text → Text}

/-- C87. A legal call can be started. -/
theorem C87_start_ok {s : State F} {A : View} (h : History ap s A) {c : Call F} (hl : Legal s A c) : ∃ s', start s c = .ok s' := by
  obtain ⟨s', h1, _⟩ := start_J (history_J h) hl
  exact ⟨s', h1⟩

/-- C87. No step of a call in progress faults: no deleted body is used and no assertion fails. -/
theorem C87_no_fault {s : State F} {A : View} (h : History ap s A) (i : Nat) : ∃ s', tick ap s i = .ok s' := by
  obtain ⟨s', h1, _⟩ := tick_J (history_J h) i
  exact ⟨s', h1⟩

/-- C87. At every moment, a StrVal that no thread is writing shows the text that the calls on it have made of it, whatever
has been or is being done to other StrVals that share its characters. -/
theorem C87_value {s : State F} {A : View} (h : History ap s A) {v : Nat} (hv : Readable s v) {x : Val}
    (hx : A[v]? = some (some x)) : text s v = .ok x.items ∧ length s v = .ok x.items.length := by
  have hJ := history_J h
  obtain ⟨o, b, sh, h1, h2, h3, h4⟩ := hJ.live hv hx
  refine ⟨text_ok hJ hv hx, ?_⟩
  unfold length
  rw [ptrOf_ok h1, res_bind_ok, shapeOf_ok h3, res_bind_ok, h4.len]

theorem ptrOf_inv {s : State F} {v o : Nat} (h : ptrOf s v = .ok o) : s.vars[v]? = some (some (some o)) := by
  unfold ptrOf at h
  split at h
  · rename_i hp; cases h; exact hp
  · cases h

theorem writes_cases {j : Job} {t : Task F} {o : Nat} (h : Writes (j, t) o) :
    (∃ d e, j.pc = .write d o ∧ t = .write e) ∨ (∃ d e src, j.pc = .addRef d o ∧ t = .copying e src) ∨ j.pc = .del o := by
  obtain ⟨rd, wr, pc⟩ := j
  cases pc with
  | write d o' =>
    cases t with
    | write e => exact Or.inl ⟨d, e, by rw [show o = o' from h], rfl⟩
    | _ => exact absurd h id
  | addRef d o' =>
    cases t with
    | copying e src => exact Or.inr (Or.inl ⟨d, e, src, by rw [show o = o' from h], rfl⟩)
    | _ => exact absurd h id
  | del o' => exact Or.inr (Or.inr (by rw [show o = o' from h]))
  | _ => exact absurd h id

theorem reads_cases {s : State F} {j : Job} {t : Task F} {o : Nat} (h : Reads s (j, t) o) :
    (∃ d o' e, j.pc = .addRef d o' ∧ t = .copying e o) ∨ (∃ w, t.addend = some w ∧ ptrOf s w = .ok o) := by
  obtain ⟨rd, wr, pc⟩ := j
  cases pc with
  | addRef d o' =>
    cases t with
    | copying e src => exact Or.inl ⟨d, o', e, rfl, by rw [show o = src from h]⟩
    | _ => exact absurd h id
  | write d o' =>
    cases t with
    | write e =>
      cases e with
      | ins pos w => exact Or.inr ⟨w, rfl, h⟩
      | trans f => exact absurd h id
    | _ => exact absurd h id
  | _ => exact absurd h id

/-- what nobody else may be doing with body `o` when call `j` is about to write it -/
theorem writes_alone {s : State F} {A : View} (h : J ap s A) {pre post : List (Job × Task F)} {j : Job} {t : Task F}
    (hw : s.work = pre ++ (j, t) :: post) {o : Nat} (ho : Writes (j, t) o) :
    (∀ k ∈ pre ++ post, ¬ Uses s.vars k.1 o ∧ RC.alone k.1 o = false) ∧ ∀ v, j.writes ≠ some v → s.vars[v]? ≠ some (some (some o)) := by
  obtain ⟨d, hd, ht⟩ := h.tasks (j, t) (by rw [hw]; exact mem_self)
  have hi := h.inv hw
  have hfresh : RC.alone j o = true → (∀ k ∈ pre ++ post, ¬ Uses s.vars k.1 o ∧ RC.alone k.1 o = false) ∧ ∀ v, j.writes ≠ some v → s.vars[v]? ≠ some (some (some o)) := by
    intro ha
    refine ⟨fun k hk => ⟨(excl_fresh hi ha).1 _ (mem_map_mid hk), ?_⟩, fun v _ => (excl_fresh hi ha).2 v⟩
    cases hk2 : RC.alone k.1 o with
    | false => rfl
    | true =>
      have hz := RC.Z_pos (mem_map_mid hk) hk2
      have := hi.objs o
      simp only [RC.Z_mid, ha, if_true] at this
      unfold RC.ObjOk at this
      split at this
      · omega
      · rename_i y _
        obtain ⟨_, a, b⟩ := this
        have hr := hi.alone_refs mem_self ha
        unfold RC.refs at hr
        simp only at hr
        cases hl : y.live with
        | true => have := (a hl).1; omega
        | false => have := (b hl).2; omega
  have howner : s.vars[d]? = some (some (some o)) → s.refs o = 1 →
      (∀ k ∈ pre ++ post, ¬ Uses s.vars k.1 o ∧ RC.alone k.1 o = false) ∧ ∀ v, j.writes ≠ some v → s.vars[v]? ≠ some (some (some o)) := by
    intro h3 h8
    have hpr := private_owner h hw hd h3 h8
    refine ⟨fun k hk => ⟨hpr.1 k hk, ?_⟩, fun v hv => hpr.2 v (fun e => hv (by rw [e]; exact hd))⟩
    cases hk2 : RC.alone k.1 o with
    | false => rfl
    | true =>
      have := hi.alone_refs (mem_mid (mem_map_mid hk)) hk2
      have h8' := h8
      rw [refs_work hw] at h8'
      simp only at this
      omega
  rcases writes_cases ho with ⟨d', e, hp, rfl⟩ | ⟨d', e, src, hp, rfl⟩ | hp
  · obtain ⟨o1, b, sh, x, h0, h1, h2, h2', h3, h3', h4, h5, h6⟩ := ht
    simp only at h1
    rw [hp] at h1
    cases h1
    exact howner h3 h6
  · obtain ⟨o1, b, b', sh, x, h0, h1, _⟩ := ht
    simp only at h0 h1
    rw [hp] at h1
    cases h1
    exact hfresh (by simp [RC.alone, hp, h0])
  · exact hfresh (by simp [RC.alone, hp])

theorem writes_uses {s : State F} {A : View} {k : Job × Task F} {d : Nat} (hd : k.1.writes = some d) (ht : TaskOk ap s A k.1 d k.2) {o : Nat}
    (ho : Writes k o) : Uses s.vars k.1 o ∨ RC.alone k.1 o = true := by
  obtain ⟨j, t⟩ := k
  rcases writes_cases ho with ⟨d', e, hp, rfl⟩ | ⟨d', e, src, hp, rfl⟩ | hp
  · obtain ⟨o1, b, sh, x, h0, h1, h2, h2', h3, _⟩ := ht
    simp only at h1
    rw [hp] at h1
    cases h1
    exact Or.inl (Or.inl ⟨d, hd, h3⟩)
  · exact Or.inl (Or.inr (by rw [hp]))
  · exact Or.inr (by simp [RC.alone, hp])

/-- C87. No data race on texts: when a call is about to write (or free) storage, no other call is about to read or write it. -/
theorem C87_no_race {s : State F} {A : View} (h : History ap s A) {a b : Nat} (hab : a ≠ b) {x y : Job × Task F}
    (ha : s.work[a]? = some x) (hb : s.work[b]? = some y) {o : Nat} (ho : Writes x o) : ¬ Writes y o ∧ ¬ Reads s y o := by
  have hJ := history_J h
  obtain ⟨pre, post, hw, hpre⟩ := RC.split_at ha
  obtain ⟨j, t⟩ := x
  have hy : y ∈ pre ++ post := by
    rw [hw] at hb
    rcases Nat.lt_trichotomy b pre.length with hc | hc | hc
    · rw [List.getElem?_append_left hc] at hb
      exact List.mem_append_left _ (List.mem_of_getElem? hb)
    · omega
    · rw [List.getElem?_append_right (by omega)] at hb
      obtain ⟨n, hn⟩ : ∃ n, b - pre.length = n + 1 := ⟨b - pre.length - 1, by omega⟩
      rw [hn, List.getElem?_cons_succ] at hb
      exact List.mem_append_right _ (List.mem_of_getElem? hb)
  obtain ⟨h1, h1'⟩ := writes_alone hJ hw ho
  have hym : y ∈ s.work := by rw [hw]; exact mem_mid hy
  obtain ⟨d, hd, ht⟩ := hJ.tasks y hym
  obtain ⟨h2, h3⟩ := h1 y hy
  refine ⟨fun hh => ?_, fun hh => ?_⟩
  · rcases writes_uses hd ht hh with e | e
    · exact h2 e
    · rw [h3] at e; cases e
  · obtain ⟨j', t'⟩ := y
    rcases reads_cases hh with ⟨d', o', e, hp, rfl⟩ | ⟨w, hwa, hwp⟩
    · obtain ⟨o1, b, b', sh, x, h0, h1, h2', h2'', h3, _⟩ := ht
      exact h2 (Or.inl ⟨d, hd, h3⟩)
    · exact h1' w (hJ.addend _ hym w hwa (j, t) (by rw [hw]; exact mem_self)) (ptrOf_inv hwp)

/-- C87. The characters of a StrVal that no thread is writing are not written (nor freed) by any call: they can be read without a race. -/
theorem C87_read_no_race {s : State F} {A : View} (h : History ap s A) {v : Nat} (hv : Readable s v) {o : Nat}
    (ho : ptrOf s v = .ok o) {x : Job × Task F} (hx : x ∈ s.work) : ¬ Writes x o := by
  intro hw
  have hJ := history_J h
  obtain ⟨pre, post, he⟩ := List.append_of_mem hx
  obtain ⟨j, t⟩ := x
  refine (writes_alone hJ he hw).2 v (hv _ hx) ?_
  unfold ptrOf at ho
  split at ho
  · rename_i hp; cases ho; exact hp
  · cases ho

/-- a run of steps of calls in progress -/
inductive Ticks (ap : F → Text → Text) : State F → Nat → State F → Prop
  | done (s : State F) : Ticks ap s 0 s
  | step {s s' s'' : State F} {n : Nat} (i : Nat) : i < s.work.length → tick ap s i = .ok s' → Ticks ap s' n s'' → Ticks ap s (n + 1) s''

/-- C87. The calls in progress end whatever the order of their steps: there is a bound on the number of steps they can make
before another call is started. No call waits for another. -/
theorem C87_calls_end {s : State F} {A : View} (h : History ap s A) : ∃ N, ∀ n s', Ticks ap s n s' → n ≤ N := by
  refine ⟨total s, fun n s' ht => ?_⟩
  induction ht with
  | done s => exact Nat.zero_le _
  | step i hi he _ ih =>
    obtain ⟨s1, h1, _, h3⟩ := tick_J (history_J h) i
    rw [he] at h1; cases h1
    have := ih (History.tick i h he)
    have := h3 hi
    omega

/-- C87. From every moment on the calls in progress can be finished, and this leaves the values as they are expected to be. -/
theorem C87_can_finish {s : State F} {A : View} (h : History ap s A) : ∃ s', History ap s' A ∧ s'.work = [] := by
  generalize hN : total s = N
  induction N using Nat.strongRecOn generalizing s with
  | _ N ih =>
    by_cases hw : s.work = []
    · exact ⟨s, h, hw⟩
    · have hlt : 0 < s.work.length := List.length_pos_iff.2 hw
      obtain ⟨s1, h1, _, h3⟩ := tick_J (history_J h) 0
      exact ih (total s1) (by have := h3 hlt; omega) (History.tick 0 h h1) rfl

/-- C87. Nothing is leaked or freed early: when no call is in progress, the bodies that have not been deleted are those
that some StrVal refers to. -/
theorem C87_released {s : State F} {A : View} (h : History ap s A) (hq : s.work = []) (o : Nat) (y : RC.Obj) (hy : s.objs[o]? = some y) :
    y.live = true ↔ ∃ v, ptrOf s v = .ok o := by
  have h1 := (history_J h).rc.objs o
  simp only [State.rc, hq, hy] at h1
  obtain ⟨a, b, c⟩ := h1
  simp only [RC.P, RC.Z, List.map_nil, List.countP_nil, Nat.add_zero] at a b c
  constructor
  · intro hl
    have hpos : 0 < RC.V s.vars o := by
      rcases Nat.eq_zero_or_pos (RC.V s.vars o) with e | e
      · have := (b hl).1 e; omega
      · exact e
    unfold RC.V at hpos
    rw [List.countP_pos_iff] at hpos
    obtain ⟨w, hw, hwe⟩ := hpos
    rw [beq_iff_eq] at hwe
    subst hwe
    obtain ⟨v, hv⟩ := List.mem_iff_getElem?.1 hw
    exact ⟨v, ptrOf_ok hv⟩
  · intro ⟨v, hv⟩
    have hv' : s.vars[v]? = some (some (some o)) := by
      unfold ptrOf at hv
      split at hv
      · rename_i hp; cases hv; exact hp
      · cases hv
    cases hl : y.live with
    | true => rfl
    | false => have := (c hl).1; have := RC.V_pos hv'; omega

/-- C87. When all StrVals have been destroyed and the calls have ended, all bodies have been deleted. -/
theorem C87_all_released {s : State F} {A : View} (h : History ap s A) (hq : s.work = []) (hd : ∀ x ∈ A, x = none) (o : Nat) (y : RC.Obj)
    (hy : s.objs[o]? = some y) : y.live = false := by
  have h1 := C87_released h hq o y hy
  cases hl : y.live with
  | false => rfl
  | true =>
    obtain ⟨v, hv⟩ := h1.1 hl
    have hv' := (history_J h).vars v (by rw [hq]; intro y hy; cases hy)
    unfold VarOk at hv'
    unfold ptrOf at hv
    split at hv
    · rename_i hp
      rw [hp] at hv'
      rcases hx : A[v]? with _ | _ | x
      · rw [hx] at hv'; exact absurd hv' id
      · rw [hx] at hv'; exact absurd hv' id
      · have := hd _ (List.mem_of_getElem? hx); cases this
    · cases hv

/-! ### The histories are not vacuous -/

instance (A : View) (v : Nat) : Decidable (Exists A v) :=
  match h : A[v]? with
  | some (some x) => isTrue ⟨x, h⟩
  | some none => isFalse (by intro ⟨x, hx⟩; rw [h] at hx; cases hx)
  | none => isFalse (by intro ⟨x, hx⟩; rw [h] at hx; cases hx)

instance (s : State F) (v : Nat) : Decidable (Readable s v) := by unfold Readable; infer_instance
instance (s : State F) (v : Nat) : Decidable (Idle s v) := by unfold Idle; infer_instance
instance (s : State F) (A : View) (c : Call F) : Decidable (Legal s A c) := by cases c <;> (simp only [Legal]; infer_instance)

/-- run a list of starts of calls (if legal) and of steps of the calls in progress -/
def tryRun (ap : F → Text → Text) : State F → View → List (Sum (Call F) Nat) → Option (State F × View)
  | s, A, [] => some (s, A)
  | s, A, .inl c :: cs =>
    if Legal s A c then
      match start s c with
      | .ok s => tryRun ap s (A.call ap c) cs
      | .error _ => none
    else none
  | s, A, .inr i :: cs =>
    match tick ap s i with
    | .ok s => tryRun ap s A cs
    | .error _ => none

theorem tryRun_history {s s' : State F} {A A' : View} (cs : List (Sum (Call F) Nat)) (h : History ap s A)
    (hr : tryRun ap s A cs = some (s', A')) : History ap s' A' := by
  induction cs generalizing s A with
  | nil => cases hr; exact h
  | cons e cs ih =>
    cases e with
    | inl c =>
      simp only [tryRun] at hr
      split at hr
      · rename_i hl
        split at hr
        · rename_i he; exact ih (History.call c h hl he) hr
        · cases hr
      · cases hr
    | inr i =>
      simp only [tryRun] at hr
      split at hr
      · rename_i ht; exact ih (History.tick i h ht) hr
      · cases hr

/-- start calls without asking whether they are legal -/
def runAny (ap : F → Text → Text) : State F → List (Sum (Call F) Nat) → Res (State F)
  | s, [] => .ok s
  | s, .inl c :: cs => do
    let s ← start s c
    runAny ap s cs
  | s, .inr i :: cs => do
    let s ← tick ap s i
    runAny ap s cs

/-- capital letters, for the examples -/
abbrev up (_ : Unit) (t : Text) : Text := t.map fun c => if 97#32 ≤ c ∧ c ≤ 122#32 then c - 32#32 else c

/-- "abc", a copy of it, and "xy"; all calls finished -/
def three : List (Sum (Call Unit) Nat) :=
  [.inl (.ofText [97#32, 98#32, 99#32]), .inr 0, .inr 0, .inr 0, .inl (.copy 0), .inr 0, .inr 0, .inr 0, .inl (.ofText [120#32, 121#32]), .inr 0, .inr 0, .inr 0]

/-- "xy" is inserted in one of the two copies while another thread makes capital letters of the other and a third takes a
substring of "xy" -/
def busy : List (Sum (Call Unit) Nat) :=
  three ++ [.inl (.insert 0 1 2), .inl (.transform 1 ()), .inl (.substr 2 1 5)] ++ (List.range 60).map (fun i => .inr (i % 3)) ++
    (List.range 20).map (fun _ => .inr 0)

example : (tryRun up init [] busy).map (fun r => [text r.1 0, text r.1 1, text r.1 2, text r.1 3].map Except.toOption) =
    some [some [97#32, 120#32, 121#32, 98#32, 99#32], some [65#32, 66#32, 67#32], some [120#32, 121#32], some [121#32]] := by decide +kernel
example : (tryRun up init [] busy).map (fun r => (List.range 4).map fun v => r.2.at v) =
    some [⟨[97#32, 120#32, 121#32, 98#32, 99#32], true, true⟩, ⟨[65#32, 66#32, 67#32], true, true⟩, ⟨[120#32, 121#32], true, true⟩, ⟨[121#32], false, false⟩] := by
  decide +kernel
example : (tryRun up init [] busy).map (fun r => r.1.work.length) = some 0 := by decide +kernel

/-- an empty string (a copy of `null`) is appended to while another is constructed: `null` stays empty -/
def empties : List (Sum (Call Unit) Nat) :=
  [.inl (.ofText []), .inr 0, .inr 0, .inr 0] ++ [.inl (.ofText [120#32, 121#32]), .inr 0, .inr 0, .inr 0, .inl (.copy 0), .inr 0, .inr 0, .inr 0] ++
    [.inl (.insert 2 0 1), .inl (.copy 0)] ++ (List.range 30).map (fun i => .inr (i % 2)) ++ (List.range 10).map (fun _ => .inr 0)

example : (tryRun up init [] empties).map (fun r => [text r.1 0, text r.1 1, text r.1 2, text r.1 3].map Except.toOption) =
    some [some [], some [120#32, 121#32], some [120#32, 121#32], some []] := by decide +kernel

/-- Non-vacuity of C87_no_race and C87_read_no_race: a moment at which one call is writing a text and another is writing one and reading a
second, while that can also be read. -/
example : ∃ s A, History up s A ∧ s.work.length = 2 ∧ (∃ x, s.work[0]? = some x ∧ Writes x 2 ∧ Reads s x 1) ∧ (∃ y, s.work[1]? = some y ∧ Writes y 0) ∧
    Readable s 2 ∧ ptrOf s 2 = .ok 1 := by
  have h : ((tryRun up init [] (three ++ [.inl (.insert 0 1 2), .inr 0, .inr 0, .inr 0, .inr 0, .inr 0, .inr 0, .inr 0, .inl (.transform 1 ()), .inr 1])).map (·.1)) =
    some ⟨[⟨1, true⟩, ⟨1, true⟩, ⟨1, true⟩], [[97#32, 98#32, 99#32], [120#32, 121#32], [97#32, 98#32, 99#32]], [some (some 2), some (some 0), some (some 1)],
      [⟨0, 3⟩, ⟨0, 3⟩, ⟨0, 2⟩], [(⟨none, some 0, .write 0 2⟩, .write (.ins 1 2)), (⟨none, some 1, .write 1 0⟩, .write (.trans ()))]⟩ := by decide +kernel
  obtain ⟨⟨s, A⟩, hs, he⟩ := Option.map_eq_some_iff.1 h
  refine ⟨s, A, tryRun_history _ History.start hs, ?_⟩
  simp only at he
  subst he
  exact ⟨rfl, ⟨_, rfl, rfl, rfl⟩, ⟨_, rfl, rfl⟩, by decide, rfl⟩

/-- C87. The restriction on the strings that may be changed is needed: "b" is the middle of "abc" and is made capital in one
thread while the "abc" is destroyed in another. Depending on the order of their steps the result is "B" or a string that reads
past the end of its storage. -/
theorem C87_whole_needed : ∃ (s : State Unit) (A : View), History up s A ∧ s.work = [] ∧ A[1]? = some (some ⟨[98#32], false, false⟩) ∧
    (∃ s', runAny up s ([.inl (.transform 1 ()), .inr 0, .inl (.destroy 0)] ++ List.replicate 20 (.inr 0)) = .ok s' ∧ s'.work = [] ∧ text s' 1 = .ok [66#32]) ∧
    (∃ s', runAny up s ([.inl (.transform 1 ()), .inl (.destroy 0), .inr 1, .inr 1] ++ List.replicate 20 (.inr 0)) = .ok s' ∧ s'.work = [] ∧ text s' 1 = .error .ub) := by
  have h : (tryRun up init [] [.inl (.ofText [97#32, 98#32, 99#32]), .inr 0, .inr 0, .inr 0, .inl (.substr 0 1 1), .inr 0, .inr 0, .inr 0]) =
    some (⟨[⟨2, true⟩], [[97#32, 98#32, 99#32]], [some (some 0), some (some 0)], [⟨0, 3⟩, ⟨1, 1⟩], []⟩, [some ⟨[97#32, 98#32, 99#32], true, true⟩, some ⟨[98#32], false, false⟩]) := by
    decide +kernel
  refine ⟨_, _, tryRun_history _ History.start h, rfl, rfl, ?_, ?_⟩
  · refine ⟨⟨[⟨0, false⟩, ⟨1, true⟩], [[97#32, 98#32, 99#32], [66#32]], [none, some (some 1)], [⟨0, 3⟩, ⟨0, 1⟩], []⟩, ?_, rfl, ?_⟩ <;> decide +kernel
  · refine ⟨⟨[⟨1, true⟩], [[65#32, 66#32, 67#32]], [none, some (some 0)], [⟨0, 3⟩, ⟨1, 3⟩], []⟩, ?_, rfl, ?_⟩ <;> decide +kernel

end Strpp.TextPar
