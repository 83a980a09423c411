import Verif.Proof.ArrParStart
/-! C69: Arrays are values, whatever the threads do. -/
set_option linter.unusedSectionVars false
set_option linter.unusedSimpArgs false
namespace Strpp.ArrPar
open Arr (Body)
open Spec
open RC (Pc Job)

variable {E : Type} [Inhabited E]

/-- C69. A legal call can be started: no assertion fails, nothing deleted is used. -/
theorem C69_start_ok {s : State E} {V : View E} (h : History s V) {c : Call E} (hl : Legal s V c) : ∃ s', start s c = .ok s' := by
  obtain ⟨s', h1, _⟩ := start_J (history_J h) hl
  exact ⟨s', h1⟩

/-- C69. No step of a call in progress faults: no deleted body is used, no element outside a body's storage is read or
written, no assertion fails. -/
theorem C69_no_fault {s : State E} {V : View E} (h : History s V) (i : Nat) : ∃ s', tick s i = .ok s' := by
  obtain ⟨s', h1, _⟩ := tick_J (history_J h) i
  exact ⟨s', h1⟩

/-- C69. At every moment, an Array that no thread is writing has the length and the elements that the calls on it have
given it, whatever has been or is being done to other Arrays that share its elements. -/
theorem C69_value {s : State E} {V : View E} (h : History s V) {v : Nat} (hv : Readable s v) {x : Val E} (hx : V[v]? = some (some x)) :
    length s v = .ok x.items.length ∧ ∀ i (hi : i < x.items.length), elem s v i = .ok x.items[i] := by
  have hJ := history_J h
  obtain ⟨p, sh, h1, h2, h3⟩ := hJ.live hv hx
  have hlen := h3.len
  refine ⟨?_, fun i hi => ?_⟩
  · unfold length
    rw [shapeOf_ok h1 h2, res_bind_ok, hlen]
  · unfold elem
    cases p with
    | none => have := h3.1; omega
    | some o =>
      obtain ⟨b, g1, g2⟩ := h3
      have hfit := g2.fits
      have hle := g2.wf.le
      have hit := g2.items
      rw [shapeOf_ok h1 h2, res_bind_ok, ptrOf_ok h1, res_bind_ok, assert_of (by simp; omega), res_bind_ok]
      simp only
      rw [bodyOf_var hJ g1 h1, res_bind_ok]
      unfold rd
      have hlt : sh.off + i < b.mem.length := by omega
      have he : x.items[i]? = some b.mem[sh.off + i] := by
        rw [hit, List.getElem?_take, if_pos (by omega), List.getElem?_drop, List.getElem?_eq_getElem hlt]
      rw [List.getElem?_eq_getElem hi] at he
      rw [List.getElem?_eq_getElem hlt, Option.some.inj he]

/-- C69. An index out of range is caught by the assertion, also when other threads are at work. -/
theorem C69_out_of_range {s : State E} {V : View E} (h : History s V) {v : Nat} (hv : Readable s v) {x : Val E} (hx : V[v]? = some (some x))
    {i : Nat} (hi : x.items.length ≤ i) : elem s v i = .error .assertion := by
  obtain ⟨p, sh, h1, h2, h3⟩ := (history_J h).live hv hx
  have hlen := h3.len
  unfold elem
  rw [shapeOf_ok h1 h2, res_bind_ok, ptrOf_ok h1, res_bind_ok]
  have : (decide (i < sh.num) && p.isSome) = false := by
    have : decide (i < sh.num) = false := by simp; omega
    rw [this]; rfl
  rw [this]; rfl

theorem writes_cases {s : State E} {j : Job} {t : Task E} {o : Nat} (h : Writes s (j, t) o) :
    (∃ d m ms n, j.pc = .write d o ∧ t = .write (m :: ms) n) ∨ (∃ d e src k, j.pc = .addRef d o ∧ t = .copying e src k) ∨ j.pc = .del o := by
  obtain ⟨rd, wr, pc⟩ := j
  cases pc with
  | write d o' =>
    cases t with
    | write ms n =>
      cases ms with
      | nil => exact absurd h id
      | cons m ms => exact Or.inl ⟨d, m, ms, n, by rw [show o = o' from h], rfl⟩
    | _ => exact absurd h id
  | addRef d o' =>
    cases t with
    | copying e src k => exact Or.inr (Or.inl ⟨d, e, src, k, by rw [show o = o' from h], rfl⟩)
    | _ => exact absurd h id
  | del o' => exact Or.inr (Or.inr (by rw [show o = o' from h]))
  | _ => exact absurd h id

theorem reads_cases {s : State E} {j : Job} {t : Task E} {o : Nat} (h : Reads s (j, t) o) :
    (∃ d o' e k, j.pc = .addRef d o' ∧ t = .copying e (some o) k) ∨ (∃ d, j.pc = .unshare d o) := by
  obtain ⟨rd, wr, pc⟩ := j
  cases pc with
  | addRef d o' =>
    cases t with
    | copying e src k =>
      cases src with
      | none => exact absurd h id
      | some o2 => exact Or.inl ⟨d, o', e, k, rfl, by rw [show o = o2 from h]⟩
    | _ => exact absurd h id
  | unshare d o' => exact Or.inr ⟨d, by rw [show o = o' from h]⟩
  | _ => exact absurd h id

/-- what nobody else may be doing with the storage `o` when call `j` is about to write it -/
theorem writes_alone {s : State E} {V : View E} (h : J s V) {pre post : List (Job × Task E)} {j : Job} {t : Task E}
    (hw : s.work = pre ++ (j, t) :: post) {o : Nat} (ho : Writes s (j, t) o) :
    (∀ k ∈ pre ++ post, ¬ Uses s.vars k.1 o ∧ RC.alone k.1 o = false) ∧ ∀ v, j.writes ≠ some v → s.vars[v]? ≠ some (some (some o)) := by
  obtain ⟨d, hd, ht⟩ := h.tasks (j, t) (by rw [hw]; exact mem_self)
  have hi := h.inv hw
  have hfresh : RC.alone j o = true → (∀ k ∈ pre ++ post, ¬ Uses s.vars k.1 o ∧ RC.alone k.1 o = false) ∧ ∀ v, j.writes ≠ some v → s.vars[v]? ≠ some (some (some o)) := by
    intro ha
    refine ⟨fun k hk => ⟨(excl_fresh hi ha).1 _ (mem_map_mid hk), ?_⟩, fun v _ => (excl_fresh hi ha).2 v⟩
    cases hk2 : RC.alone k.1 o with
    | false => rfl
    | true =>
      have hz := RC.Z_pos (mem_map_mid hk) hk2
      have := hi.objs o
      simp only [RC.Z_mid, ha, if_true] at this
      unfold RC.ObjOk at this
      split at this
      · omega
      · rename_i y _
        obtain ⟨_, a, b⟩ := this
        have hr := hi.alone_refs mem_self ha
        unfold RC.refs at hr
        simp only at hr
        cases hl : y.live with
        | true => have := (a hl).1; omega
        | false => have := (b hl).2; omega
  rcases writes_cases ho with ⟨d', m, ms, n, hp, rfl⟩ | ⟨d', e, src, k, hp, rfl⟩ | hp
  · obtain ⟨x, o1, sh, b, b', h0, h1, h2, h3, h4, h5, h6, h7, h8⟩ := ht
    simp only at h0 h1 hd
    rw [hp] at h1
    cases h1
    have hpr := private_owner h hw hd h3 h8
    refine ⟨fun k hk => ⟨hpr.1 k hk, ?_⟩, fun v hv => hpr.2 v (fun e => hv (by rw [e]; exact hd))⟩
    cases hk2 : RC.alone k.1 o with
    | false => rfl
    | true =>
      have := hi.alone_refs (mem_mid (mem_map_mid hk)) hk2
      have h8' := h8
      rw [refs_work hw] at h8'
      simp only at this
      omega
  · obtain ⟨x, o1, sh, b, h0, h1, _⟩ := ht
    simp only at h0 h1
    rw [hp] at h1
    cases h1
    exact hfresh (by simp [RC.alone, hp, h0])
  · exact hfresh (by simp [RC.alone, hp])

theorem reads_uses {s : State E} {V : View E} {k : Job × Task E} {d : Nat} (hd : k.1.writes = some d) (ht : TaskOk s V k.1 d k.2) {o : Nat}
    (ho : Reads s k o) : Uses s.vars k.1 o := by
  obtain ⟨j, t⟩ := k
  rcases reads_cases ho with ⟨d', o', e, k, hp, rfl⟩ | ⟨d', hp⟩
  · obtain ⟨x, o1, sh, b, h0, h1, h2, h3, _⟩ := ht
    exact Or.inl ⟨d, hd, h3⟩
  · cases t with
    | unshare e =>
      obtain ⟨x, o1, sh, b, h0, h1, h2, h3, _⟩ := ht
      simp only at h1
      rw [hp] at h1
      cases h1
      exact Or.inl ⟨d, hd, h3⟩
    | plain => obtain ⟨_, h1, _⟩ := ht; simp only at h1; rw [hp] at h1; exact absurd h1 id
    | shape sh => obtain ⟨_, _, _, h1, _⟩ := ht; simp only at h1; rw [hp] at h1; exact absurd h1 id
    | copying e src k => obtain ⟨x, o1, sh, b, h0, h1, _⟩ := ht; simp only at h1; rw [hp] at h1; cases h1
    | swap e => obtain ⟨x, o1, sh, b, h0, h1, h2, _⟩ := ht; simp only at h2; rw [hp] at h2; exact absurd h2 id
    | write ms n => obtain ⟨x, o1, sh, b, b', h0, h1, _⟩ := ht; simp only at h1; rw [hp] at h1; cases h1

theorem writes_uses {s : State E} {V : View E} {k : Job × Task E} {d : Nat} (hd : k.1.writes = some d) (ht : TaskOk s V k.1 d k.2) {o : Nat}
    (ho : Writes s k o) : Uses s.vars k.1 o ∨ RC.alone k.1 o = true := by
  obtain ⟨j, t⟩ := k
  rcases writes_cases ho with ⟨d', m, ms, n, hp, rfl⟩ | ⟨d', e, src, k, hp, rfl⟩ | hp
  · obtain ⟨x, o1, sh, b, b', h0, h1, h2, h3, _⟩ := ht
    simp only at h1
    rw [hp] at h1
    cases h1
    exact Or.inl (Or.inl ⟨d, hd, h3⟩)
  · exact Or.inl (Or.inr (by rw [hp]))
  · exact Or.inr (by simp [RC.alone, hp])

/-- C69. No data race on elements: when a call is about to write (or free) storage, no other call is about to read or write it. -/
theorem C69_no_race {s : State E} {V : View E} (h : History s V) {a b : Nat} (hab : a ≠ b) {x y : Job × Task E}
    (ha : s.work[a]? = some x) (hb : s.work[b]? = some y) {o : Nat} (ho : Writes s x o) : ¬ Writes s y o ∧ ¬ Reads s y o := by
  have hJ := history_J h
  obtain ⟨pre, post, hw, hpre⟩ := RC.split_at ha
  obtain ⟨j, t⟩ := x
  have hy : y ∈ pre ++ post := by
    rw [hw] at hb
    rcases Nat.lt_trichotomy b pre.length with hc | hc | hc
    · rw [List.getElem?_append_left hc] at hb
      exact List.mem_append_left _ (List.mem_of_getElem? hb)
    · omega
    · rw [List.getElem?_append_right (by omega)] at hb
      obtain ⟨n, hn⟩ : ∃ n, b - pre.length = n + 1 := ⟨b - pre.length - 1, by omega⟩
      rw [hn, List.getElem?_cons_succ] at hb
      exact List.mem_append_right _ (List.mem_of_getElem? hb)
  obtain ⟨h1, _⟩ := writes_alone hJ hw ho
  obtain ⟨d, hd, ht⟩ := hJ.tasks y (by rw [hw]; exact mem_mid hy)
  obtain ⟨h2, h3⟩ := h1 y hy
  refine ⟨fun hh => ?_, fun hh => h2 (reads_uses hd ht hh)⟩
  rcases writes_uses hd ht hh with e | e
  · exact h2 e
  · rw [h3] at e; cases e

/-- C69. The elements of an Array that no thread is writing are not written (nor freed) by any call: they can be read without a race. -/
theorem C69_read_no_race {s : State E} {V : View E} (h : History s V) {v : Nat} (hv : Readable s v) {o : Nat}
    (ho : ptrOf s v = .ok (some o)) {x : Job × Task E} (hx : x ∈ s.work) : ¬ Writes s x o := by
  intro hw
  have hJ := history_J h
  obtain ⟨pre, post, he⟩ := List.append_of_mem hx
  obtain ⟨j, t⟩ := x
  refine (writes_alone hJ he hw).2 v (hv _ hx) ?_
  unfold ptrOf at ho
  split at ho
  · rename_i hp; cases ho; exact hp
  · cases ho

/-- a run of steps of calls in progress -/
inductive Ticks : State E → Nat → State E → Prop
  | done (s : State E) : Ticks s 0 s
  | step {s s' s'' : State E} {n : Nat} (i : Nat) : i < s.work.length → tick s i = .ok s' → Ticks s' n s'' → Ticks s (n + 1) s''

/-- C69. The calls in progress end whatever the order of their steps: there is a bound on the number of steps they can make
before another call is started. No call waits for another. -/
theorem C69_calls_end {s : State E} {V : View E} (h : History s V) : ∃ N, ∀ n s', Ticks s n s' → n ≤ N := by
  refine ⟨total s, fun n s' ht => ?_⟩
  induction ht with
  | done s => exact Nat.zero_le _
  | step i hi he _ ih =>
    obtain ⟨s1, h1, _, h3⟩ := tick_J (history_J h) i
    rw [he] at h1; cases h1
    have := ih (History.tick i h he)
    have := h3 hi
    omega

/-- C69. From every moment on the calls in progress can be finished, and this leaves the values as they are expected to be. -/
theorem C69_can_finish {s : State E} {V : View E} (h : History s V) : ∃ s', History s' V ∧ s'.work = [] := by
  generalize hN : total s = N
  induction N using Nat.strongRecOn generalizing s with
  | _ N ih =>
    by_cases hw : s.work = []
    · exact ⟨s, h, hw⟩
    · have hlt : 0 < s.work.length := List.length_pos_iff.2 hw
      obtain ⟨s1, h1, _, h3⟩ := tick_J (history_J h) 0
      exact ih (total s1) (by have := h3 hlt; omega) (History.tick 0 h h1) rfl

/-- C69. Nothing is leaked or freed early: when no call is in progress, the bodies that have not been deleted are those
that some Array refers to. -/
theorem C69_released {s : State E} {V : View E} (h : History s V) (hq : s.work = []) (o : Nat) (y : RC.Obj) (hy : s.objs[o]? = some y) :
    y.live = true ↔ ∃ v, ptrOf s v = .ok (some o) := by
  have h1 := (history_J h).rc.objs o
  simp only [State.rc, hq, hy] at h1
  obtain ⟨a, b, c⟩ := h1
  simp only [RC.P, RC.Z, List.map_nil, List.countP_nil, Nat.add_zero] at a b c
  constructor
  · intro hl
    have hpos : 0 < RC.V s.vars o := by
      rcases Nat.eq_zero_or_pos (RC.V s.vars o) with e | e
      · have := (b hl).1 e; omega
      · exact e
    unfold RC.V at hpos
    rw [List.countP_pos_iff] at hpos
    obtain ⟨w, hw, hwe⟩ := hpos
    rw [beq_iff_eq] at hwe
    subst hwe
    obtain ⟨v, hv⟩ := List.mem_iff_getElem?.1 hw
    exact ⟨v, ptrOf_ok hv⟩
  · intro ⟨v, hv⟩
    have hv' : s.vars[v]? = some (some (some o)) := by
      unfold ptrOf at hv
      split at hv
      · rename_i hp; cases hv; exact hp
      · cases hv
    cases hl : y.live with
    | true => rfl
    | false => have := (c hl).1; have := RC.V_pos hv'; omega

/-- C69. When all Arrays have been destroyed and the calls have ended, all bodies have been deleted. -/
theorem C69_all_released {s : State E} {V : View E} (h : History s V) (hq : s.work = []) (hd : ∀ x ∈ V, x = none) (o : Nat) (y : RC.Obj)
    (hy : s.objs[o]? = some y) : y.live = false := by
  have h1 := C69_released h hq o y hy
  cases hl : y.live with
  | false => rfl
  | true =>
    obtain ⟨v, hv⟩ := h1.1 hl
    have hv' := (history_J h).vars v (by rw [hq]; intro y hy; cases hy)
    unfold VarOk at hv'
    unfold ptrOf at hv
    split at hv
    · rename_i hp
      rw [hp] at hv'
      rcases hx : V[v]? with _ | _ | x
      · rw [hx] at hv'; exact absurd hv' id
      · rw [hx] at hv'; exact absurd hv' id
      · have := hd _ (List.mem_of_getElem? hx); cases this
    · cases hv

/-! ### The histories are not vacuous -/

instance (V : View E) (v : Nat) : Decidable (Exists V v) :=
  match h : V[v]? with
  | some (some x) => isTrue ⟨x, h⟩
  | some none => isFalse (by intro ⟨x, hx⟩; rw [h] at hx; cases hx)
  | none => isFalse (by intro ⟨x, hx⟩; rw [h] at hx; cases hx)

instance (s : State E) (v : Nat) : Decidable (Readable s v) := by unfold Readable; infer_instance
instance (s : State E) (v : Nat) : Decidable (Idle s v) := by unfold Idle; infer_instance
instance (s : State E) : Decidable (Roomy s) := by unfold Roomy; infer_instance
instance (s : State E) (V : View E) (c : Call E) : Decidable (Legal s V c) := by cases c <;> (simp only [Legal]; infer_instance)

/-- run a list of starts of calls (if legal) and of steps of the calls in progress -/
def tryRun : State E → View E → List (Sum (Call E) Nat) → Option (State E × View E)
  | s, V, [] => some (s, V)
  | s, V, .inl c :: cs =>
    if Legal s V c then
      match start s c with
      | .ok s => tryRun s (V.call c) cs
      | .error _ => none
    else none
  | s, V, .inr i :: cs =>
    match tick s i with
    | .ok s => tryRun s V cs
    | .error _ => none

theorem tryRun_history {s s' : State E} {V V' : View E} (cs : List (Sum (Call E) Nat)) (h : History s V)
    (hr : tryRun s V cs = some (s', V')) : History s' V' := by
  induction cs generalizing s V with
  | nil => cases hr; exact h
  | cons e cs ih =>
    cases e with
    | inl c =>
      simp only [tryRun] at hr
      split at hr
      · rename_i hl
        split at hr
        · rename_i he; exact ih (History.call c h hl he) hr
        · cases hr
      · cases hr
    | inr i =>
      simp only [tryRun] at hr
      split at hr
      · rename_i ht; exact ih (History.tick i h ht) hr
      · cases hr

/-- an Array of three elements and a copy of it, all calls finished -/
def twoCopies : List (Sum (Call Nat) Nat) :=
  [.inl (.ofData [1, 2, 3] 0), .inr 0, .inr 0, .inr 0, .inl (.copy 0), .inr 0, .inr 0, .inr 0]

/-- the elements of the first variables, as many as said of each -/
def contents (s : State Nat) (ns : List Nat) : List (List (Option Nat)) :=
  (List.range ns.length).map fun v => (List.range (ns.getD v 0)).map fun i => (elem s v i).toOption

/-- Non-vacuity: the two copies, one of which is changed in a thread while another thread pushes to the other and a third
takes a slice of the first before; the steps are interleaved. In the end the Arrays have the values expected of them. -/
example : (tryRun init [] (twoCopies ++ [.inl (.slice 0 1 1), .inr 0, .inr 0, .inr 0, .inl (.set 0 1 7), .inl (.push 1 9)] ++
    (List.range 40).map (fun i => .inr (i % 2)) ++ (List.range 20).map (fun _ => .inr 0))).map
      (fun r => (contents r.1 [3, 4, 1], r.2)) =
    some ([[some 1, some 7, some 3], [some 1, some 2, some 3, some 9], [some 2]],
      [some ⟨[1, 7, 3], true⟩, some ⟨[1, 2, 3, 9], true⟩, some ⟨[2], false⟩]) := by decide +kernel

/-- Non-vacuity of C69_no_race and C69_read_no_race: a moment at which one call is writing elements and another is reading some, while a
third Array can be read. -/
example : ∃ s V, History (E := Nat) s V ∧ s.work.length = 2 ∧ (∃ x o, s.work[0]? = some x ∧ Writes s x o) ∧ (∃ y o, s.work[1]? = some y ∧ Reads s y o) ∧
    Readable s 2 ∧ ptrOf s 2 = .ok (some 0) := by
  have h : (tryRun init [] (twoCopies ++ [.inl (.copy 1), .inr 0, .inr 0, .inr 0, .inl (.set 0 1 7), .inl (.push 1 9), .inr 0])).isSome = true := by decide +kernel
  obtain ⟨⟨s, V⟩, hs⟩ := Option.isSome_iff_exists.1 h
  refine ⟨s, V, tryRun_history _ History.start hs, ?_⟩
  have e : tryRun init [] (twoCopies ++ [.inl (.copy 1), .inr 0, .inr 0, .inr 0, .inl (.set 0 1 7), .inl (.push 1 9), .inr 0]) =
    some (⟨[⟨3, true⟩, ⟨0, true⟩], [⟨[1, 2, 3, 0, 0, 0, 0, 0], 3, 8, false⟩, ⟨[0, 0, 0, 0, 0, 0, 0, 0], 0, 8, false⟩], [some (some 0), some (some 0), some (some 0)], [⟨0, 3⟩, ⟨0, 3⟩, ⟨0, 3⟩],
      [(⟨none, some 0, .addRef 0 1⟩, .copying (.set 1 7) (some 0) 0), (⟨none, some 1, .unshare 1 0⟩, .unshare (.push 9))]⟩,
      [some ⟨[1, 7, 3], true⟩, some ⟨[1, 2, 3, 9], true⟩, some ⟨[1, 2, 3], true⟩]) := by decide +kernel
  rw [e] at hs
  cases hs
  exact ⟨rfl, ⟨_, 1, rfl, rfl⟩, ⟨_, 0, rfl, rfl⟩, by decide, rfl⟩

/-- start calls without asking whether they are legal -/
def runAny : State E → List (Sum (Call E) Nat) → Res (State E)
  | s, [] => .ok s
  | s, .inl c :: cs => do
    let s ← start s c
    runAny s cs
  | s, .inr i :: cs => do
    let s ← tick s i
    runAny s cs

/-- C69. The restriction on growing rests is needed: a thread destroys an Array while another pushes 9 to a rest `[2, 3]` of
it. If the push looks at the count after the Array has gone the rest becomes `[2, 9, 3]`, otherwise `[2, 3, 9]`. -/
theorem C69_front_needed : ∃ (s : State Nat) (V : View Nat), History s V ∧ V[1]? = some (some ⟨[2, 3], false⟩) ∧ s.work = [] ∧
    ∃ f g : List Nat, (runAny s ([.inl (.destroy 0), .inl (.push 1 9)] ++ f.map .inr) >>= fun s => .ok ((List.range 3).map (elem s 1), s.work)) = .ok ([.ok 2, .ok 9, .ok 3], []) ∧
      (runAny s ([.inl (.destroy 0), .inl (.push 1 9)] ++ g.map .inr) >>= fun s => .ok ((List.range 3).map (elem s 1), s.work)) = .ok ([.ok 2, .ok 3, .ok 9], []) := by
  have e : tryRun init [] (twoCopies ++ [.inl (.remove 1 0 1)]) =
    some (⟨[⟨2, true⟩], [⟨[1, 2, 3, 0, 0, 0, 0, 0], 3, 8, false⟩], [some (some 0), some (some 0)], [⟨0, 3⟩, ⟨1, 2⟩], []⟩,
      [some ⟨[1, 2, 3], true⟩, some ⟨[2, 3], false⟩]) := by decide +kernel
  refine ⟨_, _, tryRun_history _ History.start e, rfl, rfl, List.replicate 20 0, List.replicate 20 1 ++ List.replicate 20 0, ?_, ?_⟩
  · decide +kernel
  · decide +kernel

end Strpp.ArrPar
