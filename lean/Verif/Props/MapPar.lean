import Verif.Proof.MapParStart
/-! C86: CowMaps are values, whatever the threads do. -/
set_option linter.unusedSectionVars false
set_option linter.unusedSimpArgs false
namespace Strpp.MapPar
open CM (FMap mfind StrictOrder)
open Spec
open RC (Pc Job)
open ArrPar (Uses mem_mid mem_self excl_fresh)

variable {K V : Type} [DecidableEq K] {lt : K → K → Bool}

/-- C86. A legal call can be started. -/
theorem C86_start_ok (od : StrictOrder lt) {s : State K V} {A : View K V} (h : History lt s A) {c : Call K V} (hl : Legal s A c) : ∃ s', start s c = .ok s' := by
  obtain ⟨s', h1, _⟩ := start_J (history_J od h) hl
  exact ⟨s', h1⟩

/-- C86. No step of a call in progress faults: no deleted body is used and no assertion fails. -/
theorem C86_no_fault (od : StrictOrder lt) {s : State K V} {A : View K V} (h : History lt s A) (i : Nat) : ∃ s', tick lt s i = .ok s' := by
  obtain ⟨s', h1, _⟩ := tick_J od (history_J od h) i
  exact ⟨s', h1⟩

/-- C86. At every moment, a CowMap that no thread is writing shows the finite map that the calls on it have made of it,
whatever has been or is being done to other CowMaps that share its entries: looking up any key gives its value, and
iteration goes through exactly the entries of the map, in increasing order of the keys. -/
theorem C86_value (od : StrictOrder lt) {s : State K V} {A : View K V} (h : History lt s A) {v : Nat} (hv : Readable s v) {x : Val K V}
    (hx : A[v]? = some (some x)) :
    (∀ k, find lt s v k = .ok (x.items k)) ∧
    ∃ m, iterate s v = .ok m ∧ m.Pairwise (fun a b => lt a.1 b.1 = true) ∧ (∀ k y, (k, y) ∈ m ↔ x.items k = some y) ∧ size s v = .ok m.length := by
  have hJ := history_J od h
  obtain ⟨o, m, h1, h2, h3, _⟩ := hJ.live hv hx
  have hit : iterate s v = .ok m := by
    unfold iterate
    rw [ptrOf_ok h1, res_bind_ok]
    exact bodyOf_var hJ h2 h1
  refine ⟨fun k => ?_, m, hit, h3.1, fun k y => ?_, ?_⟩
  · unfold find
    rw [hit, res_bind_ok, h3.2 k]
  · rw [← CM.mfind_mem od k y m h3.1, h3.2 k]
  · unfold size
    rw [hit, res_bind_ok]

theorem writes_cases {j : Job} {t : Task K V} {o : Nat} (h : Writes (j, t) o) :
    (∃ d e es, j.pc = .write d o ∧ t = .write (e :: es)) ∨ (∃ d e src k, j.pc = .addRef d o ∧ t = .copying e src k) ∨
    (∃ d k x, j.pc = .unshare d o ∧ t = .erase k x) ∨ j.pc = .del o := by
  obtain ⟨rd, wr, pc⟩ := j
  cases pc with
  | write d o' =>
    cases t with
    | write es =>
      cases es with
      | nil => exact absurd h id
      | cons e es => exact Or.inl ⟨d, e, es, by rw [show o = o' from h], rfl⟩
    | _ => exact absurd h id
  | addRef d o' =>
    cases t with
    | copying e src k => exact Or.inr (Or.inl ⟨d, e, src, k, by rw [show o = o' from h], rfl⟩)
    | _ => exact absurd h id
  | unshare d o' =>
    cases t with
    | erase k x => exact Or.inr (Or.inr (Or.inl ⟨d, k, x, by rw [show o = o' from h], rfl⟩))
    | _ => exact absurd h id
  | del o' => exact Or.inr (Or.inr (Or.inr (by rw [show o = o' from h])))
  | _ => exact absurd h id

theorem reads_cases {j : Job} {t : Task K V} {o : Nat} (h : Reads (j, t) o) :
    (∃ d o' e k, j.pc = .addRef d o' ∧ t = .copying e o k) ∨ (∃ d k x, j.pc = .unshare d o ∧ t = .look k x) := by
  obtain ⟨rd, wr, pc⟩ := j
  cases pc with
  | addRef d o' =>
    cases t with
    | copying e src k => exact Or.inl ⟨d, o', e, k, rfl, by rw [show o = src from h]⟩
    | _ => exact absurd h id
  | unshare d o' =>
    cases t with
    | look k x => exact Or.inr ⟨d, k, x, by rw [show o = o' from h], rfl⟩
    | _ => exact absurd h id
  | _ => exact absurd h id

/-- what nobody else may be doing with the entries `o` when call `j` is about to write them -/
theorem writes_alone {s : State K V} {A : View K V} (h : J lt s A) {pre post : List (Job × Task K V)} {j : Job} {t : Task K V}
    (hw : s.work = pre ++ (j, t) :: post) {o : Nat} (ho : Writes (j, t) o) :
    (∀ k ∈ pre ++ post, ¬ Uses s.vars k.1 o ∧ RC.alone k.1 o = false) ∧ ∀ v, j.writes ≠ some v → s.vars[v]? ≠ some (some (some o)) := by
  obtain ⟨d, hd, ht⟩ := h.tasks (j, t) (by rw [hw]; exact mem_self)
  have hi := h.inv hw
  have hfresh : RC.alone j o = true → (∀ k ∈ pre ++ post, ¬ Uses s.vars k.1 o ∧ RC.alone k.1 o = false) ∧ ∀ v, j.writes ≠ some v → s.vars[v]? ≠ some (some (some o)) := by
    intro ha
    refine ⟨fun k hk => ⟨(excl_fresh hi ha).1 _ (mem_map_mid hk), ?_⟩, fun v _ => (excl_fresh hi ha).2 v⟩
    cases hk2 : RC.alone k.1 o with
    | false => rfl
    | true =>
      have hz := RC.Z_pos (mem_map_mid hk) hk2
      have := hi.objs o
      simp only [RC.Z_mid, ha, if_true] at this
      unfold RC.ObjOk at this
      split at this
      · omega
      · rename_i y _
        obtain ⟨_, a, b⟩ := this
        have hr := hi.alone_refs mem_self ha
        unfold RC.refs at hr
        simp only at hr
        cases hl : y.live with
        | true => have := (a hl).1; omega
        | false => have := (b hl).2; omega
  have howner : s.vars[d]? = some (some (some o)) → s.refs o = 1 →
      (∀ k ∈ pre ++ post, ¬ Uses s.vars k.1 o ∧ RC.alone k.1 o = false) ∧ ∀ v, j.writes ≠ some v → s.vars[v]? ≠ some (some (some o)) := by
    intro h3 h8
    have hpr := private_owner h hw hd h3 h8
    refine ⟨fun k hk => ⟨hpr.1 k hk, ?_⟩, fun v hv => hpr.2 v (fun e => hv (by rw [e]; exact hd))⟩
    cases hk2 : RC.alone k.1 o with
    | false => rfl
    | true =>
      have := hi.alone_refs (mem_mid (mem_map_mid hk)) hk2
      have h8' := h8
      rw [refs_work hw] at h8'
      simp only at this
      omega
  rcases writes_cases ho with ⟨d', e, es, hp, rfl⟩ | ⟨d', e, src, k, hp, rfl⟩ | ⟨d', k, x, hp, rfl⟩ | hp
  · obtain ⟨f, o1, m, h0, h1, h2, h3, h4, h5, h6⟩ := ht
    simp only at h1
    rw [hp] at h1
    cases h1
    exact howner h3 h6
  · obtain ⟨f, o1, m, h0, h1, _⟩ := ht
    simp only at h0 h1
    rw [hp] at h1
    cases h1
    exact hfresh (by simp [RC.alone, hp, h0])
  · obtain ⟨f, o1, m, h0, h1, h2, h3, h4, h5, h6⟩ := ht
    simp only at h1
    rw [hp] at h1
    cases h1
    exact howner h3 h6
  · exact hfresh (by simp [RC.alone, hp])

theorem reads_uses {s : State K V} {A : View K V} {k : Job × Task K V} {d : Nat} (hd : k.1.writes = some d) (ht : TaskOk lt s A k.1 d k.2) {o : Nat}
    (ho : Reads k o) : Uses s.vars k.1 o := by
  obtain ⟨j, t⟩ := k
  rcases reads_cases ho with ⟨d', o', e, k, hp, rfl⟩ | ⟨d', k, x, hp, rfl⟩
  · obtain ⟨f, o1, m, h0, h1, h2, h3, _⟩ := ht
    exact Or.inl ⟨d, hd, h3⟩
  · obtain ⟨f, o1, m, h0, h1, h2, h3, _⟩ := ht
    simp only at h1
    rw [hp] at h1
    cases h1
    exact Or.inl ⟨d, hd, h3⟩

theorem writes_uses {s : State K V} {A : View K V} {k : Job × Task K V} {d : Nat} (hd : k.1.writes = some d) (ht : TaskOk lt s A k.1 d k.2) {o : Nat}
    (ho : Writes k o) : Uses s.vars k.1 o ∨ RC.alone k.1 o = true := by
  obtain ⟨j, t⟩ := k
  rcases writes_cases ho with ⟨d', e, es, hp, rfl⟩ | ⟨d', e, src, k, hp, rfl⟩ | ⟨d', k, x, hp, rfl⟩ | hp
  · obtain ⟨f, o1, m, h0, h1, h2, h3, _⟩ := ht
    simp only at h1
    rw [hp] at h1
    cases h1
    exact Or.inl (Or.inl ⟨d, hd, h3⟩)
  · exact Or.inl (Or.inr (by rw [hp]))
  · obtain ⟨f, o1, m, h0, h1, h2, h3, _⟩ := ht
    simp only at h1
    rw [hp] at h1
    cases h1
    exact Or.inl (Or.inl ⟨d, hd, h3⟩)
  · exact Or.inr (by simp [RC.alone, hp])

/-- C86. No data race on entries: when a call is about to write (or free) storage, no other call is about to read or write it. -/
theorem C86_no_race (od : StrictOrder lt) {s : State K V} {A : View K V} (h : History lt s A) {a b : Nat} (hab : a ≠ b) {x y : Job × Task K V}
    (ha : s.work[a]? = some x) (hb : s.work[b]? = some y) {o : Nat} (ho : Writes x o) : ¬ Writes y o ∧ ¬ Reads y o := by
  have hJ := history_J od h
  obtain ⟨pre, post, hw, hpre⟩ := RC.split_at ha
  obtain ⟨j, t⟩ := x
  have hy : y ∈ pre ++ post := by
    rw [hw] at hb
    rcases Nat.lt_trichotomy b pre.length with hc | hc | hc
    · rw [List.getElem?_append_left hc] at hb
      exact List.mem_append_left _ (List.mem_of_getElem? hb)
    · omega
    · rw [List.getElem?_append_right (by omega)] at hb
      obtain ⟨n, hn⟩ : ∃ n, b - pre.length = n + 1 := ⟨b - pre.length - 1, by omega⟩
      rw [hn, List.getElem?_cons_succ] at hb
      exact List.mem_append_right _ (List.mem_of_getElem? hb)
  obtain ⟨h1, _⟩ := writes_alone hJ hw ho
  obtain ⟨d, hd, ht⟩ := hJ.tasks y (by rw [hw]; exact mem_mid hy)
  obtain ⟨h2, h3⟩ := h1 y hy
  refine ⟨fun hh => ?_, fun hh => h2 (reads_uses hd ht hh)⟩
  rcases writes_uses hd ht hh with e | e
  · exact h2 e
  · rw [h3] at e; cases e

/-- C86. The entries of a CowMap that no thread is writing are not written (nor freed) by any call: they can be read without a race. -/
theorem C86_read_no_race (od : StrictOrder lt) {s : State K V} {A : View K V} (h : History lt s A) {v : Nat} (hv : Readable s v) {o : Nat}
    (ho : ptrOf s v = .ok o) {x : Job × Task K V} (hx : x ∈ s.work) : ¬ Writes x o := by
  intro hw
  have hJ := history_J od h
  obtain ⟨pre, post, he⟩ := List.append_of_mem hx
  obtain ⟨j, t⟩ := x
  refine (writes_alone hJ he hw).2 v (hv _ hx) ?_
  unfold ptrOf at ho
  split at ho
  · rename_i hp; cases ho; exact hp
  · cases ho

/-- a run of steps of calls in progress -/
inductive Ticks (lt : K → K → Bool) : State K V → Nat → State K V → Prop
  | done (s : State K V) : Ticks lt s 0 s
  | step {s s' s'' : State K V} {n : Nat} (i : Nat) : i < s.work.length → tick lt s i = .ok s' → Ticks lt s' n s'' → Ticks lt s (n + 1) s''

/-- C86. The calls in progress end whatever the order of their steps: there is a bound on the number of steps they can make
before another call is started. No call waits for another. -/
theorem C86_calls_end (od : StrictOrder lt) {s : State K V} {A : View K V} (h : History lt s A) : ∃ N, ∀ n s', Ticks lt s n s' → n ≤ N := by
  refine ⟨total s, fun n s' ht => ?_⟩
  induction ht with
  | done s => exact Nat.zero_le _
  | step i hi he _ ih =>
    obtain ⟨s1, h1, _, h3⟩ := tick_J od (history_J od h) i
    rw [he] at h1; cases h1
    have := ih (History.tick i h he)
    have := h3 hi
    omega

/-- C86. From every moment on the calls in progress can be finished, and this leaves the values as they are expected to be. -/
theorem C86_can_finish (od : StrictOrder lt) {s : State K V} {A : View K V} (h : History lt s A) : ∃ s', History lt s' A ∧ s'.work = [] := by
  generalize hN : total s = N
  induction N using Nat.strongRecOn generalizing s with
  | _ N ih =>
    by_cases hw : s.work = []
    · exact ⟨s, h, hw⟩
    · have hlt : 0 < s.work.length := List.length_pos_iff.2 hw
      obtain ⟨s1, h1, _, h3⟩ := tick_J od (history_J od h) 0
      exact ih (total s1) (by have := h3 hlt; omega) (History.tick 0 h h1) rfl

/-- C86. Nothing is leaked or freed early: when no call is in progress, the bodies that have not been deleted are those
that some CowMap refers to. -/
theorem C86_released (od : StrictOrder lt) {s : State K V} {A : View K V} (h : History lt s A) (hq : s.work = []) (o : Nat) (y : RC.Obj) (hy : s.objs[o]? = some y) :
    y.live = true ↔ ∃ v, ptrOf s v = .ok o := by
  have h1 := (history_J od h).rc.objs o
  simp only [State.rc, hq, hy] at h1
  obtain ⟨a, b, c⟩ := h1
  simp only [RC.P, RC.Z, List.map_nil, List.countP_nil, Nat.add_zero] at a b c
  constructor
  · intro hl
    have hpos : 0 < RC.V s.vars o := by
      rcases Nat.eq_zero_or_pos (RC.V s.vars o) with e | e
      · have := (b hl).1 e; omega
      · exact e
    unfold RC.V at hpos
    rw [List.countP_pos_iff] at hpos
    obtain ⟨w, hw, hwe⟩ := hpos
    rw [beq_iff_eq] at hwe
    subst hwe
    obtain ⟨v, hv⟩ := List.mem_iff_getElem?.1 hw
    exact ⟨v, ptrOf_ok hv⟩
  · intro ⟨v, hv⟩
    have hv' : s.vars[v]? = some (some (some o)) := by
      unfold ptrOf at hv
      split at hv
      · rename_i hp; cases hv; exact hp
      · cases hv
    cases hl : y.live with
    | true => rfl
    | false => have := (c hl).1; have := RC.V_pos hv'; omega

/-- C86. When all CowMaps have been destroyed and the calls have ended, all bodies have been deleted. -/
theorem C86_all_released (od : StrictOrder lt) {s : State K V} {A : View K V} (h : History lt s A) (hq : s.work = []) (hd : ∀ x ∈ A, x = none) (o : Nat) (y : RC.Obj)
    (hy : s.objs[o]? = some y) : y.live = false := by
  have h1 := C86_released od h hq o y hy
  cases hl : y.live with
  | false => rfl
  | true =>
    obtain ⟨v, hv⟩ := h1.1 hl
    have hv' := (history_J od h).vars v (by rw [hq]; intro y hy; cases hy)
    unfold VarOk at hv'
    unfold ptrOf at hv
    split at hv
    · rename_i hp
      rw [hp] at hv'
      rcases hx : A[v]? with _ | _ | x
      · rw [hx] at hv'; exact absurd hv' id
      · rw [hx] at hv'; exact absurd hv' id
      · have := hd _ (List.mem_of_getElem? hx); cases this
    · cases hv

/-! ### The histories are not vacuous -/

instance (A : View K V) (v : Nat) : Decidable (Exists A v) :=
  match h : A[v]? with
  | some (some x) => isTrue ⟨x, h⟩
  | some none => isFalse (by intro ⟨x, hx⟩; rw [h] at hx; cases hx)
  | none => isFalse (by intro ⟨x, hx⟩; rw [h] at hx; cases hx)

instance (s : State K V) (v : Nat) : Decidable (Readable s v) := by unfold Readable; infer_instance
instance (s : State K V) (v : Nat) : Decidable (Idle s v) := by unfold Idle; infer_instance
instance (s : State K V) (A : View K V) (c : Call K V) : Decidable (Legal s A c) := by cases c <;> (simp only [Legal]; infer_instance)

/-- run a list of starts of calls (if legal) and of steps of the calls in progress -/
def tryRun (lt : K → K → Bool) : State K V → View K V → List (Sum (Call K V) Nat) → Option (State K V × View K V)
  | s, A, [] => some (s, A)
  | s, A, .inl c :: cs =>
    if Legal s A c then
      match start s c with
      | .ok s => tryRun lt s (A.call c) cs
      | .error _ => none
    else none
  | s, A, .inr i :: cs =>
    match tick lt s i with
    | .ok s => tryRun lt s A cs
    | .error _ => none

theorem tryRun_history {s s' : State K V} {A A' : View K V} (cs : List (Sum (Call K V) Nat)) (h : History lt s A)
    (hr : tryRun lt s A cs = some (s', A')) : History lt s' A' := by
  induction cs generalizing s A with
  | nil => cases hr; exact h
  | cons e cs ih =>
    cases e with
    | inl c =>
      simp only [tryRun] at hr
      split at hr
      · rename_i hl
        split at hr
        · rename_i he; exact ih (History.call c h hl he) hr
        · cases hr
      · cases hr
    | inr i =>
      simp only [tryRun] at hr
      split at hr
      · rename_i ht; exact ih (History.tick i h ht) hr
      · cases hr

/-- the order of numbers meets the hypothesis of the theorems -/
theorem natLt : StrictOrder (fun a b : Nat => decide (a < b)) :=
  ⟨fun a => by simp, fun a b c h1 h2 => by simp at *; omega, fun a b => by simp; omega⟩

abbrev lt0 (a b : Nat) : Bool := decide (a < b)

/-- a CowMap of two entries and a copy of it, all calls finished -/
def twoMaps : List (Sum (Call Nat Nat) Nat) :=
  [.inl (.ofPairs [(2, 20), (1, 10)]), .inr 0, .inr 0, .inr 0, .inr 0, .inr 0, .inr 0, .inl (.copy 0), .inr 0, .inr 0, .inr 0]

/-- what the first variables are expected to show for the keys 0 to 3, and whether they are sole -/
def expected (A : View Nat Nat) (n : Nat) : List (List (Option Nat) × Bool) :=
  (List.range n).map fun v => ((List.range 4).map (A.at v).items, (A.at v).sole)

/-- one of the two copies is inserted into by a thread while another thread removes a key from the other; the steps are
interleaved; then each is given a new value for a key it has -/
def busy : List (Sum (Call Nat Nat) Nat) :=
  twoMaps ++ [.inl (.insert 0 3 30), .inl (.remove 1 1)] ++ (List.range 40).map (fun i => .inr (i % 2)) ++
    (List.range 20).map (fun _ => .inr 0) ++ [.inl (.put 0 1 11), .inl (.put 1 2 22)] ++ (List.range 20).map (fun i => .inr (i % 2)) ++
    (List.range 9).map (fun _ => .inr 0)

/-- Non-vacuity: in the end of `busy` the maps have the values expected of them. -/
example : (tryRun lt0 init [] busy).map (fun r => [iterate r.1 0, iterate r.1 1].map Except.toOption) =
    some [some [(1, 11), (2, 20), (3, 30)], some [(2, 22)]] := by decide +kernel
example : (tryRun lt0 init [] busy).map (fun r => expected r.2 2) =
    some [([none, some 11, some 20, some 30], true), ([none, none, some 22, none], true)] := by decide +kernel
example : (tryRun lt0 init [] busy).map (fun r => r.1.work.length) = some 0 := by decide +kernel

/-- Non-vacuity of C86_no_race and C86_read_no_race: a moment at which one call is writing entries and another is reading some, while a
third CowMap can be read. -/
example : ∃ s A, History (K := Nat) (V := Nat) lt0 s A ∧ s.work.length = 2 ∧ (∃ x o, s.work[0]? = some x ∧ Writes x o) ∧ (∃ y o, s.work[1]? = some y ∧ Reads y o) ∧
    Readable s 2 ∧ ptrOf s 2 = .ok 0 := by
  have h : ((tryRun lt0 init [] (twoMaps ++ [.inl (.copy 1), .inr 0, .inr 0, .inr 0, .inl (.insert 0 5 7), .inl (.put 1 9 9), .inr 0])).map (·.1)) =
    some ⟨[⟨3, true⟩, ⟨0, true⟩], [[(1, 10), (2, 20)], []], [some (some 0), some (some 0), some (some 0)],
      [(⟨none, some 0, .addRef 0 1⟩, .copying (.ins 5 7) 0 0), (⟨none, some 1, .unshare 1 0⟩, .look 9 9)]⟩ := by decide +kernel
  obtain ⟨⟨s, A⟩, hs, he⟩ := Option.map_eq_some_iff.1 h
  refine ⟨s, A, tryRun_history _ History.start hs, ?_⟩
  simp only at he
  subst he
  exact ⟨rfl, ⟨_, 1, rfl, rfl⟩, ⟨_, 0, rfl, rfl⟩, by decide, rfl⟩

/-- start calls without asking whether they are legal -/
def runAny (lt : K → K → Bool) : State K V → List (Sum (Call K V) Nat) → Res (State K V)
  | s, [] => .ok s
  | s, .inl c :: cs => do
    let s ← start s c
    runAny lt s cs
  | s, .inr i :: cs => do
    let s ← tick lt s i
    runAny lt s cs

/-- C86. The restriction on `put` is needed: when two maps are copies of each other, giving one of them a new value for a key
takes the key away from the other; and if a third thread looks the key up in the other meanwhile, it does so while the
entries are being written. -/
theorem C86_sole_needed : ∃ (s : State Nat Nat) (A : View Nat Nat), History lt0 s A ∧ s.work = [] ∧ (∃ x, A[1]? = some (some x) ∧ x.items 1 = some 10) ∧
    (∃ s', runAny lt0 s (.inl (.put 0 1 11) :: List.replicate 20 (.inr 0)) = .ok s' ∧ s'.work = [] ∧ find lt0 s' 0 1 = .ok (some 11) ∧ find lt0 s' 1 1 = .ok none) ∧
    (∃ s' x o, runAny lt0 s [.inl (.put 0 1 11), .inr 0] = .ok s' ∧ s'.work = [x] ∧ Writes x o ∧ Readable s' 1 ∧ ptrOf s' 1 = .ok o) := by
  have h : ((tryRun lt0 init [] twoMaps).map (fun r => (r.1, expected r.2 2, r.2.length))) =
    some (⟨[⟨2, true⟩], [[(1, 10), (2, 20)]], [some (some 0), some (some 0)], []⟩,
      [([none, some 10, some 20, none], false), ([none, some 10, some 20, none], false)], 2) := by decide +kernel
  obtain ⟨⟨s, A⟩, hs, he⟩ := Option.map_eq_some_iff.1 h
  have hh := tryRun_history _ History.start hs
  simp only [Prod.mk.injEq] at he
  obtain ⟨rfl, he, hl⟩ := he
  refine ⟨_, A, hh, rfl, ?_, ?_, ?_⟩
  · obtain ⟨x, hx⟩ : ∃ x, A[1]? = some (some x) := by
      have := (history_J natLt hh).vars 1 (by intro y hy; cases hy)
      unfold VarOk at this
      rcases hc : A[1]? with _ | _ | x
      · rw [hc] at this; exact absurd this id
      · rw [hc] at this; exact absurd this id
      · exact ⟨x, rfl⟩
    refine ⟨x, hx, ?_⟩
    have h1 := (C86_value natLt hh (v := 1) (by intro y hy; cases hy) hx).1 1
    have h2 : find lt0 (⟨[⟨2, true⟩], [[(1, 10), (2, 20)]], [some (some 0), some (some 0)], []⟩ : State Nat Nat) 1 1 = .ok (some 10) := by decide +kernel
    have h3 := h1.symm.trans h2
    injection h3
  · refine ⟨⟨[⟨1, true⟩, ⟨1, true⟩], [[(2, 20)], [(1, 11), (2, 20)]], [some (some 1), some (some 0)], []⟩, by decide +kernel, rfl, by decide +kernel, by decide +kernel⟩
  · exact ⟨⟨[⟨2, true⟩], [[(1, 10), (2, 20)]], [some (some 0), some (some 0)], [(⟨none, some 0, .unshare 0 0⟩, .erase 1 11)]⟩, _, 0, by decide +kernel, rfl, rfl, by decide, rfl⟩

end Strpp.MapPar
