import Verif.Model.RefCount
/-! Invariant of the reference counting machine. -/
namespace Strpp.RC

/-- the job owns a count of `o` beyond those of the variables -/
def holds (j : Job) (o : Nat) : Bool :=
  match j.pc with
  | .addRef _ _ => false
  | .chk _ x => x == o
  | .store _ p => p == some o
  | .relAssert x => x == o
  | .relDec x => x == o
  | .del _ => false
  | .unshare _ _ => false
  | .write _ _ => false

/-- the job is alone in knowing `o`, whose count is zero: just created, or about to be deleted -/
def alone (j : Job) (o : Nat) : Bool :=
  match j.pc with
  | .addRef _ x => j.reads == none && x == o
  | .del x => x == o
  | _ => false

def V (vars : List (Option (Option Nat))) (o : Nat) : Nat := vars.countP (· == some (some o))
def P (jobs : List Job) (o : Nat) : Nat := jobs.countP (holds · o)
def Z (jobs : List Job) (o : Nat) : Nat := jobs.countP (alone · o)

def SlotOk (vars : List (Option (Option Nat))) (d : Nat) : Prop := ∃ p, vars[d]? = some (some p)

def JobOk (vars : List (Option (Option Nat))) (j : Job) : Prop :=
  match j.pc with
  | .addRef dst o => j.writes = some dst ∧ SlotOk vars dst ∧
      (j.reads = none ∨ ∃ src, j.reads = some src ∧ vars[src]? = some (some (some o)))
  | .chk dst _ => j.writes = some dst ∧ SlotOk vars dst
  | .store dst _ => j.writes = some dst ∧ SlotOk vars dst
  | .unshare dst o => j.writes = some dst ∧ j.reads = none ∧ vars[dst]? = some (some (some o))
  | .write dst o => j.writes = some dst ∧ j.reads = none ∧ vars[dst]? = some (some (some o))
  | _ => True

def ObjOk (x : Option Obj) (v p z : Nat) : Prop :=
  match x with
  | none => v = 0 ∧ p = 0 ∧ z = 0
  | some x => x.count = (v + p : Nat) ∧ (x.live = true → (v + p = 0 → z = 1) ∧ (0 < v + p → z = 0)) ∧
      (x.live = false → v + p = 0 ∧ z = 0)

def Compat (j k : Job) : Prop :=
  (∀ v, j.writes = some v → k.writes ≠ some v ∧ k.reads ≠ some v) ∧
  (∀ v, k.writes = some v → j.writes ≠ some v ∧ j.reads ≠ some v)

theorem Compat.symm {j k : Job} (h : Compat j k) : Compat k j := ⟨h.2, h.1⟩

structure Inv (s : State) : Prop where
  objs : ∀ o, ObjOk s.objs[o]? (V s.vars o) (P s.jobs o) (Z s.jobs o)
  jobs : ∀ j ∈ s.jobs, JobOk s.vars j
  locks : s.jobs.Pairwise Compat
  bound : ∀ j ∈ s.jobs, ∀ v, j.writes = some v ∨ j.reads = some v → v < s.vars.length

theorem SlotOk.set {vars : List (Option (Option Nat))} {d e : Nat} {p : Option Nat} (h : SlotOk vars d) :
    SlotOk (vars.set e (some p)) d := by
  obtain ⟨q, hq⟩ := h
  rcases Decidable.em (e = d) with rfl | hne
  · refine ⟨p, ?_⟩
    have : e < vars.length := by
      rcases Nat.lt_or_ge e vars.length with h | h
      · exact h
      · rw [List.getElem?_eq_none h] at hq; cases hq
    simp [this]
  · exact ⟨q, by rw [List.getElem?_set_ne hne]; exact hq⟩

theorem get_append {α : Type} {l : List α} {w x : α} {d : Nat} (h : l[d]? = some x) : (l ++ [w])[d]? = some x := by
  have : d < l.length := by
    rcases Nat.lt_or_ge d l.length with h' | h'
    · exact h'
    · rw [List.getElem?_eq_none h'] at h; cases h
  rw [List.getElem?_append_left this]; exact h

theorem JobOk.append {vars : List (Option (Option Nat))} {j : Job} (w : Option (Option Nat)) (h : JobOk vars j) :
    JobOk (vars ++ [w]) j := by
  unfold JobOk at *
  split at h
  · obtain ⟨a, ⟨p, hp⟩, c⟩ := h
    refine ⟨a, ⟨p, get_append hp⟩, ?_⟩
    rcases c with c | ⟨src, c1, c2⟩
    · exact Or.inl c
    · exact Or.inr ⟨src, c1, get_append c2⟩
  · obtain ⟨a, ⟨p, hp⟩⟩ := h
    exact ⟨a, ⟨p, get_append hp⟩⟩
  · obtain ⟨a, ⟨p, hp⟩⟩ := h
    exact ⟨a, ⟨p, get_append hp⟩⟩
  · obtain ⟨a, b, c⟩ := h
    exact ⟨a, b, get_append c⟩
  · obtain ⟨a, b, c⟩ := h
    exact ⟨a, b, get_append c⟩
  · trivial

theorem JobOk.set {vars : List (Option (Option Nat))} {j : Job} (d : Nat) (w : Option (Option Nat)) (h : JobOk vars j)
    (hw : j.writes ≠ some d) (hr : j.reads ≠ some d) : JobOk (vars.set d w) j := by
  unfold JobOk SlotOk at *
  split at h
  · obtain ⟨a, ⟨p, hp⟩, c⟩ := h
    have hne := fun (e : d = _) => hw (a.trans (congrArg some e.symm))
    refine ⟨a, ⟨p, by rw [List.getElem?_set_ne hne]; exact hp⟩, ?_⟩
    rcases c with c | ⟨src, c1, c2⟩
    · exact Or.inl c
    · have hne : d ≠ src := fun e => hr (by rw [c1, ← e])
      exact Or.inr ⟨src, c1, by rw [List.getElem?_set_ne hne]; exact c2⟩
  · obtain ⟨a, ⟨p, hp⟩⟩ := h
    have hne := fun (e : d = _) => hw (a.trans (congrArg some e.symm))
    exact ⟨a, ⟨p, by rw [List.getElem?_set_ne hne]; exact hp⟩⟩
  · obtain ⟨a, ⟨p, hp⟩⟩ := h
    have hne := fun (e : d = _) => hw (a.trans (congrArg some e.symm))
    exact ⟨a, ⟨p, by rw [List.getElem?_set_ne hne]; exact hp⟩⟩
  · obtain ⟨a, b, c⟩ := h
    have hne := fun (e : d = _) => hw (a.trans (congrArg some e.symm))
    exact ⟨a, b, by rw [List.getElem?_set_ne hne]; exact c⟩
  · obtain ⟨a, b, c⟩ := h
    have hne := fun (e : d = _) => hw (a.trans (congrArg some e.symm))
    exact ⟨a, b, by rw [List.getElem?_set_ne hne]; exact c⟩
  · trivial

theorem split_at {α : Type} {l : List α} {i : Nat} {x : α} (h : l[i]? = some x) :
    ∃ pre post, l = pre ++ x :: post ∧ pre.length = i := by
  have hi : i < l.length := by
    rcases Nat.lt_or_ge i l.length with h' | h'
    · exact h'
    · rw [List.getElem?_eq_none h'] at h; cases h
  rw [List.getElem?_eq_getElem hi] at h
  refine ⟨l.take i, l.drop (i + 1), ?_, by simp; omega⟩
  have e := List.getElem_cons_drop (h := hi)
  cases h
  rw [e, List.take_append_drop]

theorem set_mid {α : Type} (pre post : List α) (x y : α) : (pre ++ x :: post).set pre.length y = pre ++ y :: post := by
  simp

theorem erase_mid {α : Type} (pre post : List α) (x : α) : (pre ++ x :: post).eraseIdx pre.length = pre ++ post := by
  rw [List.eraseIdx_append_of_length_le (Nat.le_refl _)]; simp

/-- a variable pointing to `o` counts -/
theorem V_pos {vars : List (Option (Option Nat))} {d o : Nat} (h : vars[d]? = some (some (some o))) : 0 < V vars o := by
  unfold V
  rw [List.countP_pos_iff]
  exact ⟨_, List.mem_of_getElem? h, by simp⟩

theorem V_set {vars : List (Option (Option Nat))} {d : Nat} {w w' : Option (Option Nat)} (h : vars[d]? = some w) (o : Nat) :
    V (vars.set d w') o + (if w = some (some o) then 1 else 0) = V vars o + (if w' = some (some o) then 1 else 0) := by
  obtain ⟨pre, post, rfl, rfl⟩ := split_at h
  rw [set_mid]
  unfold V
  simp only [List.countP_append, List.countP_cons]
  simp only [beq_iff_eq]
  omega

theorem V_append {vars : List (Option (Option Nat))} (o : Nat) (w : Option (Option Nat)) :
    V (vars ++ [w]) o = V vars o + (if w = some (some o) then 1 else 0) := by
  unfold V; simp [List.countP_append, List.countP_cons]

theorem P_append (jobs : List Job) (j : Job) (o : Nat) :
    P (jobs ++ [j]) o = P jobs o + (if holds j o then 1 else 0) := by
  unfold P; simp [List.countP_append, List.countP_cons]

theorem Z_append (jobs : List Job) (j : Job) (o : Nat) :
    Z (jobs ++ [j]) o = Z jobs o + (if alone j o then 1 else 0) := by
  unfold Z; simp [List.countP_append, List.countP_cons]

theorem P_mid (pre post : List Job) (j : Job) (o : Nat) :
    P (pre ++ j :: post) o = P (pre ++ post) o + (if holds j o then 1 else 0) := by
  unfold P; simp only [List.countP_append, List.countP_cons]; omega

theorem Z_mid (pre post : List Job) (j : Job) (o : Nat) :
    Z (pre ++ j :: post) o = Z (pre ++ post) o + (if alone j o then 1 else 0) := by
  unfold Z; simp only [List.countP_append, List.countP_cons]; omega

theorem canRead_iff (s : State) (v : Nat) : canRead s v = true ↔ ∀ j ∈ s.jobs, j.writes ≠ some v := by
  simp [canRead]

theorem canWrite_iff (s : State) (v : Nat) : canWrite s v = true ↔ ∀ j ∈ s.jobs, j.writes ≠ some v ∧ j.reads ≠ some v := by
  simp [canWrite]

theorem locks_add {jobs : List Job} (h : jobs.Pairwise Compat) (j : Job) (hj : ∀ k ∈ jobs, Compat k j) :
    (jobs ++ [j]).Pairwise Compat := by
  rw [List.pairwise_append]
  refine ⟨h, List.pairwise_singleton _ _, ?_⟩
  intro a ha b hb
  rw [List.mem_singleton] at hb
  subst hb
  exact hj a ha

theorem locks_mid {pre post : List Job} {j : Job} (h : (pre ++ j :: post).Pairwise Compat) :
    (pre ++ post).Pairwise Compat ∧ ∀ k ∈ pre ++ post, Compat j k := by
  have := (List.pairwise_middle (fun {a b} (h : Compat a b) => h.symm)).1 h
  rw [List.pairwise_cons] at this
  exact ⟨this.2, this.1⟩

theorem locks_put {pre post : List Job} {j : Job} (h : (pre ++ post).Pairwise Compat) (hj : ∀ k ∈ pre ++ post, Compat j k) :
    (pre ++ j :: post).Pairwise Compat :=
  (List.pairwise_middle (fun {a b} (h : Compat a b) => h.symm)).2 (List.pairwise_cons.2 ⟨hj, h⟩)

/-- jobs that use a variable not yet existing do not exist -/
theorem fresh_var {s : State} (h : Inv s) :
    ∀ j ∈ s.jobs, j.writes ≠ some s.vars.length ∧ j.reads ≠ some s.vars.length := by
  intro j hj
  constructor
  · intro e; have := h.bound j hj _ (Or.inl e); omega
  · intro e; have := h.bound j hj _ (Or.inr e); omega

theorem lt_of_get {α : Type} {l : List α} {d : Nat} {x : α} (h : l[d]? = some x) : d < l.length := by
  rcases Nat.lt_or_ge d l.length with h' | h'
  · exact h'
  · rw [List.getElem?_eq_none h'] at h; cases h

theorem get_push {α : Type} (l : List α) (x : α) (o : Nat) :
    (l ++ [x])[o]? = if o = l.length then some x else l[o]? := by
  by_cases h : o = l.length
  · subst h; simp
  · rw [if_neg h]
    rcases Nat.lt_or_ge o l.length with h' | h'
    · rw [List.getElem?_append_left h']
    · rw [List.getElem?_eq_none (by simp; omega), List.getElem?_eq_none h']

/-- adding a job that holds nothing and is not alone, on existing variables -/
theorem Inv.add {s : State} (h : Inv s) (j : Job) (hj : JobOk s.vars j) (hh : ∀ o, holds j o = false)
    (ha : ∀ o, alone j o = false) (hc : ∀ k ∈ s.jobs, Compat k j)
    (hb : ∀ v, j.writes = some v ∨ j.reads = some v → v < s.vars.length) : Inv (s.add j) := by
  refine ⟨?_, ?_, locks_add h.locks j hc, ?_⟩
  · intro o
    have := h.objs o
    simp only [State.add, P_append, Z_append, hh, ha, Bool.false_eq_true, if_false, Nat.add_zero]
    exact this
  · intro k hk
    rcases List.mem_append.1 hk with hk | hk
    · exact h.jobs k hk
    · rw [List.mem_singleton] at hk; subst hk; exact hj
  · intro k hk
    rcases List.mem_append.1 hk with hk | hk
    · exact h.bound k hk
    · rw [List.mem_singleton] at hk; subst hk; exact hb

/-- adding a job for a fresh object -/
theorem Inv.addFresh {s : State} (h : Inv s) (dst : Nat) (hs : SlotOk s.vars dst)
    (hc : ∀ k ∈ s.jobs, k.writes ≠ some dst ∧ k.reads ≠ some dst) :
    Inv { s with objs := s.objs ++ [⟨0, true⟩], jobs := s.jobs ++ [⟨none, some dst, .addRef dst s.objs.length⟩] } := by
  refine ⟨?_, ?_, ?_, ?_⟩
  · intro o
    have := h.objs o
    simp only [P_append, Z_append, get_push, holds, alone]
    by_cases he : o = s.objs.length
    · subst he
      rw [List.getElem?_eq_none (Nat.le_refl _)] at this
      obtain ⟨a, b, c⟩ := this
      simp [ObjOk, a, b, c]
    · have : ¬ s.objs.length = o := fun e => he e.symm
      simpa [he, this] using h.objs o
  · intro k hk
    rcases List.mem_append.1 hk with hk | hk
    · exact h.jobs k hk
    · rw [List.mem_singleton] at hk; subst hk; exact ⟨rfl, hs, Or.inl rfl⟩
  · refine locks_add h.locks _ ?_
    intro k hk
    refine ⟨fun v hv => ?_, fun v hv => ?_⟩
    · refine ⟨fun e => ?_, nofun⟩
      exact (hc k hk).1 (hv.trans e.symm)
    · cases hv; exact hc k hk
  · intro k hk
    rcases List.mem_append.1 hk with hk | hk
    · exact h.bound k hk
    · rw [List.mem_singleton] at hk; subst hk
      intro v hv
      obtain ⟨p, hp⟩ := hs
      rcases hv with hv | hv
      · cases hv; exact lt_of_get hp
      · cases hv

/-- a new null variable -/
theorem Inv.newVar {s : State} (h : Inv s) : Inv { s with vars := s.vars ++ [some none] } := by
  refine ⟨?_, ?_, h.locks, ?_⟩
  · intro o
    have := h.objs o
    simp only [V_append]
    simpa using this
  · intro k hk; exact (h.jobs k hk).append _
  · intro k hk v hv
    have := h.bound k hk v hv
    simp; omega

theorem start_inv {s : State} (h : Inv s) (c : Call) : Inv (start s c) := by
  cases c with
  | null => exact h.newVar
  | construct =>
    have h1 := h.newVar
    have h2 := h1.addFresh s.vars.length ⟨none, by simp⟩ (fresh_var h)
    exact h2
  | copy src =>
    simp only [start]
    split
    · rename_i p hp
      split
      · rename_i hc
        rw [canRead_iff] at hc
        split
        · rename_i o
          have h1 := h.newVar
          refine h1.add ⟨some src, some s.vars.length, .addRef s.vars.length o⟩ ?_ (fun _ => rfl) ?_ ?_ ?_
          · exact ⟨rfl, ⟨none, by simp⟩, Or.inr ⟨src, rfl, get_append hp⟩⟩
          · intro x; simp [alone]
          · intro k hk
            have hf := fresh_var h k hk
            refine ⟨fun v hv => ⟨fun e => ?_, fun e => ?_⟩, fun v hv => ?_⟩
            · exact hf.1 (hv.trans e.symm)
            · exact hc k hk (hv.trans e.symm)
            · cases hv; exact hf
          · intro v hv
            have := lt_of_get hp
            rcases hv with hv | hv <;> cases hv <;> simp <;> omega
        · exact h.newVar
      · exact h
    · exact h
  | assign dst src =>
    simp only [start]
    split
    · rename_i p q hp hq
      split
      · rename_i hc
        rw [Bool.and_eq_true, canRead_iff, canWrite_iff] at hc
        have hcompat : ∀ pc, ∀ k ∈ s.jobs, Compat k ⟨some src, some dst, pc⟩ := by
          intro pc k hk
          refine ⟨fun v hv => ⟨fun e => ?_, fun e => ?_⟩, fun v hv => ?_⟩
          · exact (hc.2 k hk).1 (hv.trans e.symm)
          · exact hc.1 k hk (hv.trans e.symm)
          · cases hv; exact hc.2 k hk
        have hbound : ∀ pc, ∀ v, (⟨some src, some dst, pc⟩ : Job).writes = some v ∨ (⟨some src, some dst, pc⟩ : Job).reads = some v →
            v < s.vars.length := by
          intro pc v hv
          rcases hv with hv | hv <;> cases hv
          · exact lt_of_get hq
          · exact lt_of_get hp
        split
        · refine h.add _ ⟨rfl, ⟨_, hq⟩, Or.inr ⟨src, rfl, hp⟩⟩ (fun _ => rfl) (fun x => by simp [alone]) (hcompat _) (hbound _)
        · exact h.add _ ⟨rfl, ⟨_, hq⟩⟩ (fun _ => rfl) (fun x => rfl) (hcompat _) (hbound _)
      · exact h
    · exact h
  | assignNew dst =>
    simp only [start]
    split
    · rename_i q hq
      split
      · rename_i hc
        rw [canWrite_iff] at hc
        exact h.addFresh dst ⟨_, hq⟩ hc
      · exact h
    · exact h
  | assignNull dst =>
    simp only [start]
    split
    · rename_i q hq
      split
      · rename_i hc
        rw [canWrite_iff] at hc
        refine h.add _ ⟨rfl, ⟨_, hq⟩⟩ (fun _ => rfl) (fun x => rfl) ?_ ?_
        · intro k hk
          refine ⟨fun v hv => ⟨fun e => ?_, nofun⟩, fun v hv => ?_⟩
          · exact (hc k hk).1 (hv.trans e.symm)
          · cases hv; exact hc k hk
        · intro v hv
          rcases hv with hv | hv <;> cases hv
          exact lt_of_get hq
      · exact h
    · exact h
  | unshare dst =>
    simp only [start]
    split
    · rename_i q hq
      split
      · rename_i hc
        rw [canWrite_iff] at hc
        refine h.add _ ⟨rfl, rfl, hq⟩ (fun _ => rfl) (fun x => rfl) ?_ ?_
        · intro k hk
          refine ⟨fun v hv => ⟨fun e => ?_, nofun⟩, fun v hv => ?_⟩
          · exact (hc k hk).1 (hv.trans e.symm)
          · cases hv; exact hc k hk
        · intro v hv
          rcases hv with hv | hv <;> cases hv
          exact lt_of_get hq
      · exact h
    · exact h
  | destroy v =>
    simp only [start]
    split
    · rename_i p hp
      split
      · rename_i hc
        rw [canWrite_iff] at hc
        split
        · rename_i o
          refine ⟨?_, ?_, ?_, ?_⟩
          · intro x
            have h1 := h.objs x
            have h2 := V_set (w' := none) hp x
            simp only [P_append, Z_append]
            simp only [reduceCtorEq, if_false, Option.some.injEq] at h2
            simp only [holds, alone, beq_iff_eq, Bool.false_eq_true, if_false]
            unfold ObjOk at *
            split at h1
            · omega
            · by_cases he : o = x
              · simp only [he, if_true] at *
                refine ⟨by omega, fun hl => ⟨fun e => ?_, fun e => ?_⟩, fun hl => ?_⟩
                · omega
                · exact (h1.2.1 hl).2 (by omega)
                · have := h1.2.2 hl; omega
              · simp only [he, if_false] at *
                rw [Nat.add_zero, Nat.add_zero] at h2
                rw [h2]; simpa using h1
          · intro k hk
            rcases List.mem_append.1 hk with hk | hk
            · exact (h.jobs k hk).set _ _ (hc k hk).1 (hc k hk).2
            · rw [List.mem_singleton] at hk; subst hk; trivial
          · refine locks_add h.locks _ ?_
            intro k hk
            refine ⟨fun v hv => ⟨fun e => ?_, nofun⟩, fun v hv => ?_⟩
            · exact (hc k hk).1 (hv.trans e.symm)
            · cases hv; exact hc k hk
          · intro k hk
            rcases List.mem_append.1 hk with hk | hk
            · simpa using h.bound k hk
            · rw [List.mem_singleton] at hk; subst hk
              intro w hv
              rcases hv with hv | hv <;> cases hv
              simpa using lt_of_get hp
        · refine ⟨?_, ?_, h.locks, ?_⟩
          · intro x
            have h2 := V_set (w' := none) hp x
            simp only [reduceCtorEq, if_false, Option.some.injEq, Nat.add_zero] at h2
            simp only [h2]; exact h.objs x
          · intro k hk
            exact (h.jobs k hk).set _ _ (hc k hk).1 (hc k hk).2
          · intro k hk
            simpa using h.bound k hk
      · exact h
    · exact h

/-- an object known to be counted, or alone with a job, is live -/
theorem obj_ok {s : State} (h : Inv s) (o : Nat) (hp : 0 < V s.vars o + P s.jobs o + Z s.jobs o) :
    ∃ x, s.objs[o]? = some x ∧ x.live = true ∧ obj s o = .ok x ∧ x.count = (V s.vars o + P s.jobs o : Nat) ∧
      (V s.vars o + P s.jobs o = 0 → Z s.jobs o = 1) ∧ (0 < V s.vars o + P s.jobs o → Z s.jobs o = 0) := by
  have h1 := h.objs o
  cases hx : s.objs[o]? with
  | none => rw [hx] at h1; obtain ⟨a, b, c⟩ := h1; omega
  | some x =>
    rw [hx] at h1
    obtain ⟨a, b, c⟩ := h1
    have hl : x.live = true := by
      cases hl : x.live with
      | true => rfl
      | false => have := c hl; omega
    refine ⟨x, rfl, hl, ?_, a, (b hl).1, (b hl).2⟩
    unfold obj
    rw [hx]; simp [hl]

/-- moving a job on, with a change to the objects -/
theorem Inv.move {objs objs' : List Obj} {vars : List (Option (Option Nat))} {pre post : List Job} {j : Job} {pc : Pc}
    (h : Inv ⟨objs, vars, pre ++ j :: post⟩) (hj : JobOk vars { j with pc := pc })
    (ho : ∀ o, ObjOk objs'[o]? (V vars o) (P (pre ++ post) o + if holds { j with pc := pc } o then 1 else 0)
      (Z (pre ++ post) o + if alone { j with pc := pc } o then 1 else 0)) :
    Inv ⟨objs', vars, pre ++ { j with pc := pc } :: post⟩ := by
  have hl := locks_mid h.locks
  refine ⟨?_, ?_, locks_put hl.1 hl.2, ?_⟩
  · intro o; simp only [P_mid, Z_mid]; exact ho o
  · intro k hk
    rcases List.mem_append.1 hk with hk | hk
    · exact h.jobs k (List.mem_append_left _ hk)
    · rcases List.mem_cons.1 hk with rfl | hk
      · exact hj
      · exact h.jobs k (List.mem_append_right _ (List.mem_cons_of_mem _ hk))
  · intro k hk
    rcases List.mem_append.1 hk with hk | hk
    · exact h.bound k (List.mem_append_left _ hk)
    · rcases List.mem_cons.1 hk with rfl | hk
      · exact h.bound j (List.mem_append_right _ (List.mem_cons_self ..))
      · exact h.bound k (List.mem_append_right _ (List.mem_cons_of_mem _ hk))

/-- a job returning, with a change to the objects -/
theorem Inv.drop {objs objs' : List Obj} {vars : List (Option (Option Nat))} {pre post : List Job} {j : Job}
    (h : Inv ⟨objs, vars, pre ++ j :: post⟩)
    (ho : ∀ o, ObjOk objs'[o]? (V vars o) (P (pre ++ post) o) (Z (pre ++ post) o)) :
    Inv ⟨objs', vars, pre ++ post⟩ := by
  have hl := locks_mid h.locks
  have hm : ∀ k ∈ pre ++ post, k ∈ pre ++ j :: post := by
    intro k hk
    rcases List.mem_append.1 hk with hk | hk
    · exact List.mem_append_left _ hk
    · exact List.mem_append_right _ (List.mem_cons_of_mem _ hk)
  exact ⟨ho, fun k hk => h.jobs k (hm k hk), hl.1, fun k hk => h.bound k (hm k hk)⟩

theorem get_set_if {α : Type} (l : List α) (i o : Nat) (x y : α) (h : l[i]? = some y) :
    (l.set i x)[o]? = if o = i then some x else l[o]? := by
  by_cases he : o = i
  · subst he; simp [lt_of_get h]
  · rw [if_neg he, List.getElem?_set_ne (fun e => he e.symm)]

theorem tick_inv {s : State} (h : Inv s) (i : Nat) : ∃ s', tick s i = .ok s' ∧ Inv s' := by
  unfold tick
  cases hj : s.jobs[i]? with
  | none => exact ⟨s, rfl, h⟩
  | some j =>
    obtain ⟨objs, vars, jobs⟩ := s
    simp only at hj
    obtain ⟨pre, post, rfl, rfl⟩ := split_at hj
    have hok := h.jobs j (List.mem_append_right _ (List.mem_cons_self ..))
    have hobj := h.objs
    simp only [P_mid, Z_mid] at hobj
    simp only [goto, finish, set_mid, erase_mid]
    obtain ⟨reads, writes, pc⟩ := j
    cases pc with
    | addRef dst o =>
      obtain ⟨hw, hs, hr⟩ := hok
      simp only at hw hr
      have hpos : 0 < V vars o + P (pre ++ ⟨reads, writes, .addRef dst o⟩ :: post) o +
          Z (pre ++ ⟨reads, writes, .addRef dst o⟩ :: post) o := by
        rcases hr with rfl | ⟨src, rfl, h2⟩
        · rw [Z_mid]; simp [alone]; omega
        · have := V_pos h2; omega
      obtain ⟨x, hx, hl, hob, hc, hz0, hz1⟩ := obj_ok h o hpos
      simp only [hob, res_bind_ok]
      refine ⟨_, rfl, h.move ⟨hw, hs⟩ ?_⟩
      intro p
      have h1 := hobj p
      rw [get_set_if _ _ _ _ _ hx]
      simp only [P_mid, Z_mid, holds, alone] at hc hz0 hz1 h1
      simp only [holds, alone, beq_iff_eq] at *
      by_cases he : p = o
      · subst he
        simp only [hx, ObjOk, hl] at h1 ⊢
        simp only [if_true, Bool.false_eq_true, if_false, Nat.add_zero] at *
        refine ⟨by omega, fun _ => ⟨by omega, fun _ => ?_⟩, nofun⟩
        rcases hr with rfl | ⟨src, rfl, h2⟩
        · simp at hz0 hz1
          omega
        · have := V_pos h2
          simp at hz1
          exact hz1 (by omega)
      · have he' : ¬ o = p := fun e => he e.symm
        simpa [he, he'] using h1
    | chk dst o =>
      obtain ⟨hw, hs⟩ := hok
      have hpos : 0 < V vars o + P (pre ++ ⟨reads, writes, .chk dst o⟩ :: post) o +
          Z (pre ++ ⟨reads, writes, .chk dst o⟩ :: post) o := by
        rw [P_mid]; simp [holds]; omega
      obtain ⟨x, hx, hl, hob, hc, hz0, hz1⟩ := obj_ok h o hpos
      have hne : (x.count != 0) = true := by
        rw [bne_iff_ne, hc, P_mid]; simp [holds]; omega
      simp only [hob, res_bind_ok, assert, hne, if_true]
      refine ⟨_, rfl, h.move ⟨hw, hs⟩ ?_⟩
      intro p
      have h1 := hobj p
      simpa [holds, alone] using h1
    | store dst q =>
      obtain ⟨hw, hs⟩ := hok
      simp only at hw
      obtain ⟨old, hold⟩ := hs
      have hl := locks_mid h.locks
      have hothers : ∀ k ∈ pre ++ post, JobOk (vars.set dst (some q)) k := by
        intro k hk
        have hcm := (hl.2 k hk).1 dst hw
        refine JobOk.set _ _ (h.jobs k ?_) hcm.1 hcm.2
        rcases List.mem_append.1 hk with hk | hk
        · exact List.mem_append_left _ hk
        · exact List.mem_append_right _ (List.mem_cons_of_mem _ hk)
      have hm : ∀ k ∈ pre ++ post, k ∈ pre ++ (⟨reads, writes, .store dst q⟩ : Job) :: post := by
        intro k hk
        rcases List.mem_append.1 hk with hk | hk
        · exact List.mem_append_left _ hk
        · exact List.mem_append_right _ (List.mem_cons_of_mem _ hk)
      simp only [hold]
      cases old with
      | some o =>
        refine ⟨_, rfl, ?_, ?_, locks_put hl.1 hl.2, ?_⟩
        · intro p
          have h1 := hobj p
          have h2 := V_set (w' := some q) hold p
          simp only [P_mid, Z_mid, holds, alone, beq_iff_eq, Bool.false_eq_true, if_false, Nat.add_zero,
            Option.some.injEq] at *
          unfold ObjOk at *
          split at h1
          · omega
          · refine ⟨by omega, fun hl => ⟨fun e => ?_, fun e => ?_⟩, fun hl => ?_⟩
            · exact (h1.2.1 hl).1 (by omega)
            · exact (h1.2.1 hl).2 (by omega)
            · have := h1.2.2 hl; omega
        · intro k hk
          rcases List.mem_append.1 hk with hk | hk
          · exact hothers k (List.mem_append_left _ hk)
          · rcases List.mem_cons.1 hk with rfl | hk
            · trivial
            · exact hothers k (List.mem_append_right _ hk)
        · intro k hk
          rw [List.length_set]
          rcases List.mem_append.1 hk with hk | hk
          · exact h.bound k (List.mem_append_left _ hk)
          · rcases List.mem_cons.1 hk with rfl | hk
            · exact h.bound ⟨reads, writes, .store dst q⟩ (List.mem_append_right _ (List.mem_cons_self ..))
            · exact h.bound k (List.mem_append_right _ (List.mem_cons_of_mem _ hk))
      | none =>
        refine ⟨_, rfl, ?_, hothers, hl.1, ?_⟩
        · intro p
          have h1 := hobj p
          have h2 := V_set (w' := some q) hold p
          simp only [holds, alone, beq_iff_eq, Bool.false_eq_true, if_false, Nat.add_zero,
            Option.some.injEq, reduceCtorEq] at *
          unfold ObjOk at *
          split at h1
          · omega
          · refine ⟨by omega, fun hl => ⟨fun e => ?_, fun e => ?_⟩, fun hl => ?_⟩
            · exact (h1.2.1 hl).1 (by omega)
            · exact (h1.2.1 hl).2 (by omega)
            · have := h1.2.2 hl; omega
        · intro k hk
          rw [List.length_set]
          exact h.bound k (hm k hk)
    | relAssert o =>
      have hpos : 0 < V vars o + P (pre ++ ⟨reads, writes, .relAssert o⟩ :: post) o +
          Z (pre ++ ⟨reads, writes, .relAssert o⟩ :: post) o := by
        rw [P_mid]; simp [holds]; omega
      obtain ⟨x, hx, hl, hob, hc, hz0, hz1⟩ := obj_ok h o hpos
      have hne : decide (x.count > 0) = true := by
        rw [decide_eq_true_iff, hc, P_mid]; simp [holds]; omega
      simp only [hob, res_bind_ok, assert, hne, if_true]
      refine ⟨_, rfl, h.move trivial ?_⟩
      intro p
      have h1 := hobj p
      simpa [holds, alone] using h1
    | relDec o =>
      have hpos : 0 < V vars o + P (pre ++ ⟨reads, writes, .relDec o⟩ :: post) o +
          Z (pre ++ ⟨reads, writes, .relDec o⟩ :: post) o := by
        rw [P_mid]; simp [holds]; omega
      obtain ⟨x, hx, hl, hob, hc, hz0, hz1⟩ := obj_ok h o hpos
      simp only [hob, res_bind_ok]
      simp only [P_mid, Z_mid, holds, alone, beq_self_eq_true, if_true, Bool.false_eq_true, if_false, Nat.add_zero] at hc hz0 hz1
      have hz : Z (pre ++ post) o = 0 := hz1 (by omega)
      by_cases hzero : x.count - 1 == 0
      · rw [if_pos hzero]
        rw [beq_iff_eq] at hzero
        refine ⟨_, rfl, h.move trivial ?_⟩
        intro p
        have h1 := hobj p
        rw [get_set_if _ _ _ _ _ hx]
        simp only [holds, alone, beq_iff_eq, Bool.false_eq_true, if_false, Nat.add_zero] at *
        by_cases he : p = o
        · subst he
          simp only [if_true, ObjOk, hl] at *
          refine ⟨by omega, fun _ => ⟨by omega, by omega⟩, nofun⟩
        · have he' : ¬ o = p := fun e => he e.symm
          simpa [he, he'] using h1
      · rw [if_neg hzero]
        rw [beq_iff_eq] at hzero
        refine ⟨_, rfl, h.drop ?_⟩
        intro p
        have h1 := hobj p
        rw [get_set_if _ _ _ _ _ hx]
        simp only [holds, alone, beq_iff_eq, Bool.false_eq_true, if_false, Nat.add_zero] at *
        by_cases he : p = o
        · subst he
          simp only [if_true, ObjOk, hl] at *
          refine ⟨by omega, fun _ => ⟨by omega, by omega⟩, nofun⟩
        · have he' : ¬ o = p := fun e => he e.symm
          simpa [he, he'] using h1
    | del o =>
      have hpos : 0 < V vars o + P (pre ++ ⟨reads, writes, .del o⟩ :: post) o +
          Z (pre ++ ⟨reads, writes, .del o⟩ :: post) o := by
        rw [Z_mid]; simp [alone]; omega
      obtain ⟨x, hx, hl, hob, hc, hz0, hz1⟩ := obj_ok h o hpos
      simp only [hob, res_bind_ok]
      simp only [P_mid, Z_mid, holds, alone, beq_self_eq_true, if_true, Bool.false_eq_true, if_false, Nat.add_zero] at hc hz0 hz1
      refine ⟨_, rfl, h.drop ?_⟩
      intro p
      have h1 := hobj p
      rw [get_set_if _ _ _ _ _ hx]
      simp only [holds, alone, beq_iff_eq, Bool.false_eq_true, if_false, Nat.add_zero] at *
      by_cases he : p = o
      · subst he
        simp only [if_true, ObjOk] at *
        refine ⟨by omega, nofun, fun _ => ⟨by omega, by omega⟩⟩
      · have he' : ¬ o = p := fun e => he e.symm
        simpa [he, he'] using h1
    | unshare dst o =>
      obtain ⟨hw, hr, hv⟩ := hok
      simp only at hw hr
      subst hr
      have hpos : 0 < V vars o + P (pre ++ ⟨none, writes, .unshare dst o⟩ :: post) o +
          Z (pre ++ ⟨none, writes, .unshare dst o⟩ :: post) o := by
        have := V_pos hv; simp only at this; omega
      obtain ⟨x, hx, hl, hob, hc, hz0, hz1⟩ := obj_ok h o hpos
      simp only [hob, res_bind_ok]
      split
      · refine ⟨_, rfl, h.move ⟨hw, rfl, hv⟩ ?_⟩
        intro p
        have h1 := hobj p
        simpa [holds, alone] using h1
      · refine ⟨_, rfl, h.move ⟨hw, ⟨_, hv⟩, Or.inl rfl⟩ ?_⟩
        intro p
        have h1 := hobj p
        rw [get_push]
        simp only [holds, alone, beq_iff_eq, Bool.false_eq_true, if_false, Nat.add_zero] at *
        by_cases he : p = objs.length
        · subst he
          rw [List.getElem?_eq_none (Nat.le_refl _)] at h1
          obtain ⟨a, b, c⟩ := h1
          simp [ObjOk, a, b, c]
        · have he' : ¬ objs.length = p := fun e => he e.symm
          simpa [he, he'] using h1

    | write dst o =>
      obtain ⟨hw, hr, hv⟩ := hok
      simp only at hw hr
      subst hr
      have hpos : 0 < V vars o + P (pre ++ ⟨none, writes, .write dst o⟩ :: post) o +
          Z (pre ++ ⟨none, writes, .write dst o⟩ :: post) o := by
        have := V_pos hv; simp only at this; omega
      obtain ⟨x, hx, hl, hob, hc, hz0, hz1⟩ := obj_ok h o hpos
      simp only [hob, res_bind_ok]
      refine ⟨_, rfl, h.drop ?_⟩
      intro p
      have h1 := hobj p
      simpa [holds, alone] using h1

theorem init_inv : Inv init := by
  refine ⟨fun o => ?_, nofun, List.Pairwise.nil, nofun⟩
  simp [init, ObjOk, V, P, Z]

theorem run_inv (es : List Event) : ∀ s, Inv s → ∃ s', run s es = .ok s' ∧ Inv s' := by
  induction es with
  | nil => intro s h; exact ⟨s, rfl, h⟩
  | cons e es ih =>
    intro s h
    cases e with
    | start c => exact ih _ (start_inv h c)
    | tick i =>
      obtain ⟨s', h1, h2⟩ := tick_inv h i
      obtain ⟨s'', h3, h4⟩ := ih s' h2
      refine ⟨s'', ?_, h4⟩
      simp only [run, step, h1, res_bind_ok, h3]

end Strpp.RC
