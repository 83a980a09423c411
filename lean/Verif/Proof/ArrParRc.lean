import Verif.Proof.RefCount
/-! One step of a call on `Ref`s, described without the other calls. -/
set_option linter.unusedSimpArgs false
namespace Strpp.RC

abbrev Vars := List (Option (Option Nat))

/-- The effect of the next action of job `j`; the last argument is the new position, or `none` if the call returns -/
inductive Step (objs : List Obj) (vars : Vars) (j : Job) : List Obj → Vars → Option Pc → Prop
  | addRef {d o : Nat} {x : Obj} : j.pc = .addRef d o → objs[o]? = some x → Step objs vars j (objs.set o ⟨x.count + 1, x.live⟩) vars (some (.chk d o))
  | chk {d o : Nat} : j.pc = .chk d o → Step objs vars j objs vars (some (.store d (some o)))
  | storeRel {d : Nat} {p : Option Nat} {old : Nat} : j.pc = .store d p → vars[d]? = some (some (some old)) →
      Step objs vars j objs (vars.set d (some p)) (some (.relAssert old))
  | store {d : Nat} {p : Option Nat} : j.pc = .store d p → vars[d]? = some (some none) → Step objs vars j objs (vars.set d (some p)) none
  | relAssert {o : Nat} : j.pc = .relAssert o → Step objs vars j objs vars (some (.relDec o))
  | relLast {o : Nat} {x : Obj} : j.pc = .relDec o → objs[o]? = some x → Step objs vars j (objs.set o ⟨x.count - 1, x.live⟩) vars (some (.del o))
  | relDec {o : Nat} {x : Obj} : j.pc = .relDec o → objs[o]? = some x → Step objs vars j (objs.set o ⟨x.count - 1, x.live⟩) vars none
  | del {o : Nat} {x : Obj} : j.pc = .del o → objs[o]? = some x → Step objs vars j (objs.set o ⟨x.count, false⟩) vars none
  | keep {d o : Nat} {x : Obj} : j.pc = .unshare d o → objs[o]? = some x → x.count ≤ 1 → Step objs vars j objs vars (some (.write d o))
  | fork {d o : Nat} {x : Obj} : j.pc = .unshare d o → objs[o]? = some x → 1 < x.count →
      Step objs vars j (objs ++ [⟨0, true⟩]) vars (some (.addRef d objs.length))
  | write {d o : Nat} : j.pc = .write d o → Step objs vars j objs vars none

/-- the jobs after the step -/
def Job.next (j : Job) (r : Option Pc) : List Job :=
  match r with
  | some pc => [{ j with pc := pc }]
  | none => []

theorem obj_inv {s : State} {o : Nat} {x : Obj} (h : obj s o = .ok x) : s.objs[o]? = some x ∧ x.live = true := by
  unfold obj at h
  split at h
  · split at h
    · cases h; exact ⟨by assumption, by assumption⟩
    · cases h
  · cases h

theorem tick_step {objs : List Obj} {vars : Vars} {pre post : List Job} {j : Job} (h : Inv ⟨objs, vars, pre ++ j :: post⟩) :
    ∃ objs' vars' r, Step objs vars j objs' vars' r ∧
      tick ⟨objs, vars, pre ++ j :: post⟩ pre.length = .ok ⟨objs', vars', pre ++ (j.next r ++ post)⟩ ∧
      Inv ⟨objs', vars', pre ++ (j.next r ++ post)⟩ := by
  obtain ⟨s', ht, hi⟩ := tick_inv h pre.length
  suffices hs : ∃ objs' vars' r, Step objs vars j objs' vars' r ∧ s' = ⟨objs', vars', pre ++ (j.next r ++ post)⟩ by
    obtain ⟨a, b, r, h1, rfl⟩ := hs
    exact ⟨a, b, r, h1, ht, hi⟩
  have hg : (pre ++ j :: post)[pre.length]? = some j := by simp
  unfold tick at ht
  simp only [hg, goto, finish, set_mid, erase_mid] at ht
  have hbind : ∀ {α β : Type} {m : Res α} {f : α → Res β} {b : β}, (m >>= f) = .ok b → ∃ a, m = .ok a ∧ f a = .ok b := by
    intro α β m f b hh
    cases m with
    | error e => cases hh
    | ok a => exact ⟨a, rfl, hh⟩
  have hok := h.jobs j (List.mem_append_right _ (List.mem_cons_self ..))
  obtain ⟨rd, wr, pc⟩ := j
  cases pc with
  | addRef d o =>
    obtain ⟨x, hx, h1⟩ := hbind ht
    cases h1
    exact ⟨_, _, _, .addRef rfl (obj_inv hx).1, rfl⟩
  | chk d o =>
    obtain ⟨x, hx, h1⟩ := hbind ht
    obtain ⟨_, _, h1⟩ := hbind h1
    cases h1
    exact ⟨_, _, _, .chk rfl, rfl⟩
  | store d p =>
    obtain ⟨_, q, hq⟩ := hok
    simp only at hq
    simp only [hq] at ht
    cases q with
    | none => cases ht; exact ⟨_, _, _, .store rfl hq, rfl⟩
    | some o => cases ht; exact ⟨_, _, _, .storeRel rfl hq, rfl⟩
  | relAssert o =>
    obtain ⟨x, hx, h1⟩ := hbind ht
    obtain ⟨_, _, h1⟩ := hbind h1
    cases h1
    exact ⟨_, _, _, .relAssert rfl, rfl⟩
  | relDec o =>
    obtain ⟨x, hx, h1⟩ := hbind ht
    split at h1
    · cases h1; exact ⟨_, _, _, .relLast rfl (obj_inv hx).1, rfl⟩
    · cases h1; exact ⟨_, _, _, .relDec rfl (obj_inv hx).1, rfl⟩
  | del o =>
    obtain ⟨x, hx, h1⟩ := hbind ht
    cases h1
    exact ⟨_, _, _, .del rfl (obj_inv hx).1, rfl⟩
  | unshare d o =>
    obtain ⟨x, hx, h1⟩ := hbind ht
    split at h1
    · cases h1; exact ⟨_, _, _, .keep rfl (obj_inv hx).1 (by assumption), rfl⟩
    · cases h1; exact ⟨_, _, _, .fork rfl (obj_inv hx).1 (by omega), rfl⟩
  | write d o =>
    obtain ⟨x, hx, h1⟩ := hbind ht
    cases h1
    exact ⟨_, _, _, .write rfl, rfl⟩

/-- the number of references to `o`: variables and counts held by calls -/
def refs (vars : Vars) (jobs : List Job) (o : Nat) : Nat := V vars o + P jobs o

theorem P_pos {jobs : List Job} {k : Job} {o : Nat} (hk : k ∈ jobs) (h : holds k o = true) : 0 < P jobs o := by
  unfold P; rw [List.countP_pos_iff]; exact ⟨k, hk, h⟩

theorem Z_pos {jobs : List Job} {k : Job} {o : Nat} (hk : k ∈ jobs) (h : alone k o = true) : 0 < Z jobs o := by
  unfold Z; rw [List.countP_pos_iff]; exact ⟨k, hk, h⟩

theorem Inv.zero {s : State} (h : Inv s) {o : Nat} (hr : 0 < refs s.vars s.jobs o) : Z s.jobs o = 0 := by
  obtain ⟨_, _, _, _, _, _, h2⟩ := obj_ok h o (by unfold refs at hr; omega)
  exact h2 hr

theorem Inv.alone_refs {s : State} (h : Inv s) {o : Nat} {k : Job} (hk : k ∈ s.jobs) (ha : alone k o = true) :
    refs s.vars s.jobs o = 0 := by
  have := Z_pos hk ha
  rcases Nat.eq_zero_or_pos (refs s.vars s.jobs o) with e | e
  · exact e
  · have := h.zero e; omega

theorem V_two {vars : Vars} {a b o : Nat} (ha : vars[a]? = some (some (some o))) (hb : vars[b]? = some (some (some o)))
    (hne : a ≠ b) : 2 ≤ V vars o := by
  have h := V_set (w' := none) ha o
  have hb' : (vars.set a none)[b]? = some (some (some o)) := by rw [List.getElem?_set_ne hne]; exact hb
  have := V_pos hb'
  simp at h
  omega

/-- inserting a job that holds nothing -/
theorem Inv.put {objs : List Obj} {vars : Vars} {pre post : List Job} {j : Job} (h : Inv ⟨objs, vars, pre ++ post⟩)
    (hj : JobOk vars j) (hh : ∀ o, holds j o = false) (ha : ∀ o, alone j o = false) (hc : ∀ k ∈ pre ++ post, Compat j k)
    (hb : ∀ v, j.writes = some v ∨ j.reads = some v → v < vars.length) : Inv ⟨objs, vars, pre ++ j :: post⟩ := by
  refine ⟨?_, ?_, locks_put h.locks hc, ?_⟩
  · intro o
    have := h.objs o
    simp only [P_mid, Z_mid, hh, ha, Bool.false_eq_true, if_false, Nat.add_zero]
    exact this
  · intro k hk
    rcases List.mem_append.1 hk with hk | hk
    · exact h.jobs k (List.mem_append_left _ hk)
    · rcases List.mem_cons.1 hk with rfl | hk
      · exact hj
      · exact h.jobs k (List.mem_append_right _ hk)
  · intro k hk
    rcases List.mem_append.1 hk with hk | hk
    · exact h.bound k (List.mem_append_left _ hk)
    · rcases List.mem_cons.1 hk with rfl | hk
      · exact hb
      · exact h.bound k (List.mem_append_right _ hk)

/-- A step changes the number of references of at most the object it adds to or releases -/
theorem Step.refs {objs objs' : List Obj} {vars vars' : Vars} {pre post : List Job} {j : Job} {r : Option Pc}
    (h : Step objs vars j objs' vars' r) (o : Nat) (h1 : ∀ d, j.pc ≠ .addRef d o) (h2 : j.pc ≠ .relDec o) :
    refs vars' (pre ++ (j.next r ++ post)) o = refs vars (pre ++ j :: post) o := by
  obtain ⟨rd, wr, pc⟩ := j
  simp only at h1 h2
  cases h with
  | @addRef d x _ e =>
    cases e
    have : ¬ x = o := fun e => h1 d (by rw [e])
    simp [RC.refs, Job.next, P_mid, holds, this]
  | chk e => cases e; simp [RC.refs, Job.next, P_mid, holds]
  | @storeRel d p old e hv =>
    cases e
    have := V_set (w' := some p) hv o
    simp only [RC.refs, Job.next, List.singleton_append, P_mid, holds, beq_iff_eq]
    simp only [Option.some.injEq] at this
    omega
  | @store d p e hv =>
    cases e
    have := V_set (w' := some p) hv o
    simp only [RC.refs, Job.next, List.nil_append, P_mid, holds, beq_iff_eq]
    simp only [Option.some.injEq, reduceCtorEq, if_false] at this
    omega
  | relAssert e => cases e; simp [RC.refs, Job.next, P_mid, holds]
  | @relLast x _ e =>
    cases e
    have : ¬ x = o := fun e => h2 (by rw [e])
    simp [RC.refs, Job.next, P_mid, holds, this]
  | @relDec x _ e =>
    cases e
    have : ¬ x = o := fun e => h2 (by rw [e])
    simp [RC.refs, Job.next, P_mid, holds, this]
  | del e => cases e; simp [RC.refs, Job.next, P_mid, holds]
  | keep e => cases e; simp [RC.refs, Job.next, P_mid, holds]
  | fork e => cases e; simp [RC.refs, Job.next, P_mid, holds]
  | write e => cases e; simp [RC.refs, Job.next, P_mid, holds]

/-- the variables after a step: only the one a call stores to is changed -/
theorem Step.vars {objs objs' : List Obj} {vars vars' : Vars} {j : Job} {r : Option Pc}
    (h : Step objs vars j objs' vars' r) (hj : JobOk vars j) {v : Nat} (hv : j.writes ≠ some v) : vars'[v]? = vars[v]? := by
  obtain ⟨rd, wr, pc⟩ := j
  cases h with
  | storeRel e => cases e; rw [List.getElem?_set_ne]; intro e; exact hv (by rw [hj.1, e])
  | store e => cases e; rw [List.getElem?_set_ne]; intro e; exact hv (by rw [hj.1, e])
  | _ => rfl

theorem Step.vars_length {objs objs' : List Obj} {vars vars' : Vars} {j : Job} {r : Option Pc}
    (h : Step objs vars j objs' vars' r) : vars'.length = vars.length := by
  cases h <;> simp

end Strpp.RC
