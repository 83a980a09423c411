import Verif.Proof.ArrPar
/-! Every action of a call keeps the invariant of Arrays in several threads. -/
set_option linter.unusedSimpArgs false
set_option linter.unusedSectionVars false
set_option linter.unusedVariables false
namespace Strpp.ArrPar
open Arr (Body wrap)
open Spec
open RC (Pc Job refs Step)

variable {E : Type} [Inhabited E]

section excl
variable {objs : List RC.Obj} {vars : RC.Vars} {pre post : List Job} {j : Job}

theorem mem_mid {α : Type} {pre post : List α} {j k : α} (h : k ∈ pre ++ post) : k ∈ pre ++ j :: post := by
  rcases List.mem_append.1 h with h | h
  · exact List.mem_append_left _ h
  · exact List.mem_append_right _ (List.mem_cons_of_mem _ h)

theorem mem_self {α : Type} {pre post : List α} {j : α} : j ∈ pre ++ j :: post :=
  List.mem_append_right _ (List.mem_cons_self ..)

theorem holds_of_pc {k : Job} {o : Nat} (h : (match k.pc with
   | .addRef _ x => x = o
   | .chk _ x => x = o
   | .store _ p => p = some o
   | _ => False)) : RC.holds k o = true ∨ ∃ d, k.pc = .addRef d o := by
  unfold RC.holds
  cases hp : k.pc <;> rw [hp] at h <;> simp only at h
  · exact Or.inr ⟨_, by rw [h]⟩
  · exact Or.inl (by simpa using h)
  · exact Or.inl (by simpa using h)

theorem addRef_ref (h : RC.Inv ⟨objs, vars, pre ++ j :: post⟩) {k : Job} (hk : k ∈ pre ++ j :: post) {d o : Nat} (hp : k.pc = .addRef d o) :
    RC.alone k o = true ∨ ∃ src, k.reads = some src ∧ vars[src]? = some (some (some o)) := by
  have := h.jobs k hk
  unfold RC.JobOk at this
  rw [hp] at this
  obtain ⟨_, _, h1 | h1⟩ := this
  · exact Or.inl (by unfold RC.alone; rw [hp, h1]; simp)
  · exact Or.inr h1

theorem excl_owner (h : RC.Inv ⟨objs, vars, pre ++ j :: post⟩) {d o : Nat} (hw : j.writes = some d)
    (hv : vars[d]? = some (some (some o))) (hr : refs vars (pre ++ j :: post) o = 1) :
    (∀ k ∈ pre ++ post, ¬ Uses vars k o) ∧ ∀ v, v ≠ d → vars[v]? ≠ some (some (some o)) := by
  have hvar : ∀ v, v ≠ d → vars[v]? ≠ some (some (some o)) := by
    intro v hne hx
    have := RC.V_two hx hv hne
    unfold refs at hr
    omega
  refine ⟨fun k hk hu => ?_, hvar⟩
  have hc := (RC.locks_mid h.locks).2 k hk
  rcases hu with ⟨d', h1, h2⟩ | hu
  · exact hvar d' (fun e => (hc.1 d hw).1 (by rw [h1, e])) h2
  · rcases holds_of_pc hu with hh | ⟨d', hp⟩
    · have h1 := RC.P_pos (mem_mid (j := j) hk) hh
      have h2 := RC.V_pos hv
      unfold refs at hr
      omega
    · rcases addRef_ref h (mem_mid hk) hp with ha | ⟨src, h1, h2⟩
      · have := h.alone_refs (mem_mid hk) ha
        simp only at this
        omega
      · exact hvar src (fun e => (hc.1 d hw).2 (by rw [h1, e])) h2

theorem excl_fresh (h : RC.Inv ⟨objs, vars, pre ++ j :: post⟩) {o : Nat} (ha : RC.alone j o = true) :
    (∀ k ∈ pre ++ post, ¬ Uses vars k o) ∧ ∀ v : Nat, vars[v]? ≠ some (some (some o)) := by
  have hr := h.alone_refs mem_self ha
  simp only at hr
  unfold refs at hr
  have hvar : ∀ v : Nat, vars[v]? ≠ some (some (some o)) := by
    intro v hx
    have := RC.V_pos hx
    omega
  refine ⟨fun k hk hu => ?_, hvar⟩
  rcases hu with ⟨d', h1, h2⟩ | hu
  · exact hvar d' h2
  · rcases holds_of_pc hu with hh | ⟨d', hp⟩
    · have h1 := RC.P_pos (mem_mid (j := j) hk) hh
      omega
    · rcases addRef_ref h (mem_mid hk) hp with ha' | ⟨src, h1, h2⟩
      · have hz := RC.Z_pos hk ha'
        have := h.objs o
        simp only [RC.Z_mid, ha, if_true] at this
        unfold RC.ObjOk at this
        split at this
        · omega
        · rename_i x _
          obtain ⟨_, a, b⟩ := this
          cases hl : x.live with
          | true => have := (a hl).1; omega
          | false => have := (b hl).2; omega
      · exact hvar src h2

/-- the only reference of somebody else is not about to be added to or released -/
theorem steady (h : RC.Inv ⟨objs, vars, pre ++ j :: post⟩) {k : Job} (hk : k ∈ pre ++ post) {o : Nat} (hu : Uses vars k o)
    (hn : isAdd k.pc = false) (hr : refs vars (pre ++ j :: post) o = 1) : (∀ d, j.pc ≠ .addRef d o) ∧ j.pc ≠ .relDec o := by
  have hc := (RC.locks_mid h.locks).2 k hk
  have hP : RC.P (pre ++ j :: post) o = RC.P (pre ++ post) o + if RC.holds j o then 1 else 0 := RC.P_mid ..
  unfold refs at hr
  have hku : (∃ d, k.writes = some d ∧ vars[d]? = some (some (some o))) ∨ 0 < RC.P (pre ++ post) o := by
    rcases hu with hu | hu
    · exact Or.inl hu
    · rcases holds_of_pc hu with hh | ⟨d', hp⟩
      · exact Or.inr (RC.P_pos hk hh)
      · rw [hp] at hn; cases hn
  constructor
  · intro d hp
    rcases addRef_ref h mem_self hp with ha | ⟨src, h1, h2⟩
    · have := h.alone_refs mem_self ha
      simp only at this
      unfold refs at this
      omega
    · have hv := RC.V_pos h2
      rcases hku with ⟨d', h3, h4⟩ | h3
      · have := RC.V_two h4 h2 (fun e => (hc.2 d' h3).2 (by rw [h1, e]))
        omega
      · omega
  · intro hp
    have hh : RC.holds j o = true := by unfold RC.holds; rw [hp]; simp
    rw [hh, if_pos rfl] at hP
    rcases hku with ⟨d', h3, h4⟩ | h3
    · have := RC.V_pos h4
      omega
    · omega

theorem steady0 (h : RC.Inv ⟨objs, vars, pre ++ j :: post⟩) {k : Job} (hk : k ∈ pre ++ post) {o d : Nat} (hp : k.pc = .addRef d o)
    (hrd : k.reads = none) : (∀ d, j.pc ≠ .addRef d o) ∧ j.pc ≠ .relDec o := by
  have ha : RC.alone k o = true := by unfold RC.alone; rw [hp, hrd]; simp
  have hr := h.alone_refs (mem_mid hk) ha
  simp only at hr
  constructor
  · intro d' hp'
    rcases addRef_ref h mem_self hp' with ha' | ⟨src, h1, h2⟩
    · refine (excl_fresh h ha').1 k hk (Or.inr ?_)
      rw [hp]
    · have := RC.V_pos h2
      unfold refs at hr
      omega
  · intro hp'
    have hh : RC.holds j o = true := by unfold RC.holds; rw [hp']; simp
    have := RC.P_pos (mem_self (pre := pre) (post := post) (j := j)) hh
    unfold refs at hr
    omega

end excl

/-- nobody else uses body `o`: the calls in `l` and the variables other than `d` -/
def Private (s : State E) (l : List (Job × Task E)) (d o : Nat) : Prop :=
  (∀ k ∈ l, ¬ Uses s.vars k.1 o) ∧ ∀ v, v ≠ d → s.vars[v]? ≠ some (some (some o))

theorem J.inv {s : State E} {V : View E} (h : J s V) {pre post : List (Job × Task E)} {j : Job} {t : Task E}
    (hw : s.work = pre ++ (j, t) :: post) : RC.Inv ⟨s.objs, s.vars, pre.map (·.1) ++ j :: post.map (·.1)⟩ := by
  have := h.rc
  unfold State.rc at this
  rw [hw, List.map_append, List.map_cons] at this
  exact this

theorem mem_map_mid {pre post : List (Job × Task E)} {y : Job × Task E} (h : y ∈ pre ++ post) : y.1 ∈ pre.map (·.1) ++ post.map (·.1) := by
  rw [← List.map_append]; exact List.mem_map_of_mem h

/-- one action of call `pre.length` -/
theorem J.step {s : State E} {V : View E} (h : J s V) {pre post new : List (Job × Task E)} {j : Job} {t : Task E}
    (hw : s.work = pre ++ (j, t) :: post) {d : Nat} (hd : j.writes = some d) {s' : State E}
    (hw' : s'.work = pre ++ (new ++ post)) (hnew : ∀ y ∈ new, y.1.writes = some d ∧ TaskOk s' V y.1 d y.2)
    (hinv : RC.Inv s'.rc) (hB : s'.bodies.length = s'.objs.length) (hS : s'.shapes.length = s.shapes.length)
    (hvl : s'.vars.length = s.vars.length)
    (hv : ∀ v, v ≠ d → s'.vars[v]? = s.vars[v]? ∧ s'.shapes[v]? = s.shapes[v]?)
    (hb : ∀ o b, s.bodies[o]? = some b → s'.bodies[o]? = some b ∨ Private s (pre ++ post) d o)
    (hrefs : ∀ o, (∀ d, j.pc ≠ .addRef d o) → j.pc ≠ .relDec o → s'.refs o = s.refs o)
    (hend : new ≠ [] ∨ VarOk s' V d) (hcost : (new.map (cost s')).sum < cost s (j, t)) : J s' V ∧ total s' < total s := by
  have hi := h.inv hw
  have hrefs0 : ∀ o, s.refs o = refs s.vars (pre.map (·.1) ++ j :: post.map (·.1)) o := by
    intro o; unfold State.refs; rw [hw, List.map_append, List.map_cons]
  refine ⟨?_, ?_⟩
  rotate_left
  · have hsame : ∀ y ∈ pre ++ post, cost s' y = cost s y := by
      intro y hy
      have hc := ((RC.locks_mid hi.locks).2 _ (mem_map_mid hy)).1 d hd |>.1
      obtain ⟨d', h1, h2⟩ := h.tasks y (by rw [hw]; exact mem_mid hy)
      have hne : d' ≠ d := fun e => hc (by rw [h1, e])
      refine cost_frame h1 h2 (hv d' hne).2 fun o b hu hx => ?_
      rcases hb o b hx with hb | ⟨p1, _⟩
      · exact hb
      · exact absurd hu (p1 y hy)
    have e1 : pre.map (cost s') = pre.map (cost s) := List.map_congr_left fun y hy => hsame y (List.mem_append_left _ hy)
    have e2 : post.map (cost s') = post.map (cost s) := List.map_congr_left fun y hy => hsame y (List.mem_append_right _ hy)
    unfold total
    rw [hw', hw]
    simp only [List.map_append, List.map_cons, List.sum_append, List.sum_cons, e1, e2]
    omega
  refine h.update d (pre ++ post) ?_ ?_ ?_ ?_ hinv hB (by rw [hS, hvl]; exact h.lenS) (by rw [hvl]; exact h.lenV)
    (fun v hne => ⟨(hv v hne).1, (hv v hne).2, rfl⟩) ?_ ?_ ?_ ?_
  · intro y hy
    refine ⟨by rw [hw]; exact mem_mid hy, ?_⟩
    exact ((RC.locks_mid hi.locks).2 _ (mem_map_mid hy)).1 d hd |>.1
  · intro y hy
    rw [hw] at hy
    rcases List.mem_append.1 hy with hy | hy
    · exact Or.inl (List.mem_append_left _ hy)
    · rcases List.mem_cons.1 hy with rfl | hy
      · exact Or.inr hd
      · exact Or.inl (List.mem_append_right _ hy)
  · intro y hy
    rw [hw'] at hy
    rcases List.mem_append.1 hy with hy | hy
    · exact Or.inl (List.mem_append_left _ hy)
    · rcases List.mem_append.1 hy with hy | hy
      · exact Or.inr (hnew y hy)
      · exact Or.inl (List.mem_append_right _ hy)
  · intro y hy
    rw [hw']
    rcases List.mem_append.1 hy with hy | hy
    · exact List.mem_append_left _ hy
    · exact List.mem_append_right _ (List.mem_append_right _ hy)
  · intro o b hx hu
    rcases hb o b hx with hb | ⟨p1, p2⟩
    · exact hb
    · rcases hu with ⟨y, hy, hu⟩ | ⟨v, hne, hu⟩
      · exact absurd hu (p1 y hy)
      · exact absurd hu (p2 v hne)
  · intro y hy o hu hn h1
    have h1' := h1
    rw [hrefs0] at h1'
    obtain ⟨a, b⟩ := steady hi (mem_map_mid hy) hu hn h1'
    rw [hrefs o a b]; exact h1
  · intro y hy d' o hp hrd h0
    obtain ⟨a, b⟩ := steady0 hi (mem_map_mid hy) hp hrd
    rw [hrefs o a b]; exact h0
  · rcases hend with hn | hv
    · cases new with
      | nil => exact absurd rfl hn
      | cons y l => exact Or.inl ⟨y, by rw [hw']; simp, (hnew y (List.mem_cons_self ..)).1⟩
    · exact Or.inr hv

theorem advance_step {s : State E} {V : View E} (h : J s V) {pre post : List (Job × Task E)} {j : Job} {t : Task E}
    (hw : s.work = pre ++ (j, t) :: post) :
    ∃ objs' vars' r, Step s.objs s.vars j objs' vars' r ∧
      advance s pre.length = .ok (objs', vars', r.map fun pc => { j with pc := pc }) ∧
      RC.Inv ⟨objs', vars', pre.map (·.1) ++ (j.next r ++ post.map (·.1))⟩ := by
  obtain ⟨objs', vars', r, h1, h2, h3⟩ := RC.tick_step (h.inv hw)
  refine ⟨objs', vars', r, h1, ?_, h3⟩
  unfold advance
  have e : s.rc = ⟨s.objs, s.vars, pre.map (·.1) ++ j :: post.map (·.1)⟩ := by
    unfold State.rc; rw [hw, List.map_append, List.map_cons]
  rw [List.length_map] at h2
  rw [e, h2, res_bind_ok, hw]
  cases r with
  | none => simp [Job.next]
  | some pc => simp [Job.next]

theorem Step.objs_length {objs objs' : List RC.Obj} {vars vars' : RC.Vars} {j : Job} {r : Option Pc}
    (h : Step objs vars j objs' vars' r) (hj : ∀ d o, j.pc ≠ .unshare d o) : objs'.length = objs.length := by
  cases h with
  | fork e => exact absurd e (hj _ _)
  | _ => simp

theorem rank_step {objs objs' : List RC.Obj} {vars vars' : RC.Vars} {j : Job} {r : Option Pc}
    (h : Step objs vars j objs' vars' r) : ∀ pc, r = some pc → RC.rank pc < RC.rank j.pc := by
  intro pc hr
  cases h with
  | addRef e => cases hr; rw [e]; simp [RC.rank]
  | chk e => cases hr; rw [e]; simp [RC.rank]
  | storeRel e => cases hr; rw [e]; simp [RC.rank]
  | store e => cases hr
  | relAssert e => cases hr; rw [e]; simp [RC.rank]
  | relLast e => cases hr; rw [e]; simp [RC.rank]
  | relDec e => cases hr
  | del e => cases hr
  | keep e => cases hr; rw [e]; simp [RC.rank]
  | fork e => cases hr; rw [e]; simp [RC.rank]
  | write e => cases hr

theorem rank_pos (pc : Pc) : 0 < RC.rank pc := by cases pc <;> simp [RC.rank]

theorem refs_step {s : State E} {pre post new : List (Job × Task E)} {j : Job} {t : Task E} {r : Option Pc}
    (hw : s.work = pre ++ (j, t) :: post) {objs' objs'' : List RC.Obj} {vars' : RC.Vars} {bb : List (Body E)} {ss : List Shape}
    (hs : Step s.objs s.vars j objs' vars' r) (hm : new.map (·.1) = j.next r) (o : Nat) (h1 : ∀ d, j.pc ≠ .addRef d o) (h2 : j.pc ≠ .relDec o) :
    State.refs ⟨objs'', bb, vars', ss, pre ++ (new ++ post)⟩ o = s.refs o := by
  unfold State.refs
  rw [hw, List.map_append, List.map_append, List.map_append, hm, List.map_cons]
  exact hs.refs o h1 h2

theorem releases_step {objs objs' : List RC.Obj} {vars vars' : RC.Vars} {j : Job} {r : Option Pc}
    (h : Step objs vars j objs' vars' r) (hj : Releases j.pc) : vars' = vars ∧ ∀ pc, r = some pc → Releases pc := by
  cases h with
  | relAssert e => exact ⟨rfl, fun pc h => by cases h; trivial⟩
  | relLast e => exact ⟨rfl, fun pc h => by cases h; trivial⟩
  | relDec e => exact ⟨rfl, fun pc h => by cases h⟩
  | del e => exact ⟨rfl, fun pc h => by cases h⟩
  | addRef e => rw [e] at hj; exact absurd hj id
  | chk e => rw [e] at hj; exact absurd hj id
  | storeRel e => rw [e] at hj; exact absurd hj id
  | store e => rw [e] at hj; exact absurd hj id
  | keep e => rw [e] at hj; exact absurd hj id
  | fork e => rw [e] at hj; exact absurd hj id
  | write e => rw [e] at hj; exact absurd hj id

theorem bodyOf_ok {s : State E} {V : View E} (h : J s V) {o : Nat} {b : Body E} (hb : s.bodies[o]? = some b)
    (hp : 0 < RC.V s.vars o + RC.P (s.work.map (·.1)) o + RC.Z (s.work.map (·.1)) o) : bodyOf s o = .ok b := by
  obtain ⟨x, h1, h2, h3, _⟩ := RC.obj_ok h.rc o hp
  unfold bodyOf
  rw [h3, res_bind_ok, hb]

theorem bodyOf_var {s : State E} {V : View E} (h : J s V) {o d : Nat} {b : Body E} (hb : s.bodies[o]? = some b)
    (hv : s.vars[d]? = some (some (some o))) : bodyOf s o = .ok b :=
  bodyOf_ok h hb (by have := RC.V_pos hv; omega)

theorem shapeOf_ok {s : State E} {d : Nat} {p : Option Nat} {sh : Shape} (hv : s.vars[d]? = some (some p))
    (hs : s.shapes[d]? = some sh) : shapeOf s d = .ok sh := by unfold shapeOf; rw [hv, hs]

theorem ptrOf_ok {s : State E} {d : Nat} {p : Option Nat} (hv : s.vars[d]? = some (some p)) : ptrOf s d = .ok p := by
  unfold ptrOf; rw [hv]

end Strpp.ArrPar
