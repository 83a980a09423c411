import Verif.Proof.ArrParTick
/-! Every action of a call keeps the invariant of Arrays in several threads: the cases. -/
set_option linter.unusedSimpArgs false
set_option linter.unusedSectionVars false
set_option linter.unusedVariables false
namespace Strpp.ArrPar
open Arr (Body wrap)
open Spec
open RC (Pc Job refs Step)

variable {E : Type} [Inhabited E]

section
variable {s : State E} {V : View E} {pre post : List (Job × Task E)} {j : Job} {d : Nat}

theorem d_lt (h : J s V) {t : Task E} (hw : s.work = pre ++ (j, t) :: post) (hd : j.writes = some d) : d < s.vars.length :=
  (h.inv hw).bound j mem_self d (Or.inl hd)

theorem get_work {t : Task E} (hw : s.work = pre ++ (j, t) :: post) : s.work[pre.length]? = some (j, t) := by
  rw [hw]; simp

theorem set_work {t : Task E} (hw : s.work = pre ++ (j, t) :: post) (y : Job × Task E) :
    s.work.set pre.length y = pre ++ ([y] ++ post) := by rw [hw]; exact RC.set_mid ..

theorem erase_work {t : Task E} (hw : s.work = pre ++ (j, t) :: post) :
    s.work.eraseIdx pre.length = pre ++ ([] ++ post) := by rw [hw]; exact RC.erase_mid ..

theorem tick_plain (h : J s V) (hw : s.work = pre ++ (j, .plain) :: post) (hd : j.writes = some d)
    (ht : TaskOk s V j d .plain) : ∃ s', tick s pre.length = .ok s' ∧ J s' V ∧ total s' < total s := by
  obtain ⟨objs', vars', r, hs, ha, hi⟩ := advance_step h hw
  obtain ⟨h0, h1, h2, h3⟩ := ht
  have hlen : objs'.length = s.objs.length := Step.objs_length hs (fun d o e => by rw [e] at h1; exact h1)
  obtain ⟨hvv, hrel⟩ := releases_step hs h1
  subst hvv
  unfold tick
  rw [get_work hw]
  simp only [ha, res_bind_ok]
  cases r with
  | none =>
    simp only [Option.map_none]
    refine ⟨_, rfl, ?_⟩
    rw [erase_work hw]
    refine h.step hw hd (new := []) rfl (by simp) ?_ (by simpa [hlen] using h.lenB) rfl rfl (fun v _ => ⟨rfl, rfl⟩) (fun o b hb => Or.inl hb) ?_ (Or.inr ?_) (by simp [cost, rank_pos])
    · simpa [State.rc, Job.next] using hi
    · exact fun o a b => refs_step hw hs rfl o a b
    · unfold VarOk; simp only [h2, h3]
  | some pc =>
    simp only [Option.map_some]
    refine ⟨_, rfl, ?_⟩
    rw [set_work hw]
    refine h.step hw hd (new := [({ j with pc := pc }, .plain)]) rfl ?_ ?_ (by simpa [hlen] using h.lenB) rfl rfl (fun v _ => ⟨rfl, rfl⟩) (fun o b hb => Or.inl hb) ?_ (Or.inl (by simp)) (by simpa [cost] using rank_step hs pc rfl)
    · intro y hy
      rw [List.mem_singleton] at hy
      subst hy
      refine ⟨hd, h0, ?_, h2, h3⟩
      exact hrel pc rfl
    · simpa [State.rc, Job.next] using hi
    · exact fun o a b => refs_step hw hs rfl o a b

/-- an action of a call that is assigning `p` to `d` -/
theorem aim_step {objs objs' : List RC.Obj} {vars vars' : RC.Vars} {r : Option Pc} {p : Option Nat}
    (hs : Step objs vars j objs' vars' r) (hj : RC.JobOk vars j) (hd : j.writes = some d) (hlt : d < vars.length) (h : Aim vars d j.pc p) :
    (match r with
     | some pc => Aim vars' d pc p ∧ isAdd pc = false ∧ ((∃ q, vars[d]? = some (some q)) → ∃ q, vars'[d]? = some (some q))
     | none => vars'[d]? = some (some p)) := by
  have hdst : ∀ {d' q}, j.pc = .store d' q → d' = d := by
    intro d' q e
    unfold RC.JobOk at hj
    rw [e] at hj
    have := hj.1
    rw [hd] at this
    exact (Option.some.inj this).symm
  unfold Aim at h
  cases hs with
  | addRef e => rw [e] at h; exact ⟨h, rfl, id⟩
  | chk e => rw [e] at h; exact ⟨h, rfl, id⟩
  | storeRel e =>
    rw [e] at h
    have hdd := hdst e
    subst hdd
    subst h
    exact ⟨by simp [Aim, hlt], rfl, fun _ => ⟨p, by simp [hlt]⟩⟩
  | store e =>
    rw [e] at h
    have hdd := hdst e
    subst hdd
    subst h
    simp [hlt]
  | relAssert e => rw [e] at h; exact ⟨h, rfl, id⟩
  | relLast e => rw [e] at h; exact ⟨h, rfl, id⟩
  | relDec e => rw [e] at h; exact h
  | del e => rw [e] at h; exact h
  | keep e => rw [e] at h; exact absurd h id
  | fork e => rw [e] at h; exact absurd h id
  | write e => rw [e] at h; exact absurd h id

theorem not_unshare {vars : RC.Vars} {p : Option Nat} (h : Aim vars d j.pc p) : ∀ d o, j.pc ≠ .unshare d o := by
  intro d o e; rw [e] at h; exact h

theorem step_vars (h : J s V) {t : Task E} (hw : s.work = pre ++ (j, t) :: post) (hd : j.writes = some d)
    {objs' : List RC.Obj} {vars' : RC.Vars} {r : Option Pc} (hs : Step s.objs s.vars j objs' vars' r) :
    ∀ v, v ≠ d → vars'[v]? = s.vars[v]? := by
  intro v hv
  refine hs.vars ((h.inv hw).jobs j mem_self) ?_
  rw [hd]; intro e; exact hv (Option.some.inj e).symm

theorem tick_shape (h : J s V) {sh : Shape} (hw : s.work = pre ++ (j, .shape sh) :: post) (hd : j.writes = some d)
    (ht : TaskOk s V j d (.shape sh)) : ∃ s', tick s pre.length = .ok s' ∧ J s' V ∧ total s' < total s := by
  obtain ⟨objs', vars', r, hs, ha, hi⟩ := advance_step h hw
  obtain ⟨x, p, h1, h2, h3⟩ := ht
  have hlt := d_lt h hw hd
  have hlen : objs'.length = s.objs.length := Step.objs_length hs (not_unshare h2)
  have hnext := aim_step hs ((h.inv hw).jobs j mem_self) hd hlt h2
  have hvs := step_vars h hw hd hs
  unfold tick
  rw [get_work hw]
  simp only [ha, res_bind_ok]
  cases r with
  | none =>
    simp only [Option.map_none]
    refine ⟨_, rfl, ?_⟩
    rw [erase_work hw]
    have hdst : dst j = d := by unfold dst; rw [hd]; rfl
    rw [hdst]
    refine h.step hw hd (new := []) rfl (by simp) ?_ (by simpa [hlen] using h.lenB) (by simp) hs.vars_length (fun v hv => ⟨hvs v hv, ?_⟩) (fun o b hb => Or.inl hb) ?_ (Or.inr ?_) (by simp [cost, rank_pos])
    · simpa [State.rc, Job.next] using hi
    · exact List.getElem?_set_ne (fun e => hv e.symm)
    · exact fun o a b => refs_step hw hs rfl o a b
    · unfold VarOk
      simp only at hnext ⊢
      rw [hnext, h1]
      exact ⟨sh, by rw [List.getElem?_set_self (by rw [h.lenS]; exact hlt)], h3⟩
  | some pc =>
    simp only [Option.map_some]
    refine ⟨_, rfl, ?_⟩
    rw [set_work hw]
    refine h.step hw hd (new := [({ j with pc := pc }, .shape sh)]) rfl ?_ ?_ (by simpa [hlen] using h.lenB) rfl hs.vars_length (fun v hv => ⟨hvs v hv, rfl⟩) (fun o b hb => Or.inl hb) ?_ (Or.inl (by simp)) (by simpa [cost] using rank_step hs pc rfl)
    · intro y hy
      rw [List.mem_singleton] at hy
      subst hy
      exact ⟨hd, x, p, h1, hnext.1, h3⟩
    · simpa [State.rc, Job.next] using hi
    · exact fun o a b => refs_step hw hs rfl o a b

theorem fresh_ok {sh : Shape} {e : Edit E} (he : e.Ok ⟨0, sh.num⟩ sh.num) (hc : sh.num ≤ 2147483647) :
    ∃ b, fresh sh.num e = .ok b ∧ b.WF ∧ b.static = false ∧ b.num = 0 ∧ sh.num ≤ b.mem.length := by
  have hx : sh.num + extra e ≤ 2147483647 := by
    cases e with
    | push _ => have := he.2; exact this
    | _ => exact hc
  obtain ⟨b, h1, h2, h3, h4, _, h5⟩ := Arr.resize_spec (Body.empty : Body E) ⟨Nat.zero_le _, fun _ => rfl, (fun h => by cases h), Nat.zero_le _⟩ rfl (sh.num + extra e) (Nat.zero_le _) hx
  exact ⟨b, h1, h2, h3, h4, by omega⟩

theorem tick_unshare (h : J s V) {e : Edit E} (hw : s.work = pre ++ (j, .unshare e) :: post) (hd : j.writes = some d)
    (ht : TaskOk s V j d (.unshare e)) : ∃ s', tick s pre.length = .ok s' ∧ J s' V ∧ total s' < total s := by
  obtain ⟨objs', vars', r, hs, ha, hi⟩ := advance_step h hw
  obtain ⟨x, o, sh, b, h0, h1, h2, h3, h4, h5, h6, h7⟩ := ht
  have hdst : dst j = d := by unfold dst; rw [hd]; rfl
  obtain ⟨rd, wr, pc⟩ := j
  simp only at hd h0 h1
  subst hd h0 h1
  unfold tick
  rw [get_work hw]
  simp only [hdst]
  rw [shapeOf_ok h3 h4, res_bind_ok, ptrOf_ok h3, res_bind_ok, ha]
  have hcnt : ∀ y, s.objs[o]? = some y → y.count = (s.refs o : Int) := by
    intro y hy
    have := h.rc.objs o
    simp only [State.rc] at this
    rw [hy] at this
    exact this.1
  have hpos := RC.V_pos h3
  cases hs with
  | @keep d' o' y e' hy hc =>
    cases e'
    simp only [res_bind_ok, Option.map_some]
    have hb := bodyOf_var h h5 h3
    rw [hb, res_bind_ok]
    refine ⟨_, rfl, ?_⟩
    rw [set_work hw]
    have hr1 : s.refs o = 1 := by
      have := hcnt y hy
      unfold State.refs refs at *
      omega
    obtain ⟨b', hb1, hb2⟩ := runAll_edit h6 e h7
    have hrefs : ∀ o', State.refs { s with work := pre ++ ([(⟨none, some d, .write d o⟩, .write (micros sh b.num e) (newNum sh.num e))] ++ post) } o' = s.refs o' := by
      intro o'
      refine refs_step hw (.keep rfl hy hc) rfl o' (by simp) (by simp)
    refine h.step hw rfl rfl (new := [_]) ?_ ?_ h.lenB rfl rfl (fun v hv => ⟨rfl, rfl⟩) (fun o b hb => Or.inl hb) (fun o' _ _ => hrefs o') (Or.inl (by simp)) (by simp [cost, numAt, bodyNum, dst, h4, h5]; omega)
    · intro y hy
      rw [List.mem_singleton] at hy
      subst hy
      exact ⟨rfl, _, o, sh, b, b', rfl, rfl, h2, h3, h4, h5, hb1, hb2, by rw [hrefs]; exact hr1⟩
    · simpa [State.rc, Job.next] using hi
  | @fork d' o' y e' hy hc =>
    cases e'
    simp only [res_bind_ok, Option.map_some]
    have hle := h6.wf.cap
    have hfit := h6.fits
    have he' : e.Ok ⟨0, sh.num⟩ sh.num := by
      cases e with
      | set i e => exact h7
      | push e => exact ⟨rfl, by have := h7.2; omega⟩
      | remove i len => exact ⟨rfl, h7.2⟩
    obtain ⟨nb, hf, f1, f2, f3, f4⟩ := fresh_ok he' (by omega)
    rw [hf, res_bind_ok]
    refine ⟨_, rfl, ?_⟩
    rw [set_work hw]
    have hinv : RC.Inv (State.rc { s with objs := s.objs ++ [⟨0, true⟩], bodies := s.bodies ++ [nb], work := pre ++ ([(⟨none, some d, .addRef d s.objs.length⟩, .copying e (some o) 0)] ++ post) }) := by
      simpa [State.rc, Job.next] using hi
    refine h.step hw rfl rfl (new := [_]) ?_ hinv (by simp [h.lenB]) rfl rfl (fun v hv => ⟨rfl, rfl⟩) (fun o b hb => Or.inl (RC.get_append hb)) ?_ (Or.inl (by simp)) (by simp [cost, numAt, dst, h4, RC.rank]; omega)
    · intro y hy
      rw [List.mem_singleton] at hy
      subst hy
      refine ⟨rfl, x, s.objs.length, sh, nb, rfl, rfl, h2, h3, h4, ⟨b, RC.get_append h5, h6⟩, ?_, f1, f2, f3, f4, by omega, Nat.zero_le _, by simp, he', ?_⟩
      · rw [← h.lenB]; simp
      · exact RC.Inv.alone_refs hinv (k := ⟨none, some d, .addRef d s.objs.length⟩) (by simp [State.rc]) (by simp [RC.alone])
    · exact fun o' a b => refs_step hw (.fork rfl hy hc) rfl o' a b
  | addRef e' => cases e'
  | chk e' => cases e'
  | storeRel e' => cases e'
  | store e' => cases e'
  | relAssert e' => cases e'
  | relLast e' => cases e'
  | relDec e' => cases e'
  | del e' => cases e'
  | write e' => cases e'

theorem private_mid {o : Nat} (h : (∀ k ∈ pre.map (·.1) ++ post.map (·.1), ¬ Uses s.vars k o) ∧ ∀ v, v ≠ d → s.vars[v]? ≠ some (some (some o))) :
    Private s (pre ++ post) d o := ⟨fun k hk => h.1 _ (mem_map_mid hk), h.2⟩

theorem private_fresh (h : J s V) {t : Task E} (hw : s.work = pre ++ (j, t) :: post) {o : Nat} (ha : RC.alone j o = true) :
    Private s (pre ++ post) d o := private_mid ⟨(excl_fresh (h.inv hw) ha).1, fun v _ => (excl_fresh (h.inv hw) ha).2 v⟩

theorem refs_work {t : Task E} (hw : s.work = pre ++ (j, t) :: post) (o : Nat) :
    s.refs o = refs s.vars (pre.map (·.1) ++ j :: post.map (·.1)) o := by
  unfold State.refs; rw [hw, List.map_append, List.map_cons]

theorem private_owner (h : J s V) {t : Task E} (hw : s.work = pre ++ (j, t) :: post) {o : Nat} (hd : j.writes = some d)
    (hv : s.vars[d]? = some (some (some o))) (hr : s.refs o = 1) : Private s (pre ++ post) d o :=
  private_mid (excl_owner (h.inv hw) hd hv (by rw [← refs_work hw]; exact hr))

/-- the state after an action on the contents of body `o` only -/
theorem J.store {t t' : Task E} (h : J s V) (hw : s.work = pre ++ (j, t) :: post) (hd : j.writes = some d) {o : Nat} {b : Body E}
    (hp : Private s (pre ++ post) d o)
    (ht : TaskOk { s with bodies := s.bodies.set o b, work := pre ++ ([(j, t')] ++ post) } V j d t')
    (hc : cost { s with bodies := s.bodies.set o b, work := pre ++ ([(j, t')] ++ post) } (j, t') < cost s (j, t)) :
    J { s with bodies := s.bodies.set o b, work := pre ++ ([(j, t')] ++ post) } V ∧ total { s with bodies := s.bodies.set o b, work := pre ++ ([(j, t')] ++ post) } < total s := by
  have hm : (pre ++ ([(j, t')] ++ post)).map (·.1) = s.work.map (·.1) := by rw [hw]; simp
  refine h.step hw hd (new := [(j, t')]) rfl ?_ ?_ (by simpa using h.lenB) rfl rfl (fun v _ => ⟨rfl, rfl⟩) ?_ ?_ (Or.inl (by simp)) (by simpa using hc)
  · intro y hy
    rw [List.mem_singleton] at hy
    subst hy
    exact ⟨hd, ht⟩
  · have := h.rc
    unfold State.rc at *
    rw [hm]; exact this
  · intro o' b' hb
    by_cases he : o' = o
    · subst he; exact Or.inr hp
    · exact Or.inl ((List.getElem?_set_ne (fun e => he e.symm)).trans hb)
  · intro o' _ _
    unfold State.refs
    rw [hm]

theorem Fits.len {B : List (Body E)} {p : Option Nat} {sh : Shape} {x : Val E} (h : Fits B p sh x) : sh.num = x.items.length := by
  cases p with
  | none => obtain ⟨a, b, _⟩ := h; rw [a, b]; rfl
  | some o => obtain ⟨b, _, h2⟩ := h; exact h2.num

theorem Fits.front {B : List (Body E)} {p : Option Nat} {sh : Shape} {x : Val E} (h : Fits B p sh x) : x.front = true → sh.off = 0 := by
  cases p with
  | none => exact h.2.2
  | some o => obtain ⟨b, _, h2⟩ := h; exact h2.front

theorem tick_copying (h : J s V) {e : Edit E} {src : Option Nat} {k : Nat} (hw : s.work = pre ++ (j, .copying e src k) :: post)
    (hd : j.writes = some d) (ht : TaskOk s V j d (.copying e src k)) : ∃ s', tick s pre.length = .ok s' ∧ J s' V ∧ total s' < total s := by
  obtain ⟨x, o, sh, b, h0, h1, h2, h3, h4, h5, h6, h7, h8, h9, h10, h11, h12, h13, h14, h15⟩ := ht
  obtain ⟨rd', wr, pc⟩ := j
  simp only at hd h0 h1
  subst hd h0 h1
  have ha : RC.alone ⟨none, some d, .addRef d o⟩ o = true := by simp [RC.alone]
  have hpriv : Private s (pre ++ post) d o := private_fresh h hw ha
  have hZ : 0 < RC.Z (s.work.map (·.1)) o := RC.Z_pos (k := ⟨none, some d, .addRef d o⟩) (by rw [hw]; simp) ha
  have hne : ∀ o', s.vars[d]? = some (some (some o')) → o' ≠ o := by
    intro o' e1 e2
    subst e2
    exact (excl_fresh (h.inv hw) ha).2 d e1
  have hlo := RC.lt_of_get h6
  have hlen := h5.len
  unfold tick
  rw [get_work hw]
  simp only
  rw [shapeOf_ok h3 h4, res_bind_ok, bodyOf_ok h h6 (by omega), res_bind_ok]
  by_cases hk : k < sh.num
  · rw [if_pos hk]
    cases src with
    | none => obtain ⟨a, _⟩ := h5; omega
    | some o2 =>
      obtain ⟨b2, g1, g2⟩ := h5
      simp only
      have hle := g2.wf.le
      have hfit := g2.fits
      have hlt2 : sh.off + k < b2.mem.length := by omega
      rw [bodyOf_var h g1 h3, res_bind_ok, rd, List.getElem?_eq_getElem hlt2]
      simp only
      rw [res_bind_ok, Arr.wr_lt _ _ _ (by omega), res_bind_ok]
      refine ⟨_, rfl, ?_⟩
      rw [set_work hw]
      refine h.store hw rfl hpriv ⟨x, o, sh, { b with mem := b.mem.set k b2.mem[sh.off + k] }, rfl, rfl, h2, h3, h4, ⟨b2, ?_, g2⟩, ?_, ?_, h8, h9, ?_, h11, hk, ?_, h14, ?_⟩ (by simp [cost, numAt, dst, h4, RC.rank]; omega)
      · simp only [List.getElem?_set_ne (hne o2 h3).symm]; exact g1
      · exact List.getElem?_set_self hlo
      · exact ⟨by simpa using h7.le, fun hs => by simpa using h7.alloc hs, h7.static, h7.cap⟩
      · simpa using h10
      · have hit := g2.items
        have ek : x.items[k]? = some b2.mem[sh.off + k] := by
          rw [hit, List.getElem?_take, if_pos hk, List.getElem?_drop, List.getElem?_eq_getElem hlt2]
        show (b.mem.set k b2.mem[sh.off + k]).take (k + 1) = x.items.take (k + 1)
        rw [List.take_succ, List.take_succ, List.take_set, ek]
        rw [List.getElem?_set_self (by omega), List.set_eq_of_length_le (by rw [List.length_take]; omega), h13]
      · unfold State.refs at h15 ⊢
        rw [hw] at h15
        simpa using h15
  · rw [if_neg hk]
    obtain ⟨objs', vars', r, hs, hadv, hi⟩ := advance_step h hw
    rw [hadv]
    have hkk : k = sh.num := by omega
    subst hkk
    cases hs with
    | @addRef d' o' y e' hy =>
      cases e'
      simp only [res_bind_ok, Option.map_some]
      refine ⟨_, rfl, ?_⟩
      rw [set_work hw]
      have hinv : RC.Inv (State.rc { s with objs := s.objs.set o ⟨y.count + 1, y.live⟩, bodies := s.bodies.set o { b with num := sh.num }, work := pre ++ ([(⟨none, some d, .chk d o⟩, .swap e)] ++ post) }) := by
        simpa [State.rc, Job.next] using hi
      refine h.step hw rfl rfl (new := [_]) ?_ hinv (by simp [h.lenB]) rfl rfl (fun v hv => ⟨rfl, rfl⟩) ?_ ?_ (Or.inl (by simp)) (by simp [cost, numAt, dst, h4, RC.rank])
      · intro z hz
        rw [List.mem_singleton] at hz
        subst hz
        refine ⟨rfl, x, o, sh, _, rfl, rfl, rfl, h2, h4, List.getElem?_set_self hlo, ?_, h14, ?_, rfl, ⟨src, h3⟩⟩
        · refine ⟨⟨h10, h7.alloc, h7.static, h11⟩, h8, fun _ => rfl, hlen, by simp, ?_⟩
          simp only [List.drop_zero]
          rw [h13, hlen, List.take_length]
        · have h16 := hinv.objs o
          have h17 := h.rc.objs o
          simp only [State.rc] at h16 h17
          rw [hy] at h17
          rw [List.getElem?_set_self (RC.lt_of_get hy)] at h16
          have a := h16.1
          have c := h17.1
          unfold State.refs refs at *
          simp only at a c ⊢
          omega
      · intro o' b' hb
        by_cases he : o' = o
        · subst he; exact Or.inr hpriv
        · exact Or.inl ((List.getElem?_set_ne (fun e => he e.symm)).trans hb)
      · exact fun o' a b => refs_step hw (.addRef rfl hy) rfl o' a b
    | chk e' => cases e'
    | storeRel e' => cases e'
    | store e' => cases e'
    | relAssert e' => cases e'
    | relLast e' => cases e'
    | relDec e' => cases e'
    | del e' => cases e'
    | keep e' => cases e'
    | fork e' => cases e'
    | write e' => cases e'

theorem tick_swap (h : J s V) {e : Edit E} (hw : s.work = pre ++ (j, .swap e) :: post)
    (hd : j.writes = some d) (ht : TaskOk s V j d (.swap e)) : ∃ s', tick s pre.length = .ok s' ∧ J s' V ∧ total s' < total s := by
  obtain ⟨objs', vars', r, hs, ha, hi⟩ := advance_step h hw
  obtain ⟨x, o, sh, b, h0, h1, h2, h3, h4, h5, h6, h7, h8, hlen2, p, h9⟩ := ht
  have hdst : dst j = d := by unfold dst; rw [hd]; rfl
  have hlt := d_lt h hw hd
  have hlen : objs'.length = s.objs.length := Step.objs_length hs (not_unshare h2)
  have hnext := aim_step hs ((h.inv hw).jobs j mem_self) hd hlt h2
  have hvs := step_vars h hw hd hs
  have hnr : j.pc ≠ .relDec o := by
    intro e'
    rw [e'] at h2
    have hv := RC.V_pos h2
    have hp := RC.P_pos (jobs := s.work.map (·.1)) (k := j) (o := o) (by rw [hw]; simp) (by unfold RC.holds; rw [e']; simp)
    unfold State.refs refs at h8
    omega
  have hna : ∀ d, j.pc ≠ .addRef d o := by
    intro d' e'; rw [e'] at h1; cases h1
  unfold tick
  rw [get_work hw]
  simp only [hdst]
  rw [shapeOf_ok h9 h4, res_bind_ok, ha]
  cases r with
  | some pc =>
    simp only [Option.map_some, res_bind_ok]
    refine ⟨_, rfl, ?_⟩
    rw [set_work hw]
    refine h.step hw hd (new := [({ j with pc := pc }, .swap e)]) rfl ?_ ?_ (by simpa [hlen] using h.lenB) rfl hs.vars_length (fun v hv => ⟨hvs v hv, rfl⟩) (fun o b hb => Or.inl hb) ?_ (Or.inl (by simp)) (by have := rank_step hs pc rfl; simp [cost]; show _ + editCost (numAt s (dst j)).num e < _; omega)
    · intro y hy
      rw [List.mem_singleton] at hy
      subst hy
      refine ⟨hd, x, o, sh, b, h0, hnext.2.1, hnext.1, h3, h4, h5, h6, h7, ?_, hlen2, hnext.2.2 ⟨p, h9⟩⟩
      rw [refs_step hw hs rfl o hna hnr]; exact h8
    · simpa [State.rc, Job.next] using hi
    · exact fun o a b => refs_step hw hs rfl o a b
  | none =>
    simp only [Option.map_none, res_bind_ok, hnext, h5]
    refine ⟨_, rfl, ?_⟩
    rw [set_work hw]
    generalize ht' : Task.write (micros ⟨0, sh.num⟩ b.num e) (newNum sh.num e) = t'
    have hP : ∀ o', RC.P ((pre ++ ([((⟨none, some d, .write d o⟩ : Job), t')] ++ post)).map (·.1)) o' =
        RC.P ((pre ++ (([] : List (Job × Task E)) ++ post)).map (·.1)) o' := by
      intro o'
      have := RC.P_mid (pre.map (·.1)) (post.map (·.1)) ⟨none, some d, .write d o⟩ o'
      simpa [RC.holds] using this
    have hrefs : ∀ o', (∀ d, j.pc ≠ .addRef d o') → j.pc ≠ .relDec o' →
        State.refs ⟨objs', s.bodies, vars', s.shapes.set d ⟨0, sh.num⟩, pre ++ ([((⟨none, some d, .write d o⟩ : Job), t')] ++ post)⟩ o' = s.refs o' := by
      intro o' a c
      rw [← refs_step (new := []) (objs'' := objs') (bb := s.bodies) (ss := s.shapes) hw hs rfl o' a c]
      unfold State.refs refs
      rw [hP]
    refine h.step hw hd (new := [_]) rfl ?_ ?_ (by simpa [hlen] using h.lenB) (by simp) hs.vars_length (fun v hv => ⟨hvs v hv, ?_⟩) (fun o b hb => Or.inl hb) hrefs (Or.inl (by simp)) (by have := rank_pos j.pc; have hq := hlen2; rw [← ht']; simp [cost, editCost, numAt, hdst, h4, hq]; omega)
    · intro y hy
      rw [List.mem_singleton] at hy
      subst hy
      subst ht'
      obtain ⟨b', g1, g2⟩ := runAll_edit h6 e h7
      refine ⟨rfl, e.apply x, o, ⟨0, sh.num⟩, b, b', rfl, rfl, h3, hnext, List.getElem?_set_self (by rw [h.lenS]; exact hlt), h5, g1, g2, ?_⟩
      rw [hrefs o hna hnr]; exact h8
    · have hi' : RC.Inv ⟨objs', vars', pre.map (·.1) ++ post.map (·.1)⟩ := by simpa [Job.next] using hi
      have hput := hi'.put (j := ⟨none, some d, .write d o⟩) ⟨rfl, rfl, hnext⟩ (fun _ => rfl) (fun _ => rfl) ?_ ?_
      · simpa [State.rc] using hput
      · intro k hk
        have hc := (RC.locks_mid (h.inv hw).locks).2 k hk
        exact ⟨fun v hv => hc.1 v (by rw [hd]; exact hv), fun v hv => ⟨fun hv' => (hc.2 v hv).1 (by rw [hd]; exact hv'), by simp⟩⟩
      · intro v hv
        rw [hs.vars_length]
        rcases hv with hv | hv
        · cases hv; exact hlt
        · cases hv
    · exact List.getElem?_set_ne (fun e => hv e.symm)

theorem tick_write (h : J s V) {ms : List (Micro E)} {n : Nat} (hw : s.work = pre ++ (j, .write ms n) :: post)
    (hd : j.writes = some d) (ht : TaskOk s V j d (.write ms n)) : ∃ s', tick s pre.length = .ok s' ∧ J s' V ∧ total s' < total s := by
  obtain ⟨x, o, sh, b, b', h0, h1, h2, h3, h4, h5, h6, h7, h8⟩ := ht
  have hdst : dst j = d := by unfold dst; rw [hd]; rfl
  have hlt := d_lt h hw hd
  obtain ⟨rd', wr, pc⟩ := j
  simp only at hd h0 h1
  subst hd h0 h1
  unfold tick
  rw [get_work hw]
  cases ms with
  | nil =>
    simp only [hdst]
    obtain ⟨objs', vars', r, hs, ha, hi⟩ := advance_step h hw
    rw [shapeOf_ok h3 h4, res_bind_ok, ha]
    cases h6
    cases hs with
    | @write d' o' e' =>
      cases e'
      simp only [res_bind_ok]
      refine ⟨_, rfl, ?_⟩
      rw [erase_work hw]
      refine h.step hw rfl (new := []) rfl (by simp) ?_ h.lenB (by simp) rfl (fun v hv => ⟨rfl, ?_⟩) (fun o b hb => Or.inl hb) ?_ (Or.inr ?_) (by simp [cost])
      · simpa [State.rc, Job.next] using hi
      · exact List.getElem?_set_ne (fun e => hv e.symm)
      · exact fun o a b => refs_step hw (.write rfl) rfl o a b
      · unfold VarOk
        simp only
        rw [h3, h2]
        exact ⟨_, List.getElem?_set_self (by rw [h.lenS]; exact hlt), b, h5, h7⟩
    | addRef e' => cases e'
    | chk e' => cases e'
    | storeRel e' => cases e'
    | store e' => cases e'
    | relAssert e' => cases e'
    | relLast e' => cases e'
    | relDec e' => cases e'
    | del e' => cases e'
    | keep e' => cases e'
    | fork e' => cases e'
  | cons m ms =>
    simp only
    obtain ⟨b1, g1, g2⟩ := hbind h6
    obtain ⟨y, _, _, hy, hc, _⟩ := RC.obj_ok h.rc o (by have := RC.V_pos h3; simp only [State.rc]; omega)
    have hy1 : y.count = 1 := by
      rw [hc]
      have := h8
      unfold State.refs refs at this
      simp only [State.rc]
      omega
    rw [hy, res_bind_ok, bodyOf_var h h5 h3, res_bind_ok, hy1, g1, res_bind_ok]
    refine ⟨_, rfl, ?_⟩
    rw [set_work hw]
    refine h.store hw rfl (private_owner h hw rfl h3 h8) ⟨x, o, sh, b1, b', rfl, rfl, h2, h3, h4, List.getElem?_set_self (RC.lt_of_get h5), g2, h7, ?_⟩ (by simp [cost])
    unfold State.refs at h8 ⊢
    rw [hw] at h8
    simpa using h8

end

/-- every action of a call in progress can be made, and keeps the invariant -/
theorem tick_J {s : State E} {V : View E} (h : J s V) (i : Nat) : ∃ s', tick s i = .ok s' ∧ J s' V ∧ (i < s.work.length → total s' < total s) := by
  cases hi : s.work[i]? with
  | none => exact ⟨s, by unfold tick; rw [hi], h, fun hlt => by rw [List.getElem?_eq_getElem hlt] at hi; cases hi⟩
  | some y =>
    obtain ⟨j, t⟩ := y
    obtain ⟨pre, post, hw, rfl⟩ := RC.split_at hi
    obtain ⟨d, hd, ht⟩ := h.tasks (j, t) (by rw [hw]; exact mem_self)
    cases t with
    | plain => obtain ⟨s', h1, h2, h3⟩ := tick_plain h hw hd ht; exact ⟨s', h1, h2, fun _ => h3⟩
    | shape sh => obtain ⟨s', h1, h2, h3⟩ := tick_shape h hw hd ht; exact ⟨s', h1, h2, fun _ => h3⟩
    | unshare e => obtain ⟨s', h1, h2, h3⟩ := tick_unshare h hw hd ht; exact ⟨s', h1, h2, fun _ => h3⟩
    | copying e src k => obtain ⟨s', h1, h2, h3⟩ := tick_copying h hw hd ht; exact ⟨s', h1, h2, fun _ => h3⟩
    | swap e => obtain ⟨s', h1, h2, h3⟩ := tick_swap h hw hd ht; exact ⟨s', h1, h2, fun _ => h3⟩
    | write ms n => obtain ⟨s', h1, h2, h3⟩ := tick_write h hw hd ht; exact ⟨s', h1, h2, fun _ => h3⟩

end Strpp.ArrPar
