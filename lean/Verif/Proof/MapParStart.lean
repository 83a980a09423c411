import Verif.Proof.MapParTick
import Verif.Proof.ArrParStart
/-! Starting a call keeps the invariant of CowMaps in several threads. -/
set_option linter.unusedSimpArgs false
set_option linter.unusedSectionVars false
set_option linter.unusedVariables false
namespace Strpp.MapPar
open CM (FMap mfind minsert merase build Sorted StrictOrder)
open Spec
open RC (Pc Job refs Step)
open ArrPar (Aim Releases isAdd Uses get_other get_other_set refs_idle_job refs_new_var)

variable {K V : Type} [DecidableEq K] {lt : K → K → Bool}

section
variable {s : State K V} {A : View K V}

theorem J.grow (h : J lt s A) {s' : State K V} {A' : View K V} (d : Nat) {new : List (Job × Task K V)}
    (hd : ∀ y ∈ s.work, y.1.writes ≠ some d ∧ y.1.reads ≠ some d) (hw' : s'.work = s.work ++ new)
    (hnew : ∀ y ∈ new, y.1.writes = some d ∧ TaskOk lt s' A' y.1 d y.2 ∧ ∀ v x, y.1.reads = some v → v ≠ d → A[v]? = some (some x) → x.sole = false)
    (hinv : RC.Inv s'.rc) (hB : s'.bodies.length = s'.objs.length)
    (hV : A'.length = s'.vars.length)
    (hv : ∀ v, v ≠ d → s'.vars[v]? = s.vars[v]? ∧ A'[v]? = A[v]?)
    (hb : ∀ (o : Nat) (b : List (K × V)), s.bodies[o]? = some b → s'.bodies[o]? = some b)
    (hrefs : ∀ o, s'.refs o = s.refs o) (hend : new ≠ [] ∨ VarOk lt s' A' d) : J lt s' A' := by
  refine h.update d s.work (fun y hy => ⟨hy, (hd y hy).1, fun e => absurd e (hd y hy).2⟩) (fun y hy => Or.inl hy) ?_ ?_ hinv hB hV hv
    (fun o b ho _ => hb o b ho) (fun y _ o _ _ h1 => by rw [hrefs]; exact h1) (fun y _ _ o _ _ h1 => by rw [hrefs]; exact h1)
    (fun v o x _ _ _ _ _ h1 => by rw [hrefs]; exact h1) ?_
  · intro y hy
    rw [hw'] at hy
    rcases List.mem_append.1 hy with hy | hy
    · exact Or.inl hy
    · exact Or.inr (hnew y hy)
  · intro y hy; rw [hw']; exact List.mem_append_left _ hy
  · rcases hend with hn | hv
    · cases new with
      | nil => exact absurd rfl hn
      | cons y l => exact Or.inl ⟨y, by rw [hw']; simp, (hnew y (List.mem_cons_self ..)).1⟩
    · exact Or.inr hv

theorem idle_rc {v : Nat} (h : Idle s v) : RC.canWrite s.rc v = true := by
  rw [RC.canWrite_iff]
  intro j hj
  simp only [State.rc] at hj
  obtain ⟨y, hy, rfl⟩ := List.mem_map.1 hj
  exact h y hy

theorem readable_rc {v : Nat} (h : Readable s v) : RC.canRead s.rc v = true := by
  rw [RC.canRead_iff]
  intro j hj
  simp only [State.rc] at hj
  obtain ⟨y, hy, rfl⟩ := List.mem_map.1 hj
  exact h y hy

theorem idle_readable {v : Nat} (h : Idle s v) : Readable s v := fun y hy => (h y hy).1

theorem new_idle (h : J lt s A) : Idle s s.vars.length := by
  intro y hy
  exact RC.fresh_var h.rc y.1 (List.mem_map_of_mem hy)

theorem spawn_eq {c : RC.Call} {t : Task K V} {objs : List RC.Obj} {vars : RC.Vars} {new : List Job}
    (h : RC.start s.rc c = ⟨objs, vars, s.work.map (·.1) ++ new⟩) :
    spawn s c t = { s with objs := objs, vars := vars, work := s.work ++ new.map fun j => (j, t) } := by
  unfold spawn
  simp only [h]
  rw [List.drop_left' (by simp)]

theorem spawn_inv {c : RC.Call} {t : Task K V} (h : RC.Inv s.rc) {objs : List RC.Obj} {vars : RC.Vars} {new : List Job}
    (hs : RC.start s.rc c = ⟨objs, vars, s.work.map (·.1) ++ new⟩) :
    RC.Inv ⟨objs, vars, (s.work ++ new.map fun j => (j, t)).map (·.1)⟩ := by
  have := RC.start_inv h c
  rw [hs] at this
  rw [List.map_append, List.map_map]
  have e : (new.map ((fun x : Job × Task K V => x.1) ∘ fun j => (j, t))) = new := by
    induction new with
    | nil => rfl
    | cons a l ih => simp [Function.comp_def]
  rw [e]; exact this

/-- A map that is going to be copied is not sole any more. -/
theorem J.shared (h : J lt s A) {w : Nat} (hr : Readable s w) {x : Val K V} (hx : A[w]? = some (some x)) : J lt s (A.set w (some ⟨x.items, false⟩)) := by
  have hlt : w < A.length := RC.lt_of_get hx
  refine ⟨h.rc, h.lenB, by simpa using h.lenV, ?_, ?_, ?_⟩
  · intro y hy
    obtain ⟨d, h1, h2⟩ := h.tasks y hy
    have hne : d ≠ w := fun e => hr y hy (by rw [h1, e])
    exact ⟨d, h1, h2.frame h1 rfl (get_other_set hne) (fun _ _ _ e => e) (fun _ _ _ e => e) (fun _ _ _ _ e => e)⟩
  · intro v hv
    by_cases he : v = w
    · subst he
      obtain ⟨o, m, h1, h2, h3, _⟩ := h.live hv hx
      unfold VarOk
      rw [h1, List.getElem?_set_self hlt]
      exact ⟨m, h2, h3, fun e => by cases e⟩
    · exact (h.vars v hv).frame rfl (get_other_set he) (fun _ _ _ e => e) (fun _ _ _ _ _ e => e)
  · intro y hy v z h1 h2 h3
    by_cases he : v = w
    · subst he
      rw [List.getElem?_set_self hlt] at h3
      cases h3; rfl
    · rw [get_other_set he] at h3
      exact h.read y hy v z h1 h2 h3

theorem copy_J (h : J lt s A) {w o : Nat} (hr : Readable s w) (hv : s.vars[w]? = some (some (some o))) {m : List (K × V)} {f : FMap K V}
    (hm : s.bodies[o]? = some m) (hs : Shows lt m f) (hw : ∀ x, A[w]? = some (some x) → x.sole = false) :
    J lt (spawn s (.copy w) .plain) (A ++ [some ⟨f, false⟩]) := by
  have hrr : RC.canRead ⟨s.objs, s.vars, s.work.map (·.1)⟩ w = true := readable_rc hr
  have e : RC.start s.rc (.copy w) = ⟨s.objs, s.vars ++ [some none], s.work.map (·.1) ++ [⟨some w, some s.vars.length, .addRef s.vars.length o⟩]⟩ := by
    simp [RC.start, State.rc, hv, hrr, RC.State.add]
  have hi := spawn_inv (t := .plain) h.rc e
  rw [spawn_eq e]
  simp only [List.map_cons, List.map_nil] at hi ⊢
  refine h.grow s.vars.length (new := [_]) (new_idle h) rfl ?_ hi h.lenB (by simp [h.lenV]) ?_ (fun o b hb => hb) ?_ (Or.inl (by simp))
  · intro y hy
    rw [List.mem_singleton] at hy
    subst hy
    refine ⟨rfl, Or.inr ⟨f, o, m, by rw [← h.lenV, RC.get_push, if_pos rfl], rfl, hm, hs⟩, ?_⟩
    intro v x hrd _ hx
    cases hrd
    exact hw x hx
  · intro v hv
    exact ⟨get_other hv, get_other (by rw [h.lenV]; exact hv)⟩
  · intro o'
    unfold State.refs
    simp only [List.map_append, List.map_cons, List.map_nil]
    rw [refs_idle_job _ _ _ _ rfl, refs_new_var]

theorem assign_J (h : J lt s A) {v w o : Nat} {q : Option Nat} (hr : Readable s w) (hid : Idle s v) (hv : s.vars[w]? = some (some (some o)))
    (hv' : s.vars[v]? = some (some q)) {m : List (K × V)} {f : FMap K V}
    (hm : s.bodies[o]? = some m) (hs : Shows lt m f) (hw : ∀ x, A[w]? = some (some x) → x.sole = false) :
    J lt (spawn s (.assign v w) .plain) (A.set v (some ⟨f, false⟩)) := by
  have hrr : RC.canRead ⟨s.objs, s.vars, s.work.map (·.1)⟩ w = true := readable_rc hr
  have hii : RC.canWrite ⟨s.objs, s.vars, s.work.map (·.1)⟩ v = true := idle_rc hid
  have hlt : v < A.length := by rw [h.lenV]; exact RC.lt_of_get hv'
  have e : RC.start s.rc (.assign v w) = ⟨s.objs, s.vars, s.work.map (·.1) ++ [⟨some w, some v, .addRef v o⟩]⟩ := by
    simp [RC.start, State.rc, hv, hv', hrr, hii, RC.State.add]
  have hi := spawn_inv (t := .plain) h.rc e
  rw [spawn_eq e]
  simp only [List.map_cons, List.map_nil] at hi ⊢
  refine h.grow v (new := [_]) hid rfl ?_ hi h.lenB (by simp [h.lenV]) (fun u hu => ⟨rfl, get_other_set hu⟩) (fun o b hb => hb) ?_ (Or.inl (by simp))
  · intro y hy
    rw [List.mem_singleton] at hy
    subst hy
    refine ⟨rfl, Or.inr ⟨f, o, m, by rw [List.getElem?_set_self hlt], rfl, hm, hs⟩, ?_⟩
    intro u x hrd _ hx
    cases hrd
    exact hw x hx
  · intro o'
    unfold State.refs
    simp only [List.map_append, List.map_cons, List.map_nil]
    rw [refs_idle_job _ _ _ _ rfl]

theorem destroy_J (h : J lt s A) {v o : Nat} (hid : Idle s v) (hv : s.vars[v]? = some (some (some o))) :
    J lt (spawn s (.destroy v) .plain) (A.set v none) := by
  have hii : RC.canWrite ⟨s.objs, s.vars, s.work.map (·.1)⟩ v = true := idle_rc hid
  have hlv := RC.lt_of_get hv
  have hlt : v < A.length := by rw [h.lenV]; exact hlv
  have e : RC.start s.rc (.destroy v) = ⟨s.objs, s.vars.set v none, s.work.map (·.1) ++ [⟨none, some v, .relAssert o⟩]⟩ := by
    simp [RC.start, State.rc, hv, hii, RC.State.add]
  have hi := spawn_inv (t := .plain) h.rc e
  rw [spawn_eq e]
  simp only [List.map_cons, List.map_nil] at hi ⊢
  refine h.grow v (new := [_]) hid rfl ?_ hi h.lenB (by simp [h.lenV])
    (fun u hu => ⟨get_other_set hu, get_other_set hu⟩) (fun o b hb => hb) ?_ (Or.inl (by simp))
  · intro y hy
    rw [List.mem_singleton] at hy
    subst hy
    exact ⟨rfl, Or.inl ⟨rfl, trivial, List.getElem?_set_self hlv, List.getElem?_set_self hlt⟩, fun _ _ e => by cases e⟩
  · intro o'
    unfold State.refs refs
    have := RC.V_set (w' := none) hv o'
    simp only [List.map_append, List.map_cons, List.map_nil, RC.P_append, RC.holds]
    simp at this
    by_cases he : o = o'
    · subst he; simp at this ⊢; omega
    · simp [he] at this ⊢; omega

theorem construct_J (h : J lt s A) (es : List (Edit K V)) :
    J lt (spawn { s with bodies := s.bodies ++ [[]] } .construct (.fill es)) (A ++ [some ⟨applyAll FMap.empty es, true⟩]) := by
  have e : RC.start (State.rc { s with bodies := s.bodies ++ [[]] }) .construct =
      ⟨s.objs ++ [⟨0, true⟩], s.vars ++ [some none], s.work.map (·.1) ++ [⟨none, some s.vars.length, .addRef s.vars.length s.objs.length⟩]⟩ := rfl
  have hi := spawn_inv (s := s) (t := .fill es) h.rc e
  rw [spawn_eq e]
  simp only [List.map_cons, List.map_nil] at hi ⊢
  refine h.grow s.vars.length (new := [_]) (new_idle h) rfl ?_ hi (by simp [h.lenB]) (by simp [h.lenV]) ?_ (fun o b hb => RC.get_append hb) ?_ (Or.inl (by simp))
  · intro y hy
    rw [List.mem_singleton] at hy
    subst hy
    refine ⟨rfl, ⟨FMap.empty, s.objs.length, [], rfl, by rw [← h.lenV, RC.get_push, if_pos rfl], rfl, ?_, Shows.empty, ?_⟩, fun _ _ e => by cases e⟩
    · rw [← h.lenB]; simp
    · exact RC.Inv.alone_refs hi (k := ⟨none, some s.vars.length, .addRef s.vars.length s.objs.length⟩) (by simp) (by simp [RC.alone])
  · intro v hv
    exact ⟨get_other hv, get_other (by rw [h.lenV]; exact hv)⟩
  · intro o'
    unfold State.refs
    simp only [List.map_append, List.map_cons, List.map_nil]
    rw [refs_idle_job _ _ _ _ rfl, refs_new_var]

theorem clear_J (h : J lt s A) {v : Nat} (hid : Idle s v) {p : Option Nat} (hv : s.vars[v]? = some (some p)) :
    J lt (spawn { s with bodies := s.bodies ++ [[]] } (.assignNew v) (.fill [])) (A.set v (some ⟨FMap.empty, true⟩)) := by
  have hii : RC.canWrite ⟨s.objs, s.vars, s.work.map (·.1)⟩ v = true := idle_rc hid
  have hlt : v < A.length := by rw [h.lenV]; exact RC.lt_of_get hv
  have e : RC.start (State.rc { s with bodies := s.bodies ++ [[]] }) (.assignNew v) =
      ⟨s.objs ++ [⟨0, true⟩], s.vars, s.work.map (·.1) ++ [⟨none, some v, .addRef v s.objs.length⟩]⟩ := by
    simp [RC.start, State.rc, hv, hii, RC.State.add]
  have hi := spawn_inv (s := s) (t := .fill ([] : List (Edit K V))) h.rc e
  rw [spawn_eq e]
  simp only [List.map_cons, List.map_nil] at hi ⊢
  refine h.grow v (new := [_]) hid rfl ?_ hi (by simp [h.lenB]) (by simp [h.lenV])
      (fun u hu => ⟨rfl, get_other_set hu⟩) (fun o b hb => RC.get_append hb) ?_ (Or.inl (by simp))
  · intro y hy
    rw [List.mem_singleton] at hy
    subst hy
    refine ⟨rfl, ⟨FMap.empty, s.objs.length, [], rfl, List.getElem?_set_self hlt, rfl, ?_, Shows.empty, ?_⟩, fun _ _ e => by cases e⟩
    · rw [← h.lenB]; simp
    · exact RC.Inv.alone_refs hi (k := ⟨none, some v, .addRef v s.objs.length⟩) (by simp) (by simp [RC.alone])
  · intro o'
    unfold State.refs
    simp only [List.map_append, List.map_cons, List.map_nil]
    rw [refs_idle_job _ _ _ _ rfl]

/-- a call that begins with Unshare or, in `put`, with looking for the key -/
theorem edit_J (h : J lt s A) {v o : Nat} (hid : Idle s v) (hv : s.vars[v]? = some (some (some o))) {t : Task K V} {f : FMap K V}
    (ht : TaskOk lt { s with work := s.work ++ [(⟨none, some v, .unshare v o⟩, t)] } (A.set v (some ⟨f, true⟩)) ⟨none, some v, .unshare v o⟩ v t) :
    J lt (spawn s (.unshare v) t) (A.set v (some ⟨f, true⟩)) := by
  have hii : RC.canWrite ⟨s.objs, s.vars, s.work.map (·.1)⟩ v = true := idle_rc hid
  have e' : RC.start s.rc (.unshare v) = ⟨s.objs, s.vars, s.work.map (·.1) ++ [⟨none, some v, .unshare v o⟩]⟩ := by
    simp [RC.start, State.rc, hv, hii, RC.State.add]
  have hi := spawn_inv (t := t) h.rc e'
  rw [spawn_eq e']
  simp only [List.map_cons, List.map_nil] at hi ⊢
  refine h.grow v (new := [_]) hid rfl ?_ hi h.lenB (by simp [h.lenV])
    (fun u hu => ⟨rfl, get_other_set hu⟩) (fun o b hb => hb) ?_ (Or.inl (by simp))
  · intro y hy
    rw [List.mem_singleton] at hy
    subst hy
    exact ⟨rfl, ht, fun _ _ e => by cases e⟩
  · intro o'
    unfold State.refs
    simp only [List.map_append, List.map_cons, List.map_nil]
    rw [refs_idle_job _ _ _ _ rfl]

theorem refs_unshare (s : State K V) (v o o' : Nat) (t : Task K V) :
    State.refs { s with work := s.work ++ [(⟨none, some v, .unshare v o⟩, t)] } o' = s.refs o' := by
  unfold State.refs
  simp only [List.map_append, List.map_cons, List.map_nil]
  rw [refs_idle_job _ _ _ _ rfl]

end

theorem at_eq {A : View K V} {v : Nat} {x : Val K V} (h : A[v]? = some (some x)) : A.at v = x := by
  unfold View.at; rw [h]; rfl

theorem applyAll_pairs (es : List (K × V)) : applyAll FMap.empty (es.map fun e => .ins e.1 e.2) = FMap.ofPairs es := by
  have key : ∀ (es : List (K × V)) (f : FMap K V) (k : K),
      applyAll f (es.map fun e => .ins e.1 e.2) k = if (f k).isSome then f k else FMap.ofPairs es k := by
    intro es
    induction es with
    | nil =>
      intro f k
      show f k = _
      cases hf : f k <;> simp [FMap.ofPairs]
    | cons e es ih =>
      intro f k
      show applyAll (inserted f e.1 e.2) (es.map fun e => .ins e.1 e.2) k = _
      rw [ih]
      unfold inserted FMap.update FMap.ofPairs
      by_cases hk : k = e.1
      · subst hk
        cases hf : f e.1 <;> simp [hf]
      · have hk' : ¬ e.1 = k := fun e => hk e.symm
        cases hf : f e.1 <;> simp [hf, hk, hk', List.find?_cons]
  funext k
  rw [key]
  rfl

theorem start_J {s : State K V} {A : View K V} (h : J lt s A) {c : Call K V} (hl : Legal s A c) : ∃ s', start s c = .ok s' ∧ J lt s' (A.call c) := by
  cases c with
  | default => exact ⟨_, rfl, construct_J h []⟩
  | ofPairs es =>
    refine ⟨_, rfl, ?_⟩
    simp only [View.call]
    rw [← applyAll_pairs]
    exact construct_J h _
  | copy w =>
    obtain ⟨⟨x, hx⟩, hr⟩ := hl
    obtain ⟨o, m, h1, h2, h3, _⟩ := h.live hr hx
    refine ⟨_, rfl, ?_⟩
    rw [View.call, at_eq hx]
    refine copy_J (h.shared hr hx) hr h1 h2 h3 ?_
    intro z hz
    rw [List.getElem?_set_self (RC.lt_of_get hx)] at hz
    cases hz; rfl
  | assign v w =>
    obtain ⟨⟨x, hx⟩, ⟨y, hy⟩, hr, hid⟩ := hl
    obtain ⟨o, m, h1, h2, h3, _⟩ := h.live hr hx
    obtain ⟨o', m', h1', _⟩ := h.live (idle_readable hid) hy
    refine ⟨_, rfl, ?_⟩
    rw [View.call, at_eq hx]
    refine assign_J (h.shared hr hx) hr hid h1 h1' h2 h3 ?_
    intro z hz
    rw [List.getElem?_set_self (RC.lt_of_get hx)] at hz
    cases hz; rfl
  | destroy v =>
    obtain ⟨⟨y, hy⟩, hid⟩ := hl
    obtain ⟨o, m, h1, _⟩ := h.live (idle_readable hid) hy
    exact ⟨_, rfl, destroy_J h hid h1⟩
  | clear v =>
    obtain ⟨⟨y, hy⟩, hid⟩ := hl
    obtain ⟨o, m, h1, _⟩ := h.live (idle_readable hid) hy
    exact ⟨_, rfl, clear_J h hid h1⟩
  | insert v k x =>
    obtain ⟨⟨y, hy⟩, hid⟩ := hl
    obtain ⟨o, m, h1, h2, h3, h4⟩ := h.live (idle_readable hid) hy
    simp only [start, View.call]
    rw [ptrOf_ok h1, res_bind_ok, at_eq hy]
    exact ⟨_, rfl, edit_J h hid h1 ⟨y.items, o, m, rfl, rfl, List.getElem?_set_self (RC.lt_of_get hy), h1, h2, h3⟩⟩
  | remove v k =>
    obtain ⟨⟨y, hy⟩, hid⟩ := hl
    obtain ⟨o, m, h1, h2, h3, h4⟩ := h.live (idle_readable hid) hy
    simp only [start, View.call]
    rw [ptrOf_ok h1, res_bind_ok, at_eq hy]
    exact ⟨_, rfl, edit_J h hid h1 ⟨y.items, o, m, rfl, rfl, List.getElem?_set_self (RC.lt_of_get hy), h1, h2, h3⟩⟩
  | put v k x =>
    obtain ⟨⟨y, hy⟩, hid, hor⟩ := hl
    obtain ⟨o, m, h1, h2, h3, h4⟩ := h.live (idle_readable hid) hy
    simp only [start, View.call]
    rw [at_eq hy] at hor
    rw [ptrOf_ok h1, res_bind_ok, at_eq hy]
    refine ⟨_, rfl, edit_J h hid h1 ⟨y.items, o, m, rfl, rfl, List.getElem?_set_self (RC.lt_of_get hy), h1, h2, h3, fun hk => ?_⟩⟩
    rw [refs_unshare]
    rcases hor with hor | hor
    · rw [Option.isNone_iff_eq_none] at hor
      rw [hor] at hk; cases hk
    · exact h4 hor

theorem J.init : J lt (MapPar.init : State K V) [] := by
  refine ⟨RC.init_inv, rfl, rfl, ?_, ?_, ?_⟩
  · intro y hy; cases hy
  · intro v _; unfold VarOk; simp [MapPar.init]
  · intro y hy; cases hy

theorem history_J (od : StrictOrder lt) {s : State K V} {A : View K V} (h : History lt s A) : J lt s A := by
  induction h with
  | start => exact J.init
  | call c _ hl he ih =>
    obtain ⟨s', h1, h2⟩ := start_J ih hl
    rw [he] at h1; cases h1; exact h2
  | tick i _ he ih =>
    obtain ⟨s', h1, h2, _⟩ := tick_J od ih i
    rw [he] at h1; cases h1; exact h2

end Strpp.MapPar
