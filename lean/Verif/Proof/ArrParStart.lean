import Verif.Proof.ArrParTick2
/-! Starting a call keeps the invariant of Arrays in several threads. -/
set_option linter.unusedSimpArgs false
set_option linter.unusedSectionVars false
set_option linter.unusedVariables false
namespace Strpp.ArrPar
open Arr (Body wrap)
open Spec
open RC (Pc Job refs Step)

variable {E : Type} [Inhabited E]

section
variable {s : State E} {V : View E}

theorem J.grow (h : J s V) {s' : State E} {V' : View E} (d : Nat) {new : List (Job × Task E)}
    (hd : ∀ y ∈ s.work, y.1.writes ≠ some d) (hw' : s'.work = s.work ++ new)
    (hnew : ∀ y ∈ new, y.1.writes = some d ∧ TaskOk s' V' y.1 d y.2)
    (hinv : RC.Inv s'.rc) (hB : s'.bodies.length = s'.objs.length) (hS : s'.shapes.length = s'.vars.length)
    (hV : V'.length = s'.vars.length)
    (hv : ∀ v, v ≠ d → s'.vars[v]? = s.vars[v]? ∧ s'.shapes[v]? = s.shapes[v]? ∧ V'[v]? = V[v]?)
    (hb : ∀ (o : Nat) (b : Body E), s.bodies[o]? = some b → s'.bodies[o]? = some b)
    (hrefs : ∀ o, s'.refs o = s.refs o) (hend : new ≠ [] ∨ VarOk s' V' d) : J s' V' := by
  refine h.update d s.work (fun y hy => ⟨hy, hd y hy⟩) (fun y hy => Or.inl hy) ?_ ?_ hinv hB hS hV hv
    (fun o b ho _ => hb o b ho) (fun y _ o _ _ h1 => by rw [hrefs]; exact h1) (fun y _ _ o _ _ h1 => by rw [hrefs]; exact h1) ?_
  · intro y hy
    rw [hw'] at hy
    rcases List.mem_append.1 hy with hy | hy
    · exact Or.inl hy
    · exact Or.inr (hnew y hy)
  · intro y hy; rw [hw']; exact List.mem_append_left _ hy
  · rcases hend with hn | hv
    · cases new with
      | nil => exact absurd rfl hn
      | cons y l => exact Or.inl ⟨y, by rw [hw']; simp, (hnew y (List.mem_cons_self ..)).1⟩
    · exact Or.inr hv

theorem idle_rc {v : Nat} (h : Idle s v) : RC.canWrite s.rc v = true := by
  rw [RC.canWrite_iff]
  intro j hj
  simp only [State.rc] at hj
  obtain ⟨y, hy, rfl⟩ := List.mem_map.1 hj
  exact h y hy

theorem readable_rc {v : Nat} (h : Readable s v) : RC.canRead s.rc v = true := by
  rw [RC.canRead_iff]
  intro j hj
  simp only [State.rc] at hj
  obtain ⟨y, hy, rfl⟩ := List.mem_map.1 hj
  exact h y hy

theorem idle_readable {v : Nat} (h : Idle s v) : Readable s v := fun y hy => (h y hy).1

theorem new_readable (h : J s V) : ∀ y ∈ s.work, y.1.writes ≠ some s.vars.length := by
  intro y hy
  exact (RC.fresh_var h.rc y.1 (List.mem_map_of_mem hy)).1

theorem spawn_eq {c : RC.Call} {t : Task E} {objs : List RC.Obj} {vars : RC.Vars} {new : List Job}
    (h : RC.start s.rc c = ⟨objs, vars, s.work.map (·.1) ++ new⟩) :
    spawn s c t = { s with objs := objs, vars := vars, work := s.work ++ new.map fun j => (j, t) } := by
  unfold spawn
  simp only [h]
  rw [List.drop_left' (by simp)]

theorem spawn_inv {c : RC.Call} {t : Task E} (h : RC.Inv s.rc) {objs : List RC.Obj} {vars : RC.Vars} {new : List Job}
    (hs : RC.start s.rc c = ⟨objs, vars, s.work.map (·.1) ++ new⟩) :
    RC.Inv ⟨objs, vars, (s.work ++ new.map fun j => (j, t)).map (·.1)⟩ := by
  have := RC.start_inv h c
  rw [hs] at this
  rw [List.map_append, List.map_map]
  have e : (new.map ((fun x : Job × Task E => x.1) ∘ fun j => (j, t))) = new := by
    induction new with
    | nil => rfl
    | cons a l ih => simp [Function.comp_def]
  rw [e]; exact this

theorem get_other {α : Type} {l : List α} {x : α} {v : Nat} (h : v ≠ l.length) : (l ++ [x])[v]? = l[v]? := by
  rw [RC.get_push, if_neg h]

theorem get_other_set {α : Type} {l : List α} {x : α} {v d : Nat} (h : v ≠ d) : (l.set d x)[v]? = l[v]? :=
  List.getElem?_set_ne (fun e => h e.symm)

theorem refs_idle_job (vars : RC.Vars) (jobs : List Job) (j : Job) (o : Nat) (h : RC.holds j o = false) :
    refs vars (jobs ++ [j]) o = refs vars jobs o := by
  unfold refs
  rw [RC.P_append, h]
  simp

theorem refs_new_var (vars : RC.Vars) (jobs : List Job) (o : Nat) : refs (vars ++ [some none]) jobs o = refs vars jobs o := by
  unfold refs
  rw [RC.V_append]
  simp

theorem newNull_J (h : J s V) {x : Val E} (hx : x.items = []) : J (newNull s) (V ++ [some x]) := by
  refine h.grow s.vars.length (new := []) (new_readable h) (by simp [newNull]) (by simp) (RC.start_inv h.rc .null)
    h.lenB (by simp [newNull, h.lenS]) (by simp [newNull, h.lenV]) ?_ (fun o b hb => hb) ?_ (Or.inr ?_)
  · intro v hv
    refine ⟨get_other hv, get_other (by rw [h.lenS]; exact hv), get_other (by rw [h.lenV]; exact hv)⟩
  · intro o; exact refs_new_var ..
  · unfold VarOk
    simp only [newNull]
    rw [RC.get_push, if_pos rfl, ← h.lenV, RC.get_push, if_pos rfl]
    refine ⟨⟨0, 0⟩, ?_, rfl, hx, fun _ => rfl⟩
    rw [h.lenV, ← h.lenS, RC.get_push, if_pos rfl]

/-- a copy of the `Ref` of `w` is made for a variable of the given shape -/
theorem copy_J (h : J s V) {w : Nat} (hr : Readable s w) {p : Option Nat} (hv : s.vars[w]? = some (some p)) {sh : Shape} {x : Val E}
    (hf : Fits s.bodies p sh x) : J (spawn { s with shapes := s.shapes ++ [sh] } (.copy w) (.shape sh)) (V ++ [some x]) := by
  have hrc : State.rc { s with shapes := s.shapes ++ [sh] } = s.rc := rfl
  have hrr : RC.canRead ⟨s.objs, s.vars, s.work.map (·.1)⟩ w = true := readable_rc hr
  cases p with
  | none =>
    have e : RC.start (State.rc { s with shapes := s.shapes ++ [sh] }) (.copy w) = ⟨s.objs, s.vars ++ [some none], s.work.map (·.1) ++ []⟩ := by
      rw [hrc]
      simp [RC.start, State.rc, hv, hrr, RC.State.add]
    have hi := spawn_inv (t := .shape sh) h.rc (hrc ▸ e)
    rw [spawn_eq e]
    simp only [List.map_nil, List.append_nil] at hi ⊢
    refine h.grow s.vars.length (new := []) (new_readable h) (by simp) (by simp) hi h.lenB (by simp [h.lenS]) (by simp [h.lenV]) ?_ (fun o b hb => hb) (fun o => refs_new_var ..) (Or.inr ?_)
    · intro v hv
      exact ⟨get_other hv, get_other (by rw [h.lenS]; exact hv), get_other (by rw [h.lenV]; exact hv)⟩
    · unfold VarOk
      simp only
      rw [RC.get_push, if_pos rfl, ← h.lenV, RC.get_push, if_pos rfl]
      exact ⟨sh, by rw [h.lenV, ← h.lenS, RC.get_push, if_pos rfl], hf⟩
  | some o =>
    have e : RC.start (State.rc { s with shapes := s.shapes ++ [sh] }) (.copy w) =
        ⟨s.objs, s.vars ++ [some none], s.work.map (·.1) ++ [⟨some w, some s.vars.length, .addRef s.vars.length o⟩]⟩ := by
      rw [hrc]
      simp [RC.start, State.rc, hv, hrr, RC.State.add]
    have hi := spawn_inv (t := .shape sh) h.rc (hrc ▸ e)
    rw [spawn_eq e]
    simp only [List.map_cons, List.map_nil] at hi ⊢
    refine h.grow s.vars.length (new := [_]) (new_readable h) rfl ?_ hi h.lenB (by simp [h.lenS]) (by simp [h.lenV]) ?_ (fun o b hb => hb) ?_ (Or.inl (by simp))
    · intro y hy
      rw [List.mem_singleton] at hy
      subst hy
      exact ⟨rfl, x, some o, by rw [← h.lenV, RC.get_push, if_pos rfl], rfl, hf⟩
    · intro v hv
      exact ⟨get_other hv, get_other (by rw [h.lenS]; exact hv), get_other (by rw [h.lenV]; exact hv)⟩
    · intro o'
      unfold State.refs
      simp only [List.map_append, List.map_cons, List.map_nil]
      rw [refs_idle_job _ _ _ _ rfl, refs_new_var]

theorem assign_J (h : J s V) {v w : Nat} (hr : Readable s w) (hid : Idle s v) {p q : Option Nat} (hv : s.vars[w]? = some (some p))
    (hv' : s.vars[v]? = some (some q)) {sh : Shape} {x : Val E}
    (hf : Fits s.bodies p sh x) : J (spawn s (.assign v w) (.shape sh)) (V.set v (some x)) := by
  have hrr : RC.canRead ⟨s.objs, s.vars, s.work.map (·.1)⟩ w = true := readable_rc hr
  have hii : RC.canWrite ⟨s.objs, s.vars, s.work.map (·.1)⟩ v = true := idle_rc hid
  have hlt : v < V.length := by rw [h.lenV]; exact RC.lt_of_get hv'
  suffices hs : ∀ pc, (∀ o, RC.holds ⟨some w, some v, pc⟩ o = false) → Aim s.vars v pc p →
      RC.start s.rc (.assign v w) = ⟨s.objs, s.vars, s.work.map (·.1) ++ [⟨some w, some v, pc⟩]⟩ → J (spawn s (.assign v w) (.shape sh)) (V.set v (some x)) by
    cases p with
    | none =>
      refine hs (.store v none) (fun _ => rfl) rfl ?_
      simp [RC.start, State.rc, hv, hv', hrr, hii, RC.State.add]
    | some o =>
      refine hs (.addRef v o) (fun _ => rfl) rfl ?_
      simp [RC.start, State.rc, hv, hv', hrr, hii, RC.State.add]
  intro pc hh haim e
  have hi := spawn_inv (t := .shape sh) h.rc e
  rw [spawn_eq e]
  simp only [List.map_cons, List.map_nil] at hi ⊢
  refine h.grow v (new := [_]) (fun y hy => (hid y hy).1) rfl ?_ hi h.lenB h.lenS (by simp [h.lenV]) (fun u hu => ⟨rfl, rfl, get_other_set hu⟩) (fun o b hb => hb) ?_ (Or.inl (by simp))
  · intro y hy
    rw [List.mem_singleton] at hy
    subst hy
    exact ⟨rfl, x, p, by rw [List.getElem?_set_self hlt], haim, hf⟩
  · intro o'
    unfold State.refs
    simp only [List.map_append, List.map_cons, List.map_nil]
    rw [refs_idle_job _ _ _ _ (hh o')]

theorem destroy_J (h : J s V) {v : Nat} (hid : Idle s v) {p : Option Nat} (hv : s.vars[v]? = some (some p)) :
    J (spawn s (.destroy v) .plain) (V.set v none) := by
  have hii : RC.canWrite ⟨s.objs, s.vars, s.work.map (·.1)⟩ v = true := idle_rc hid
  have hlv := RC.lt_of_get hv
  have hlt : v < V.length := by rw [h.lenV]; exact hlv
  cases p with
  | none =>
    have e : RC.start s.rc (.destroy v) = ⟨s.objs, s.vars.set v none, s.work.map (·.1) ++ []⟩ := by
      simp [RC.start, State.rc, hv, hii, RC.State.add]
    have hi := spawn_inv (t := .plain) h.rc e
    rw [spawn_eq e]
    simp only [List.map_nil, List.append_nil] at hi ⊢
    refine h.grow v (new := []) (fun y hy => (hid y hy).1) (by simp) (by simp) hi h.lenB (by simp [h.lenS]) (by simp [h.lenV])
      (fun u hu => ⟨get_other_set hu, rfl, get_other_set hu⟩) (fun o b hb => hb) ?_ (Or.inr ?_)
    · intro o
      unfold State.refs refs
      have := RC.V_set (w' := none) hv o
      simp at this
      simp only [this]
    · unfold VarOk
      simp only
      rw [List.getElem?_set_self hlv, List.getElem?_set_self hlt]
      trivial
  | some o =>
    have e : RC.start s.rc (.destroy v) = ⟨s.objs, s.vars.set v none, s.work.map (·.1) ++ [⟨none, some v, .relAssert o⟩]⟩ := by
      simp [RC.start, State.rc, hv, hii, RC.State.add]
    have hi := spawn_inv (t := .plain) h.rc e
    rw [spawn_eq e]
    simp only [List.map_cons, List.map_nil] at hi ⊢
    refine h.grow v (new := [_]) (fun y hy => (hid y hy).1) rfl ?_ hi h.lenB (by simp [h.lenS]) (by simp [h.lenV])
      (fun u hu => ⟨get_other_set hu, rfl, get_other_set hu⟩) (fun o b hb => hb) ?_ (Or.inl (by simp))
    · intro y hy
      rw [List.mem_singleton] at hy
      subst hy
      exact ⟨rfl, rfl, trivial, List.getElem?_set_self hlv, List.getElem?_set_self hlt⟩
    · intro o'
      unfold State.refs refs
      have := RC.V_set (w' := none) hv o'
      simp only [List.map_append, List.map_cons, List.map_nil, RC.P_append, RC.holds]
      simp at this
      by_cases he : o = o'
      · subst he; simp at this ⊢; omega
      · simp [he] at this ⊢; omega

theorem ofData_J (h : J s V) {data : List E} {b : Body E} (h1 : b.WF) (h2 : b.static = false) (h3 : b.elems = data) (h4 : b.num = data.length) :
    J (spawn { s with bodies := s.bodies ++ [b], shapes := s.shapes ++ [⟨0, data.length⟩] } .construct (.shape ⟨0, data.length⟩))
      (V ++ [some ⟨data, true⟩]) := by
  have e : RC.start (State.rc { s with bodies := s.bodies ++ [b], shapes := s.shapes ++ [⟨0, data.length⟩] }) .construct =
      ⟨s.objs ++ [⟨0, true⟩], s.vars ++ [some none], s.work.map (·.1) ++ [⟨none, some s.vars.length, .addRef s.vars.length s.objs.length⟩]⟩ := rfl
  have hi := spawn_inv (s := s) (t := .shape ⟨0, data.length⟩) h.rc e
  rw [spawn_eq e]
  simp only [List.map_cons, List.map_nil] at hi ⊢
  refine h.grow s.vars.length (new := [_]) (new_readable h) rfl ?_ hi (by simp [h.lenB]) (by simp [h.lenS]) (by simp [h.lenV]) ?_ (fun o b hb => RC.get_append hb) ?_ (Or.inl (by simp))
  · intro y hy
    rw [List.mem_singleton] at hy
    subst hy
    refine ⟨rfl, ⟨data, true⟩, some s.objs.length, by rw [← h.lenV, RC.get_push, if_pos rfl], rfl, b, ?_, h1, h2, fun _ => rfl, rfl, ?_, ?_⟩
    · rw [← h.lenB]; simp
    · simp [h4]
    · simp only [List.drop_zero]
      rw [← h4, ← h3]; rfl
  · intro v hv
    exact ⟨get_other hv, get_other (by rw [h.lenS]; exact hv), get_other (by rw [h.lenV]; exact hv)⟩
  · intro o'
    unfold State.refs
    simp only [List.map_append, List.map_cons, List.map_nil]
    rw [refs_idle_job _ _ _ _ rfl, refs_new_var]

/-- a change of the shape of a variable nobody is using -/
theorem reshape_J (h : J s V) {v : Nat} (hid : Idle s v) {p : Option Nat} (hv : s.vars[v]? = some (some p)) {sh : Shape} {x : Val E}
    (hf : Fits s.bodies p sh x) : J { s with shapes := s.shapes.set v sh } (V.set v (some x)) := by
  have hlv := RC.lt_of_get hv
  refine h.grow v (new := []) (fun y hy => (hid y hy).1) (by simp) (by simp) h.rc h.lenB (by simp [h.lenS]) (by simp [h.lenV])
    (fun u hu => ⟨rfl, get_other_set hu, get_other_set hu⟩) (fun o b hb => hb) (fun o => rfl) (Or.inr ?_)
  unfold VarOk
  simp only
  rw [hv, List.getElem?_set_self (by rw [h.lenV]; exact hlv)]
  exact ⟨sh, List.getElem?_set_self (by rw [h.lenS]; exact hlv), hf⟩

theorem edit_J (h : J s V) {v : Nat} (hid : Idle s v) {p : Option Nat} (hv : s.vars[v]? = some (some p)) {sh : Shape} {x : Val E}
    (hs : s.shapes[v]? = some sh) (hf : Fits s.bodies p sh x) {e : Edit E}
    (he : ∀ o b, p = some o → s.bodies[o]? = some b → e.Ok sh b.num) (he0 : p = none → e.Ok ⟨0, sh.num⟩ sh.num) :
    ∃ s', edit s v e = .ok s' ∧ J s' (V.set v (some (e.apply x))) := by
  have hlv := RC.lt_of_get hv
  have hlt : v < V.length := by rw [h.lenV]; exact hlv
  have hii : RC.canWrite ⟨s.objs, s.vars, s.work.map (·.1)⟩ v = true := idle_rc hid
  unfold edit
  rw [shapeOf_ok hv hs, res_bind_ok, ptrOf_ok hv, res_bind_ok]
  cases p with
  | some o =>
    refine ⟨_, rfl, ?_⟩
    obtain ⟨b, hb, hsh⟩ := hf
    have e' : RC.start s.rc (.unshare v) = ⟨s.objs, s.vars, s.work.map (·.1) ++ [⟨none, some v, .unshare v o⟩]⟩ := by
      simp [RC.start, State.rc, hv, hii, RC.State.add]
    have hi := spawn_inv (t := .unshare e) h.rc e'
    rw [spawn_eq e']
    simp only [List.map_cons, List.map_nil] at hi ⊢
    refine h.grow v (new := [_]) (fun y hy => (hid y hy).1) rfl ?_ hi h.lenB h.lenS (by simp [h.lenV])
      (fun u hu => ⟨rfl, rfl, get_other_set hu⟩) (fun o b hb => hb) ?_ (Or.inl (by simp))
    · intro y hy
      rw [List.mem_singleton] at hy
      subst hy
      exact ⟨rfl, x, o, sh, b, rfl, rfl, List.getElem?_set_self hlt, hv, hs, hb, hsh, he o b rfl hb⟩
    · intro o'
      unfold State.refs
      simp only [List.map_append, List.map_cons, List.map_nil]
      rw [refs_idle_job _ _ _ _ rfl]
  | none =>
    have hok := he0 rfl
    have hn : sh.num = 0 := hf.1
    obtain ⟨nb, hfr, f1, f2, f3, f4⟩ := fresh_ok hok (by omega)
    simp only
    rw [hfr, res_bind_ok]
    refine ⟨_, rfl, ?_⟩
    have e' : RC.start (State.rc { s with bodies := s.bodies ++ [nb] }) (.assignNew v) =
        ⟨s.objs ++ [⟨0, true⟩], s.vars, s.work.map (·.1) ++ [⟨none, some v, .addRef v s.objs.length⟩]⟩ := by
      simp [RC.start, State.rc, hv, hii, RC.State.add]
    have hi := spawn_inv (s := s) (t := .copying e none 0) h.rc e'
    rw [spawn_eq e']
    simp only [List.map_cons, List.map_nil] at hi ⊢
    refine h.grow v (new := [_]) (fun y hy => (hid y hy).1) rfl ?_ hi (by simp [h.lenB]) h.lenS (by simp [h.lenV])
      (fun u hu => ⟨rfl, rfl, get_other_set hu⟩) (fun o b hb => RC.get_append hb) ?_ (Or.inl (by simp))
    · intro y hy
      rw [List.mem_singleton] at hy
      subst hy
      refine ⟨rfl, x, s.objs.length, sh, nb, rfl, rfl, List.getElem?_set_self hlt, hv, hs, hf, ?_, f1, f2, f3, f4, by omega, Nat.zero_le _, by simp, hok, ?_⟩
      · rw [← h.lenB]; simp
      · exact RC.Inv.alone_refs hi (k := ⟨none, some v, .addRef v s.objs.length⟩) (by simp) (by simp [RC.alone])
    · intro o'
      unfold State.refs
      simp only [List.map_append, List.map_cons, List.map_nil]
      rw [refs_idle_job _ _ _ _ rfl]

end

theorem at_eq {V : View E} {v : Nat} {x : Val E} (h : V[v]? = some (some x)) : V.at v = x := by
  unfold View.at; rw [h]; rfl

theorem assert_of {b : Bool} (h : b = true) : assert b = .ok () := by rw [h]; rfl

theorem Fits.cut {B : List (Body E)} {p : Option Nat} {sh : Shape} {x : Val E} (h : Fits B p sh x) (i n : Nat) (hn : i + n ≤ sh.num)
    {f : Bool} (hf : f = true → x.front = true ∧ i = 0) : Fits B p ⟨sh.off + i, n⟩ ⟨(x.items.drop i).take n, f⟩ := by
  cases p with
  | none =>
    obtain ⟨a, b, c⟩ := h
    have h1 : i = 0 := by omega
    have h2 : n = 0 := by omega
    subst h1 h2
    exact ⟨rfl, by simp, fun e => c (hf e).1⟩
  | some o =>
    obtain ⟨b, h1, h2⟩ := h
    have hfit := h2.fits
    have hnum := h2.num
    refine ⟨b, h1, h2.wf, h2.owned, ?_, ?_, ?_, ?_⟩
    · intro e
      obtain ⟨e1, e2⟩ := hf e
      have := h2.front e1
      simp only; omega
    · simp only [List.length_take, List.length_drop]; omega
    · simp only; omega
    · simp only
      rw [h2.items, List.drop_take, List.take_take, List.drop_drop]
      congr 1
      omega

theorem start_J {s : State E} {V : View E} (h : J s V) {c : Call E} (hl : Legal s V c) : ∃ s', start s c = .ok s' ∧ J s' (V.call c) := by
  cases c with
  | default => exact ⟨_, rfl, newNull_J h rfl⟩
  | ofData data allocate =>
    obtain ⟨b, h1, h2, h3, h4, h5⟩ := Arr.ofData_spec data allocate hl.1 hl.2
    simp only [start]
    rw [h1, res_bind_ok]
    exact ⟨_, rfl, ofData_J h h2 h3 h4 h5⟩
  | copy w =>
    obtain ⟨⟨x, hx⟩, hr⟩ := hl
    obtain ⟨p, sh, h1, h2, h3⟩ := h.live hr hx
    simp only [start]
    rw [shapeOf_ok h1 h2, res_bind_ok]
    refine ⟨_, rfl, ?_⟩
    rw [View.call, at_eq hx]
    exact copy_J h hr h1 h3
  | assign v w =>
    obtain ⟨⟨x, hx⟩, ⟨y, hy⟩, hr, hid⟩ := hl
    obtain ⟨p, sh, h1, h2, h3⟩ := h.live hr hx
    obtain ⟨q, sh', h1', h2', h3'⟩ := h.live (idle_readable hid) hy
    simp only [start]
    rw [shapeOf_ok h1 h2, res_bind_ok]
    refine ⟨_, rfl, ?_⟩
    rw [View.call, at_eq hx]
    exact assign_J h hr hid h1 h1' h3
  | destroy v =>
    obtain ⟨⟨y, hy⟩, hid⟩ := hl
    obtain ⟨q, sh', h1', h2', h3'⟩ := h.live (idle_readable hid) hy
    exact ⟨_, rfl, destroy_J h hid h1'⟩
  | slice w i len =>
    obtain ⟨⟨x, hx⟩, hr, hb⟩ := hl
    obtain ⟨p, sh, h1, h2, h3⟩ := h.live hr hx
    have hlen := h3.len
    rw [at_eq hx] at hb
    simp only [start, View.call]
    rw [shapeOf_ok h1 h2, res_bind_ok, at_eq hx]
    by_cases hc : sh.num ≤ i ∨ len = 0
    · rw [if_pos (by simpa using hc)]
      refine ⟨_, rfl, newNull_J h ?_⟩
      rcases hc with hc | hc
      · rw [List.drop_eq_nil_of_le (by omega)]; simp
      · subst hc; simp
    · rw [if_neg (by simpa using hc)]
      have hlt : i + len < sh.num := by omega
      have e : (if len > sh.num - i then sh.num - i else len) = len := by rw [if_neg (by omega)]
      rw [e]
      unfold newSlice
      rw [ptrOf_ok h1, res_bind_ok]
      cases p with
      | none => have := h3.1; omega
      | some o =>
        have hcut := h3.cut i len (by omega) (f := x.front && i == 0) (by simp)
        obtain ⟨b, g1, g2⟩ := h3
        have := g2.fits
        simp only
        rw [bodyOf_var h g1 h1, res_bind_ok, assert_of (by simp; omega), res_bind_ok, assert_of (by simp; omega), res_bind_ok]
        exact ⟨_, rfl, copy_J h hr h1 hcut⟩
  | clear v =>
    obtain ⟨⟨x, hx⟩, hid⟩ := hl
    obtain ⟨p, sh, h1, h2, h3⟩ := h.live (idle_readable hid) hx
    simp only [start, View.call]
    rw [shapeOf_ok h1 h2, res_bind_ok, at_eq hx]
    refine ⟨_, rfl, reshape_J h hid h1 ?_⟩
    have := h3.cut 0 0 (by omega) (f := x.front) (fun e => ⟨e, rfl⟩)
    simpa using this
  | remove v i len =>
    obtain ⟨⟨x, hx⟩, hid, hb, hor⟩ := hl
    obtain ⟨p, sh, h1, h2, h3⟩ := h.live (idle_readable hid) hx
    have hlen := h3.len
    rw [at_eq hx] at hb hor
    have hnw : wrap ((sh.num : Int) - len) = sh.num - len := by
      have : sh.num ≤ 2147483647 := by
        cases p with
        | none => have := h3.1; omega
        | some o => obtain ⟨b, _, g⟩ := h3; have := g.fits; have := g.wf.cap; omega
      unfold wrap; omega
    simp only [start, View.call]
    rw [shapeOf_ok h1 h2, res_bind_ok, at_eq hx, assert_of (by rw [hnw]; simp; omega), res_bind_ok]
    by_cases c1 : i = sh.num ∨ len = 0
    · rw [if_pos (by simpa using c1)]
      refine ⟨_, rfl, ?_⟩
      have e1 : x.items.take i ++ x.items.drop (i + len) = x.items := by
        rcases c1 with c1 | c1
        · rw [List.take_of_length_le (by omega), List.drop_eq_nil_of_le (by omega)]; simp
        · subst c1; simp
      have e2 : (x.front && !cutsStart x.items i len) = x.front := by
        have : cutsStart x.items i len = false := by
          unfold cutsStart
          simp
          omega
        rw [this]; simp
      rw [e1, e2]
      have := reshape_J h hid h1 h3
      have e3 : s.shapes.set v sh = s.shapes := by
        apply List.ext_getElem?
        intro k
        rw [List.getElem?_set]
        split
        · subst_vars; split
          · rw [h2]
          · rename_i hh; exact absurd (RC.lt_of_get h2) hh
        · rfl
      rw [e3] at this
      exact this
    · rw [if_neg (by simpa using c1)]
      by_cases c2 : i + len = sh.num
      · rw [if_pos (by simpa using c2)]
        refine ⟨_, rfl, reshape_J h hid h1 ?_⟩
        have e0 : cutsStart x.items i len = false := by unfold cutsStart; simp; omega
        have e1 : x.items.take i ++ x.items.drop (i + len) = x.items.take i := by
          rw [List.drop_eq_nil_of_le (by omega)]; simp
        have := h3.cut 0 (sh.num - len) (by omega) (f := x.front) (fun e => ⟨e, rfl⟩)
        rw [e0, e1]
        have e4 : sh.num - len = i := by omega
        rw [e4] at this ⊢
        simpa using this
      · rw [if_neg (by simpa using c2)]
        by_cases c3 : i = 0
        · rw [if_pos (by simpa using c3)]
          refine ⟨_, rfl, reshape_J h hid h1 ?_⟩
          subst c3
          have e0 : cutsStart x.items 0 len = true := by unfold cutsStart; simp; omega
          have := h3.cut len (sh.num - len) (by omega) (f := false) (by simp)
          rw [e0]
          rw [List.take_of_length_le (by simp; omega)] at this
          simpa using this
        · rw [if_neg (by simpa using c3)]
          have hfr : x.front = true := by
            rcases hor with a | a | a | a
            · exact absurd a c3
            · exact absurd (Or.inr a) c1
            · exact absurd (a.trans hlen.symm) c2
            · exact a
          have hc : cutsStart x.items i len = false := by unfold cutsStart; simp; omega
          have := edit_J h hid h1 h2 h3 (e := .remove i len) ?_ ?_
          · obtain ⟨s', g1, g2⟩ := this
            refine ⟨s', g1, ?_⟩
            rw [hc]
            simpa [Edit.apply] using g2
          · intro o b _ _
            exact ⟨h3.front hfr, by omega, by omega, by omega⟩
          · intro e; subst e; have := h3.1; omega
  | set v i e =>
    obtain ⟨⟨x, hx⟩, hid, hb⟩ := hl
    obtain ⟨p, sh, h1, h2, h3⟩ := h.live (idle_readable hid) hx
    have hlen := h3.len
    rw [at_eq hx] at hb
    simp only [start, View.call]
    have hp : p.isSome = true := by
      cases p with
      | none => have := h3.1; omega
      | some _ => rfl
    rw [shapeOf_ok h1 h2, res_bind_ok, at_eq hx, ptrOf_ok h1, res_bind_ok, assert_of (by rw [hp]; simp; omega), res_bind_ok]
    exact edit_J h hid h1 h2 h3 (e := .set i e) (fun o b _ _ => by show i < sh.num; omega) (fun _ => by show i < sh.num; omega)
  | push v e =>
    obtain ⟨⟨x, hx⟩, hid, hf, hroom⟩ := hl
    obtain ⟨p, sh, h1, h2, h3⟩ := h.live (idle_readable hid) hx
    rw [at_eq hx] at hf
    simp only [start, View.call]
    rw [at_eq hx]
    refine edit_J h hid h1 h2 h3 (e := .push e) (fun o b _ hb => ⟨h3.front hf, hroom b (List.mem_of_getElem? hb)⟩) ?_
    intro e
    subst e
    have := h3.1
    exact ⟨rfl, by omega⟩

theorem J.init : J (ArrPar.init : State E) [] := by
  refine ⟨RC.init_inv, rfl, rfl, rfl, ?_, ?_⟩
  · intro y hy; cases hy
  · intro v _; unfold VarOk; simp [ArrPar.init]

theorem history_J {s : State E} {V : View E} (h : History s V) : J s V := by
  induction h with
  | start => exact J.init
  | call c _ hl he ih =>
    obtain ⟨s', h1, h2⟩ := start_J ih hl
    rw [he] at h1; cases h1; exact h2
  | tick i _ he ih =>
    obtain ⟨s', h1, h2, _⟩ := tick_J ih i
    rw [he] at h1; cases h1; exact h2

end Strpp.ArrPar
