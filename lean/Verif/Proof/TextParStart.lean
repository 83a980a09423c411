import Verif.Proof.TextParTick
import Verif.Proof.ArrParStart
/-! Starting a call keeps the invariant of StrVals in several threads. -/
set_option linter.unusedSimpArgs false
set_option linter.unusedSectionVars false
set_option linter.unusedVariables false
namespace Strpp.TextPar
open Spec
open RC (Pc Job refs Step)
open ArrPar (Aim Releases isAdd Uses Shape get_other get_other_set refs_idle_job refs_new_var)

variable {F : Type} {ap : F → Text → Text}

section
variable {s : State F} {A : View}

theorem J.grow (h : J ap s A) {s' : State F} {A' : View} (d : Nat) {new : List (Job × Task F)}
    (hd : Idle s d) (hw' : s'.work = s.work ++ new)
    (hnew : ∀ y ∈ new, y.1.writes = some d ∧ TaskOk ap s' A' y.1 d y.2 ∧ ∀ w, y.2.addend = some w → w ≠ d ∧ Readable s w)
    (hinv : RC.Inv s'.rc) (hB : s'.bodies.length = s'.objs.length)
    (hV : A'.length = s'.vars.length) (hS : s'.shapes.length = s'.vars.length)
    (hv : ∀ v, v ≠ d → s'.vars[v]? = s.vars[v]? ∧ A'[v]? = A[v]? ∧ s'.shapes[v]? = s.shapes[v]?)
    (hb : ∀ (o : Nat) (b : Text), s.bodies[o]? = some b → s'.bodies[o]? = some b)
    (hrefs : ∀ o, s'.refs o = s.refs o) (hend : new ≠ [] ∨ VarOk s' A' d) : J ap s' A' := by
  refine h.update d s.work (fun y hy => ⟨hy, (hd y hy).1, (hd y hy).2.2⟩) (fun y hy => Or.inl hy) ?_ ?_ hinv hB hV hS hv
    (fun o b ho _ => hb o b ho) (fun y _ o _ _ h1 => by rw [hrefs]; exact h1) (fun y _ _ o _ _ h1 => by rw [hrefs]; exact h1) ?_
  · intro y hy
    rw [hw'] at hy
    rcases List.mem_append.1 hy with hy | hy
    · exact Or.inl hy
    · exact Or.inr (hnew y hy)
  · intro y hy; rw [hw']; exact List.mem_append_left _ hy
  · rcases hend with hn | hv
    · cases new with
      | nil => exact absurd rfl hn
      | cons y l => exact Or.inl ⟨y, by rw [hw']; simp, (hnew y (List.mem_cons_self ..)).1⟩
    · exact Or.inr hv

theorem idle_rc {v : Nat} (h : Idle s v) : RC.canWrite s.rc v = true := by
  rw [RC.canWrite_iff]
  intro j hj
  simp only [State.rc] at hj
  obtain ⟨y, hy, rfl⟩ := List.mem_map.1 hj
  exact ⟨(h y hy).1, (h y hy).2.1⟩

theorem readable_rc {v : Nat} (h : Readable s v) : RC.canRead s.rc v = true := by
  rw [RC.canRead_iff]
  intro j hj
  simp only [State.rc] at hj
  obtain ⟨y, hy, rfl⟩ := List.mem_map.1 hj
  exact h y hy

theorem idle_readable {v : Nat} (h : Idle s v) : Readable s v := fun y hy => (h y hy).1

theorem new_idle (h : J ap s A) : Idle s s.vars.length := by
  intro y hy
  obtain ⟨a, b⟩ := RC.fresh_var h.rc y.1 (List.mem_map_of_mem hy)
  refine ⟨a, b, fun e => ?_⟩
  obtain ⟨d, hd, ht⟩ := h.tasks y hy
  obtain ⟨j, t⟩ := y
  have key : ∀ {e : Edit F} {x : Val}, e.Ok A d x → e.addend = some s.vars.length → False := by
    intro e x he hw
    cases e with
    | trans f => cases hw
    | ins pos w =>
      cases hw
      obtain ⟨_, _, _, z, hz⟩ := he
      have := RC.lt_of_get hz
      rw [h.lenV] at this
      omega
  cases t with
  | plain => cases e
  | shape sh => cases e
  | unshare e' =>
    obtain ⟨_, _, _, _, _, _, _, h1, _⟩ := ht
    exact key h1 e
  | copying e' src =>
    obtain ⟨_, _, _, _, _, _, _, _, h1, _⟩ := ht
    exact key h1 e
  | swap e' =>
    obtain ⟨_, _, _, _, _, _, _, h1, _⟩ := ht
    exact key h1 e
  | write e' =>
    obtain ⟨_, _, _, _, _, _, _, h1, _⟩ := ht
    exact key h1 e

theorem spawn_eq {c : RC.Call} {t : Task F} {objs : List RC.Obj} {vars : RC.Vars} {new : List Job}
    (h : RC.start s.rc c = ⟨objs, vars, s.work.map (·.1) ++ new⟩) :
    spawn s c t = { s with objs := objs, vars := vars, work := s.work ++ new.map fun j => (j, t) } := by
  unfold spawn
  simp only [h]
  rw [List.drop_left' (by simp)]

theorem spawn_inv {c : RC.Call} {t : Task F} (h : RC.Inv s.rc) {objs : List RC.Obj} {vars : RC.Vars} {new : List Job}
    (hs : RC.start s.rc c = ⟨objs, vars, s.work.map (·.1) ++ new⟩) :
    RC.Inv ⟨objs, vars, (s.work ++ new.map fun j => (j, t)).map (·.1)⟩ := by
  have := RC.start_inv h c
  rw [hs] at this
  rw [List.map_append, List.map_map]
  have e : (new.map ((fun x : Job × Task F => x.1) ∘ fun j => (j, t))) = new := by
    induction new with
    | nil => rfl
    | cons a l ih => simp [Function.comp_def]
  rw [e]; exact this

theorem copy_J (h : J ap s A) {w o : Nat} (hr : Readable s w) (hv : s.vars[w]? = some (some (some o))) {b : Text} {sh : Shape} {x : Val}
    (hm : s.bodies[o]? = some b) (hs : Fits b sh x) :
    J ap (spawn { s with shapes := s.shapes ++ [sh] } (.copy w) (.shape sh)) (A ++ [some x]) := by
  have hrr : RC.canRead ⟨s.objs, s.vars, s.work.map (·.1)⟩ w = true := readable_rc hr
  have e : RC.start (State.rc { s with shapes := s.shapes ++ [sh] }) (.copy w) = ⟨s.objs, s.vars ++ [some none], s.work.map (·.1) ++ [⟨some w, some s.vars.length, .addRef s.vars.length o⟩]⟩ := by
    simp [RC.start, State.rc, hv, hrr, RC.State.add]
  have hi := spawn_inv (s := s) (t := .shape sh) h.rc e
  rw [spawn_eq e]
  simp only [List.map_cons, List.map_nil] at hi ⊢
  refine h.grow s.vars.length (new := [_]) (new_idle h) rfl ?_ hi h.lenB (by simp [h.lenV]) (by simp [h.lenS]) ?_ (fun o b hb => hb) ?_ (Or.inl (by simp))
  · intro y hy
    rw [List.mem_singleton] at hy
    subst hy
    exact ⟨rfl, ⟨o, b, x, by rw [← h.lenV, RC.get_push, if_pos rfl], rfl, hm, hs⟩, fun w e => by cases e⟩
  · intro v hv
    exact ⟨get_other hv, get_other (by rw [h.lenV]; exact hv), get_other (by rw [h.lenS]; exact hv)⟩
  · intro o'
    unfold State.refs
    simp only [List.map_append, List.map_cons, List.map_nil]
    rw [refs_idle_job _ _ _ _ rfl, refs_new_var]

theorem assign_J (h : J ap s A) {v w o : Nat} {q : Option Nat} (hr : Readable s w) (hid : Idle s v) (hv : s.vars[w]? = some (some (some o)))
    (hv' : s.vars[v]? = some (some q)) {b : Text} {sh : Shape} {x : Val}
    (hm : s.bodies[o]? = some b) (hs : Fits b sh x) :
    J ap (spawn s (.assign v w) (.shape sh)) (A.set v (some x)) := by
  have hrr : RC.canRead ⟨s.objs, s.vars, s.work.map (·.1)⟩ w = true := readable_rc hr
  have hii : RC.canWrite ⟨s.objs, s.vars, s.work.map (·.1)⟩ v = true := idle_rc hid
  have hlt : v < A.length := by rw [h.lenV]; exact RC.lt_of_get hv'
  have e : RC.start s.rc (.assign v w) = ⟨s.objs, s.vars, s.work.map (·.1) ++ [⟨some w, some v, .addRef v o⟩]⟩ := by
    simp [RC.start, State.rc, hv, hv', hrr, hii, RC.State.add]
  have hi := spawn_inv (t := .shape sh) h.rc e
  rw [spawn_eq e]
  simp only [List.map_cons, List.map_nil] at hi ⊢
  refine h.grow v (new := [_]) hid rfl ?_ hi h.lenB (by simp [h.lenV]) h.lenS (fun u hu => ⟨rfl, get_other_set hu, rfl⟩) (fun o b hb => hb) ?_ (Or.inl (by simp))
  · intro y hy
    rw [List.mem_singleton] at hy
    subst hy
    exact ⟨rfl, ⟨o, b, x, by rw [List.getElem?_set_self hlt], rfl, hm, hs⟩, fun w e => by cases e⟩
  · intro o'
    unfold State.refs
    simp only [List.map_append, List.map_cons, List.map_nil]
    rw [refs_idle_job _ _ _ _ rfl]

theorem destroy_J (h : J ap s A) {v o : Nat} (hid : Idle s v) (hv : s.vars[v]? = some (some (some o))) :
    J ap (spawn s (.destroy v) .plain) (A.set v none) := by
  have hii : RC.canWrite ⟨s.objs, s.vars, s.work.map (·.1)⟩ v = true := idle_rc hid
  have hlv := RC.lt_of_get hv
  have hlt : v < A.length := by rw [h.lenV]; exact hlv
  have e : RC.start s.rc (.destroy v) = ⟨s.objs, s.vars.set v none, s.work.map (·.1) ++ [⟨none, some v, .relAssert o⟩]⟩ := by
    simp [RC.start, State.rc, hv, hii, RC.State.add]
  have hi := spawn_inv (t := .plain) h.rc e
  rw [spawn_eq e]
  simp only [List.map_cons, List.map_nil] at hi ⊢
  refine h.grow v (new := [_]) hid rfl ?_ hi h.lenB (by simp [h.lenV]) (by simp [h.lenS])
    (fun u hu => ⟨get_other_set hu, get_other_set hu, rfl⟩) (fun o b hb => hb) ?_ (Or.inl (by simp))
  · intro y hy
    rw [List.mem_singleton] at hy
    subst hy
    exact ⟨rfl, ⟨rfl, trivial, List.getElem?_set_self hlv, List.getElem?_set_self hlt⟩, fun _ e => by cases e⟩
  · intro o'
    unfold State.refs refs
    have := RC.V_set (w' := none) hv o'
    simp only [List.map_append, List.map_cons, List.map_nil, RC.P_append, RC.holds]
    simp at this
    by_cases he : o = o'
    · subst he; simp at this ⊢; omega
    · simp [he] at this ⊢; omega

theorem construct_J (h : J ap s A) {b : Text} {sh : Shape} {x : Val} (hf : Fits b sh x) :
    J ap (spawn { s with bodies := s.bodies ++ [b], shapes := s.shapes ++ [sh] } .construct (.shape sh)) (A ++ [some x]) := by
  have e : RC.start (State.rc { s with bodies := s.bodies ++ [b], shapes := s.shapes ++ [sh] }) .construct =
      ⟨s.objs ++ [⟨0, true⟩], s.vars ++ [some none], s.work.map (·.1) ++ [⟨none, some s.vars.length, .addRef s.vars.length s.objs.length⟩]⟩ := rfl
  have hi := spawn_inv (s := s) (t := .shape sh) h.rc e
  rw [spawn_eq e]
  simp only [List.map_cons, List.map_nil] at hi ⊢
  refine h.grow s.vars.length (new := [_]) (new_idle h) rfl ?_ hi (by simp [h.lenB]) (by simp [h.lenV]) (by simp [h.lenS]) ?_ (fun o b hb => RC.get_append hb) ?_ (Or.inl (by simp))
  · intro y hy
    rw [List.mem_singleton] at hy
    subst hy
    refine ⟨rfl, ⟨s.objs.length, b, x, by rw [← h.lenV, RC.get_push, if_pos rfl], rfl, ?_, hf⟩, fun _ e => by cases e⟩
    rw [← h.lenB]; simp
  · intro v hv
    exact ⟨get_other hv, get_other (by rw [h.lenV]; exact hv), get_other (by rw [h.lenS]; exact hv)⟩
  · intro o'
    unfold State.refs
    simp only [List.map_append, List.map_cons, List.map_nil]
    rw [refs_idle_job _ _ _ _ rfl, refs_new_var]

/-- a call that begins with Unshare -/
theorem edit_J (h : J ap s A) {v o : Nat} (hid : Idle s v) (hv : s.vars[v]? = some (some (some o))) {e : Edit F} {b : Text} {sh : Shape} {x : Val}
    (hA : A[v]? = some (some x)) (hm : s.bodies[o]? = some b) (hsh : s.shapes[v]? = some sh) (hf : Fits b sh x) (he : e.Ok A v x)
    (hr : ∀ w, e.addend = some w → w ≠ v ∧ Readable s w) :
    J ap (spawn s (.unshare v) (.unshare e)) (A.set v (some (e.apply ap A x))) := by
  have hii : RC.canWrite ⟨s.objs, s.vars, s.work.map (·.1)⟩ v = true := idle_rc hid
  have e' : RC.start s.rc (.unshare v) = ⟨s.objs, s.vars, s.work.map (·.1) ++ [⟨none, some v, .unshare v o⟩]⟩ := by
    simp [RC.start, State.rc, hv, hii, RC.State.add]
  have hi := spawn_inv (t := .unshare e) h.rc e'
  rw [spawn_eq e']
  simp only [List.map_cons, List.map_nil] at hi ⊢
  have hfr : ∀ w, e.addend = some w → (A.set v (some (e.apply ap A x)))[w]? = A[w]? := fun w hw => get_other_set (hr w hw).1
  refine h.grow v (new := [_]) hid rfl ?_ hi h.lenB (by simp [h.lenV]) h.lenS
    (fun u hu => ⟨rfl, get_other_set hu, rfl⟩) (fun o b hb => hb) ?_ (Or.inl (by simp))
  · intro y hy
    rw [List.mem_singleton] at hy
    subst hy
    refine ⟨rfl, ⟨o, b, sh, x, rfl, rfl, ?_, he.frame hfr, hv, hsh, hm, hf⟩, hr⟩
    rw [Edit.apply_frame hfr]
    exact List.getElem?_set_self (RC.lt_of_get hA)
  · intro o'
    unfold State.refs
    simp only [List.map_append, List.map_cons, List.map_nil]
    rw [refs_idle_job _ _ _ _ rfl]

/-- a string that is followed by another in the same body is extended by it: no body changes -/
theorem join_J (h : J ap s A) {v o : Nat} (hid : Idle s v) (hv : s.vars[v]? = some (some (some o))) {b : Text} {sh' : Shape} {x x' : Val}
    (hA : A[v]? = some (some x)) (hm : s.bodies[o]? = some b) (hf : Fits b sh' x') :
    J ap { s with shapes := s.shapes.set v sh' } (A.set v (some x')) := by
  have hlt := RC.lt_of_get hA
  refine h.grow v (new := []) hid (by simp) (by simp) h.rc h.lenB (by simp [h.lenV]) (by simp [h.lenS])
    (fun u hu => ⟨rfl, get_other_set hu, get_other_set hu⟩) (fun o b hb => hb) (fun _ => rfl) (Or.inr ?_)
  unfold VarOk
  simp only [hv]
  rw [List.getElem?_set_self hlt]
  exact ⟨b, sh', hm, List.getElem?_set_self (by rw [h.lenS]; exact RC.lt_of_get hv), hf⟩

end

/-- two slices, one after the other -/
theorem Fits.joined {b : Text} {sh sh' : Shape} {x x' : Val} (h : Fits b sh x) (h' : Fits b sh' x') (he : sh.off + sh.num = sh'.off) :
    Fits b { sh with num := sh.num + sh'.num } { x with items := Spec.splice x.items sh.num x'.items } := by
  have hl := h.len
  have hb := h'.bound
  have hz := h'.zero
  have hit := h.items
  have hit' := h'.items
  obtain ⟨off, num⟩ := sh
  obtain ⟨off', num'⟩ := sh'
  simp only at *
  subst he
  refine ⟨?_, ?_, h.front, ?_, ?_⟩
  · simp only [Spec.splice]
    rw [List.take_of_length_le (by omega), List.drop_eq_nil_of_le (by omega), List.append_nil, hit, hit', List.take_add, List.drop_drop]
  · simp only; omega
  · intro hw
    obtain ⟨a, c⟩ := h.whole hw
    simp only at *
    exact ⟨a, by omega⟩
  · intro h0
    simp only at *
    have := h.zero (by simp only; omega)
    exact this

theorem Fits.sub {b : Text} {sh : Shape} {x : Val} {i len : Nat} (h : Fits b sh x) (hi : i < x.items.length) (hl : 0 < len) :
    Fits b ⟨sh.off + i, if len > sh.num - i then sh.num - i else len⟩
      ⟨(x.items.drop i).take len, x.front && i == 0, x.whole && i == 0 && decide (x.items.length ≤ len)⟩ := by
  have hle := h.len
  have hb := h.bound
  rw [hle] at hi
  have hm : (if len > sh.num - i then sh.num - i else len) = min len (sh.num - i) := by
    split <;> omega
  rw [hm]
  refine ⟨?_, ?_, ?_, ?_, ?_⟩
  · simp only [h.items]
    rw [List.drop_take, List.drop_drop, List.take_take]
  · simp only; omega
  · simp only [Bool.and_eq_true, beq_iff_eq]
    rintro ⟨a, rfl⟩
    have := h.front a
    omega
  · simp only [Bool.and_eq_true, beq_iff_eq, decide_eq_true_eq]
    rintro ⟨⟨a, rfl⟩, c⟩
    have := h.whole a
    omega
  · simp only; omega

theorem start_J {s : State F} {A : View} (h : J ap s A) {c : Call F} (hl : Legal s A c) : ∃ s', start s c = .ok s' ∧ J ap s' (A.call ap c) := by
  cases c with
  | ofText t =>
    refine ⟨_, rfl, ?_⟩
    exact construct_J h ⟨by simp, by simp, fun _ => rfl, fun _ => ⟨rfl, rfl⟩, fun e => by simp only at e ⊢; omega⟩
  | copy w =>
    obtain ⟨⟨x, hx⟩, hr⟩ := hl
    obtain ⟨o, b, sh, h1, h2, h3, h4⟩ := h.live hr hx
    simp only [start, View.call]
    rw [shapeOf_ok h3, res_bind_ok, at_eq hx]
    exact ⟨_, rfl, copy_J h hr h1 h2 h4⟩
  | assign v w =>
    obtain ⟨⟨x, hx⟩, ⟨y, hy⟩, hr, hid⟩ := hl
    obtain ⟨o, b, sh, h1, h2, h3, h4⟩ := h.live hr hx
    obtain ⟨o', b', sh', h1', _⟩ := h.live (idle_readable hid) hy
    simp only [start, View.call]
    rw [shapeOf_ok h3, res_bind_ok, at_eq hx]
    exact ⟨_, rfl, assign_J h hr hid h1 h1' h2 h4⟩
  | destroy v =>
    obtain ⟨⟨y, hy⟩, hid⟩ := hl
    obtain ⟨o, b, sh, h1, _⟩ := h.live (idle_readable hid) hy
    exact ⟨_, rfl, destroy_J h hid h1⟩
  | substr w i len =>
    obtain ⟨⟨x, hx⟩, hr, hi, hp⟩ := hl
    obtain ⟨o, b, sh, h1, h2, h3, h4⟩ := h.live hr hx
    rw [at_eq hx] at hi
    simp only [start, View.call]
    rw [shapeOf_ok h3, res_bind_ok, at_eq hx, if_neg (by have := h4.len; omega)]
    exact ⟨_, rfl, copy_J h hr h1 h2 (h4.sub hi hp)⟩
  | insert v pos w =>
    obtain ⟨⟨x, hx⟩, ⟨y, hy⟩, hr, hid, hne, hpos, hfr⟩ := hl
    obtain ⟨o, b, sh, h1, h2, h3, h4⟩ := h.live (idle_readable hid) hx
    obtain ⟨o', b', sh', h1', h2', h3', h4'⟩ := h.live hr hy
    rw [at_eq hx] at hpos hfr
    simp only [start, View.call]
    rw [ptrOf_ok h1, res_bind_ok, ptrOf_ok h1', res_bind_ok, shapeOf_ok h3, res_bind_ok, shapeOf_ok h3', res_bind_ok, at_eq hx, at_eq hy]
    by_cases hj : pos = sh.num ∧ o = o' ∧ sh.off + pos = sh'.off
    · rw [if_pos hj]
      obtain ⟨rfl, rfl, hj⟩ := hj
      rw [h2] at h2'
      cases h2'
      exact ⟨_, rfl, join_J h hid h1 hx h2 (h4.joined h4' hj)⟩
    · rw [if_neg hj, if_neg hne]
      refine ⟨_, rfl, ?_⟩
      have := edit_J h hid h1 (e := .ins pos w) hx h2 h3 h4 ⟨hne.symm, hpos, hfr, y, hy⟩ (fun u hu => by cases hu; exact ⟨hne.symm, hr⟩)
      simpa only [Edit.apply, at_eq hy] using this
  | transform v f =>
    obtain ⟨⟨x, hx⟩, hid, hfr, hwh⟩ := hl
    obtain ⟨o, b, sh, h1, h2, h3, h4⟩ := h.live (idle_readable hid) hx
    rw [at_eq hx] at hfr hwh
    simp only [start, View.call]
    rw [ptrOf_ok h1, res_bind_ok, at_eq hx]
    exact ⟨_, rfl, edit_J h hid h1 (e := .trans f) hx h2 h3 h4 ⟨hfr, hwh⟩ (fun u hu => by cases hu)⟩

theorem J.init : J ap (TextPar.init : State F) [] := by
  refine ⟨RC.init_inv, rfl, rfl, rfl, ?_, ?_, ?_⟩
  · intro y hy; cases hy
  · intro v _; unfold VarOk; simp [TextPar.init]
  · intro y hy; cases hy

theorem history_J {s : State F} {A : View} (h : History ap s A) : J ap s A := by
  induction h with
  | start => exact J.init
  | call c _ hl he ih =>
    obtain ⟨s', h1, h2⟩ := start_J ih hl
    rw [he] at h1; cases h1; exact h2
  | tick i _ he ih =>
    obtain ⟨s', h1, h2, _⟩ := tick_J ih i
    rw [he] at h1; cases h1; exact h2

end Strpp.TextPar
