import Verif.Proof.ArrayBody
/-! Lemmas about Array variables sharing bodies. -/
namespace Strpp.Arr

variable {E : Type} [Inhabited E]

/-- what an Array shows -/
def contents (s : State E) (sl : Slice) : List E :=
  match sl.body with
  | none => []
  | some b =>
    match s.bodies[b]? with
    | some x => (x.mem.drop sl.off).take sl.num
    | none => []

/-- what variable `v` shows; `none` when there is no such variable -/
def view (s : State E) (v : Nat) : Option (List E) :=
  match s.vars[v]? with
  | some (some sl) => some (contents s sl)
  | _ => none

/-- a slice lies within its body -/
def SliceOk (s : State E) (sl : Slice) : Prop :=
  match sl.body with
  | none => sl.num = 0
  | some b => ∃ x, s.bodies[b]? = some x ∧ sl.off + sl.num ≤ x.num

structure WF (s : State E) : Prop where
  bodies : ∀ (b : Nat) (x : Body E), s.bodies[b]? = some x → x.WF
  vars : ∀ (v : Nat) (sl : Slice), s.vars[v]? = some (some sl) → SliceOk s sl

theorem getVar_ok {s : State E} {v : Nat} {sl : Slice} (h : s.vars[v]? = some (some sl)) : getVar s v = .ok sl := by
  simp [getVar, h]

theorem getVar_inv {s : State E} {v : Nat} {sl : Slice} (h : getVar s v = .ok sl) : s.vars[v]? = some (some sl) := by
  unfold getVar at h
  split at h
  · rename_i h'; cases h; exact h'
  · cases h

theorem view_some {s : State E} {v : Nat} {sl : Slice} (h : s.vars[v]? = some (some sl)) :
    view s v = some (contents s sl) := by simp [view, h]

theorem lt_of_get {α : Type} {l : List α} {d : Nat} {x : α} (h : l[d]? = some x) : d < l.length := by
  rcases Nat.lt_or_ge d l.length with h' | h'
  · exact h'
  · rw [List.getElem?_eq_none h'] at h; cases h

theorem get_push {α : Type} (l : List α) (x : α) (o : Nat) :
    (l ++ [x])[o]? = if o = l.length then some x else l[o]? := by
  by_cases h : o = l.length
  · subst h; simp
  · rw [if_neg h]
    rcases Nat.lt_or_ge o l.length with h' | h'
    · rw [List.getElem?_append_left h']
    · rw [List.getElem?_eq_none (by simp; omega), List.getElem?_eq_none h']

theorem get_set_if {α : Type} (l : List α) (i o : Nat) (x : α) (h : i < l.length) :
    (l.set i x)[o]? = if o = i then some x else l[o]? := by
  by_cases he : o = i
  · subst he; simp [h]
  · rw [if_neg he, List.getElem?_set_ne (fun e => he e.symm)]

theorem contents_length {s : State E} (h : WF s) {v : Nat} {sl : Slice} (hv : s.vars[v]? = some (some sl)) :
    (contents s sl).length = sl.num := by
  have := h.vars v sl hv
  unfold SliceOk at this
  unfold contents
  split at this
  · rename_i hb; simp [hb, this]
  · rename_i b hb
    obtain ⟨x, hx, hle⟩ := this
    have := (h.bodies b x hx).le
    simp [hb, hx]; omega

theorem num_cap {s : State E} (h : WF s) {v : Nat} {sl : Slice} (hv : s.vars[v]? = some (some sl)) : sl.num ≤ 2147483647 := by
  have := h.vars v sl hv
  unfold SliceOk at this
  split at this
  · omega
  · rename_i b hb
    obtain ⟨x, hx, hle⟩ := this
    have := (h.bodies b x hx).cap
    omega

theorem elements_ok {s : State E} (h : WF s) {v : Nat} {sl : Slice} (hv : s.vars[v]? = some (some sl)) :
    elements s sl = .ok (contents s sl) := by
  have := h.vars v sl hv
  unfold SliceOk at this
  unfold elements contents
  cases hb : sl.body with
  | none => rw [hb] at this; simp [this]
  | some b =>
    rw [hb] at this
    obtain ⟨x, hx, hle⟩ := this
    have := (h.bodies b x hx).le
    simp only [getBody, hx, res_bind_ok]
    rw [readN_spec _ _ _ (by omega)]

/-- adding a body changes nothing that existing slices show -/
theorem contents_addBody {s : State E} (x : Body E) {sl : Slice} (hs : SliceOk s sl) :
    contents { s with bodies := s.bodies ++ [x] } sl = contents s sl := by
  unfold contents
  unfold SliceOk at hs
  cases hb : sl.body with
  | none => rfl
  | some b =>
    rw [hb] at hs
    obtain ⟨y, hy, _⟩ := hs
    simp only [get_push]
    rw [if_neg (by have := lt_of_get hy; omega)]

theorem SliceOk.addBody {s : State E} (x : Body E) {sl : Slice} (hs : SliceOk s sl) :
    SliceOk { s with bodies := s.bodies ++ [x] } sl := by
  unfold SliceOk at *
  cases hb : sl.body with
  | none => rw [hb] at hs; exact hs
  | some b =>
    rw [hb] at hs
    obtain ⟨y, hy, hle⟩ := hs
    refine ⟨y, ?_, hle⟩
    simp only [get_push]
    rw [if_neg (by have := lt_of_get hy; omega)]; exact hy

/-- slices only depend on the bodies -/
theorem contents_vars (bs : List (Body E)) (vs vs' : List (Option Slice)) (sl : Slice) :
    contents ⟨bs, vs⟩ sl = contents ⟨bs, vs'⟩ sl := rfl

theorem SliceOk_vars (bs : List (Body E)) (vs vs' : List (Option Slice)) (sl : Slice) :
    SliceOk ⟨bs, vs⟩ sl = SliceOk ⟨bs, vs'⟩ sl := rfl

theorem view_eq_of {s s' : State E} {w : Nat} (hv : s'.vars[w]? = s.vars[w]?)
    (hc : ∀ sl, s.vars[w]? = some (some sl) → contents s' sl = contents s sl) : view s' w = view s w := by
  unfold view
  rw [hv]
  split
  · rename_i sl h; rw [hc sl h]
  · rfl

/-- setting a variable to a slice that is in range -/
theorem setVar_spec {s : State E} (h : WF s) {v : Nat} {sl : Slice} (hv : v < s.vars.length) (hs : SliceOk s sl) :
    WF (setVar s v sl) ∧ (∀ w, w ≠ v → view (setVar s v sl) w = view s w) ∧
      view (setVar s v sl) v = some (contents s sl) := by
  refine ⟨⟨h.bodies, ?_⟩, ?_, ?_⟩
  · intro w sl' hw
    simp only [setVar, get_set_if _ _ _ _ hv] at hw
    split at hw
    · cases hw; exact hs
    · exact h.vars w sl' hw
  · intro w hw
    refine view_eq_of ?_ (fun _ _ => rfl)
    simp only [setVar, get_set_if _ _ _ _ hv]; rw [if_neg hw]
  · refine view_some (sl := sl) ?_
    simp [setVar, get_set_if _ _ _ _ hv]

/-- a new variable on a slice in range -/
theorem newVar_spec {s : State E} (h : WF s) {sl : Slice} (hs : SliceOk s sl) :
    WF (newVar s sl) ∧ (∀ w, w ≠ s.vars.length → view (newVar s sl) w = view s w) ∧
      view (newVar s sl) s.vars.length = some (contents s sl) := by
  refine ⟨⟨h.bodies, ?_⟩, ?_, ?_⟩
  · intro w sl' hw
    simp only [newVar, get_push] at hw
    split at hw
    · cases hw; exact hs
    · exact h.vars w sl' hw
  · intro w hw
    refine view_eq_of ?_ (fun _ _ => rfl)
    simp only [newVar, get_push]; rw [if_neg hw]
  · refine view_some (sl := sl) ?_
    simp [newVar]

/-- a new body -/
theorem addBody_spec {s : State E} (h : WF s) {x : Body E} (hx : x.WF) :
    WF { s with bodies := s.bodies ++ [x] } ∧ (∀ w, view { s with bodies := s.bodies ++ [x] } w = view s w) := by
  refine ⟨⟨?_, ?_⟩, ?_⟩
  · intro b y hy
    simp only [get_push] at hy
    split at hy
    · cases hy; exact hx
    · exact h.bodies b y hy
  · intro v sl hv; exact (h.vars v sl hv).addBody x
  · intro w
    exact view_eq_of rfl (fun sl hsl => contents_addBody x (h.vars w sl hsl))

/-- the holders of body `id` -/
def holds (id : Nat) (v : Option Slice) : Bool :=
  match v with
  | some sl => sl.body == some id
  | none => false

theorem refCount_eq (s : State E) (b : Nat) :
    refCount s b = s.vars.countP (holds b) + (match s.bodies[b]? with
    | some x => if x.static then 1 else 0
    | none => 0) := rfl

theorem countP_two {α : Type} (p : α → Bool) (l : List α) (i j : Nat) (x y : α) (hi : l[i]? = some x) (hj : l[j]? = some y)
    (hne : i ≠ j) (hx : p x = true) (hy : p y = true) : 2 ≤ l.countP p := by
  induction l generalizing i j with
  | nil => simp at hi
  | cons a l ih =>
    rw [List.countP_cons]
    cases i with
    | zero =>
      cases j with
      | zero => exact absurd rfl hne
      | succ j =>
        simp only [List.getElem?_cons_zero, Option.some.injEq] at hi
        subst hi
        rw [List.getElem?_cons_succ] at hj
        have : 0 < l.countP p := List.countP_pos_iff.2 ⟨y, List.mem_of_getElem? hj, hy⟩
        rw [hx]; simp; exact ⟨y, List.mem_of_getElem? hj, hy⟩
    | succ i =>
      cases j with
      | zero =>
        simp only [List.getElem?_cons_zero, Option.some.injEq] at hj
        subst hj
        rw [List.getElem?_cons_succ] at hi
        rw [hy]; simp; exact ⟨x, List.mem_of_getElem? hi, hx⟩
      | succ j =>
        rw [List.getElem?_cons_succ] at hi hj
        have := ih i j hi hj (by omega)
        omega

/-- with a count of one, the holder is alone and the body is not static -/
theorem alone_of_refCount {s : State E} {v : Nat} {sl : Slice} {id : Nat} (hv : s.vars[v]? = some (some sl))
    (hb : sl.body = some id) (hr : refCount s id ≤ 1) :
    (∀ w sl', s.vars[w]? = some (some sl') → w ≠ v → sl'.body ≠ some id) ∧
    (∀ x, s.bodies[id]? = some x → x.static = false) := by
  rw [refCount_eq] at hr
  have hvh : holds id (some sl) = true := by simp [holds, hb]
  have hpos : 0 < s.vars.countP (holds id) := List.countP_pos_iff.2 ⟨some sl, List.mem_of_getElem? hv, hvh⟩
  refine ⟨fun w sl' hw hne he => ?_, fun x hx => ?_⟩
  · have := countP_two (holds id) s.vars w v _ _ hw hv hne (by simp [holds, he]) hvh
    omega
  · rw [hx] at hr
    cases hst : x.static with
    | false => rfl
    | true => simp only [hst, if_true] at hr; omega

/-- changing a body nobody else holds, and the slice of its holder -/
theorem mutate_spec {s : State E} (h : WF s) {v : Nat} {sl sl' : Slice} {id : Nat} {x : Body E}
    (hv : s.vars[v]? = some (some sl)) (hb : sl.body = some id) (hr : refCount s id ≤ 1) (hx : x.WF)
    (hid : id < s.bodies.length) (hb' : sl'.body = some id) (hle : sl'.off + sl'.num ≤ x.num) :
    WF (setVar (setBody s id x) v sl') ∧ (∀ w, w ≠ v → view (setVar (setBody s id x) v sl') w = view s w) ∧
      view (setVar (setBody s id x) v sl') v = some ((x.mem.drop sl'.off).take sl'.num) := by
  have halone := (alone_of_refCount hv hb hr).1
  have hvl := lt_of_get hv
  have hget : ∀ b, b ≠ id → (s.bodies.set id x)[b]? = s.bodies[b]? := by
    intro b hb; rw [List.getElem?_set_ne (fun e => hb e.symm)]
  refine ⟨⟨?_, ?_⟩, ?_, ?_⟩
  · intro b y hy
    simp only [setVar, setBody, get_set_if _ _ _ _ hid] at hy
    split at hy
    · cases hy; exact hx
    · exact h.bodies b y hy
  · intro w sl'' hw
    simp only [setVar, setBody, get_set_if _ _ _ _ hvl] at hw
    split at hw
    · cases hw
      unfold SliceOk
      rw [hb']
      exact ⟨x, by simp [setVar, setBody, hid], hle⟩
    · rename_i hne
      have h1 := h.vars w sl'' hw
      have h2 := halone w sl'' hw hne
      unfold SliceOk at *
      split
      · rename_i hnone; rw [hnone] at h1; exact h1
      · rename_i b hsome
        rw [hsome] at h1 h2
        obtain ⟨y, hy, hle⟩ := h1
        refine ⟨y, ?_, hle⟩
        simp only [setVar, setBody]
        rw [hget b (fun e => h2 (by rw [e]))]; exact hy
  · intro w hw
    refine view_eq_of ?_ ?_
    · simp only [setVar, setBody, get_set_if _ _ _ _ hvl]; rw [if_neg hw]
    · intro sl'' hsl
      have h2 := halone w sl'' hsl hw
      unfold contents
      cases hsome : sl''.body with
      | none => rfl
      | some b =>
        rw [hsome] at h2
        simp only [setVar, setBody]
        rw [hget b (fun e => h2 (by rw [e]))]
  · have e : (setVar (setBody s id x) v sl').vars[v]? = some (some sl') := by
      simp [setVar, setBody, hvl]
    rw [view_some e]
    simp [contents, hb', setVar, setBody, hid]

/-- after Unshare the variable shows the same, is alone on its body, and has offset zero if the body was null or shared -/
theorem unshare_spec {s : State E} (h : WF s) {v : Nat} {sl : Slice} (hv : s.vars[v]? = some (some sl)) (extra : Nat)
    (hcap : sl.num + extra ≤ 2147483647) :
    ∃ (s' : State E) (id : Nat) (x : Body E) (sl' : Slice), unshare s v extra = .ok s' ∧ WF s' ∧ (∀ w, view s' w = view s w) ∧ s'.vars.length = s.vars.length ∧
      (∀ (w : Nat), w ≠ v → s'.vars[w]? = s.vars[w]?) ∧ (∀ (b : Nat) (y : Body E), s.bodies[b]? = some y → s'.bodies[b]? = some y) ∧
      s'.vars[v]? = some (some sl') ∧ sl'.body = some id ∧ sl'.num = sl.num ∧ s'.bodies[id]? = some x ∧
      x.static = false ∧ refCount s' id ≤ 1 ∧
      ((sl.body = some id ∧ s' = s ∧ sl' = sl ∧ refCount s id ≤ 1) ∨
        (sl'.off = 0 ∧ x.elems = contents s sl ∧ x.num = sl.num ∧ (sl.body = none ∨ ∃ b, sl.body = some b ∧ 2 ≤ refCount s b))) := by
  unfold unshare
  rw [getVar_ok hv, res_bind_ok]
  have hcopy : (sl.body = none ∨ ∃ b, sl.body = some b ∧ 2 ≤ refCount s b) →
    ∃ (s' : State E) (id : Nat) (x : Body E) (sl' : Slice), (do
      let data ← elements s sl
      let b ← Body.ofData data (sl.num + extra)
      .ok (setVar { s with bodies := s.bodies ++ [b] } v ⟨some s.bodies.length, 0, sl.num⟩)) = Except.ok s' ∧ WF s' ∧
      (∀ w, view s' w = view s w) ∧ s'.vars.length = s.vars.length ∧
      (∀ (w : Nat), w ≠ v → s'.vars[w]? = s.vars[w]?) ∧ (∀ (b : Nat) (y : Body E), s.bodies[b]? = some y → s'.bodies[b]? = some y) ∧
      s'.vars[v]? = some (some sl') ∧ sl'.body = some id ∧ sl'.num = sl.num ∧ s'.bodies[id]? = some x ∧
      x.static = false ∧ refCount s' id ≤ 1 ∧
      ((sl.body = some id ∧ s' = s ∧ sl' = sl ∧ refCount s id ≤ 1) ∨
        (sl'.off = 0 ∧ x.elems = contents s sl ∧ x.num = sl.num ∧ (sl.body = none ∨ ∃ b, sl.body = some b ∧ 2 ≤ refCount s b))) := by
    intro hwhy
    have hlen := contents_length h hv
    have hvl := lt_of_get hv
    obtain ⟨x, hx1, hx2, hx3, hx4, hx5⟩ := ofData_spec (contents s sl) (sl.num + extra) (by omega) hcap
    rw [elements_ok h hv, res_bind_ok, hx1, res_bind_ok]
    have h1 := addBody_spec h hx2
    have hsl : SliceOk { s with bodies := s.bodies ++ [x] } ⟨some s.bodies.length, 0, sl.num⟩ := by
      refine ⟨x, by simp, ?_⟩
      simp only; omega
    have h2 := setVar_spec (v := v) h1.1 hvl hsl
    have hcont : contents { s with bodies := s.bodies ++ [x] } ⟨some s.bodies.length, 0, sl.num⟩ = contents s sl := by
      have e : (s.bodies ++ [x])[s.bodies.length]? = some x := by simp
      have e2 : x.elems = x.mem.take sl.num := by rw [Body.elems, hx5, hlen]
      rw [← hx4, e2]
      simp only [contents, e, List.drop_zero]
    have hvars : ∀ w, (setVar { s with bodies := s.bodies ++ [x] } v ⟨some s.bodies.length, 0, sl.num⟩).vars[w]? =
        if w = v then some (some ⟨some s.bodies.length, 0, sl.num⟩) else s.vars[w]? := by
      intro w; simp only [setVar]; exact get_set_if _ _ _ _ hvl
    refine ⟨_, s.bodies.length, x, ⟨some s.bodies.length, 0, sl.num⟩, rfl, h2.1, ?_, by simp [setVar], ?_, ?_, ?_, rfl, rfl,
      ?_, hx3, ?_, Or.inr ⟨rfl, hx4, by omega, hwhy⟩⟩
    · intro w
      by_cases hw : w = v
      · subst hw; rw [h2.2.2, hcont, view_some hv]
      · rw [h2.2.1 w hw, h1.2 w]
    · intro w hw; rw [hvars w, if_neg hw]
    · intro b y hy
      simp only [setVar, get_push]
      rw [if_neg (by have := lt_of_get hy; omega)]; exact hy
    · rw [hvars v, if_pos rfl]
    · simp [setVar]
    · rw [refCount_eq]
      have e1 : (setVar { s with bodies := s.bodies ++ [x] } v ⟨some s.bodies.length, 0, sl.num⟩).bodies[s.bodies.length]? = some x := by
        simp [setVar]
      rw [e1]
      simp only [hx3, Bool.false_eq_true, if_false, Nat.add_zero]
      rcases Nat.lt_or_ge 1 (List.countP (holds s.bodies.length)
        (setVar { s with bodies := s.bodies ++ [x] } v ⟨some s.bodies.length, 0, sl.num⟩).vars) with hgt | hle
      · exfalso
        have h0 : s.vars.countP (holds s.bodies.length) = 0 := by
          rw [List.countP_eq_zero]
          intro a ha hh
          obtain ⟨w, hw⟩ := List.mem_iff_getElem?.1 ha
          cases a with
          | none => simp [holds] at hh
          | some sl' =>
            have := h.vars w sl' hw
            unfold SliceOk at this
            simp only [holds, beq_iff_eq] at hh
            rw [hh] at this
            obtain ⟨y, hy, _⟩ := this
            have := lt_of_get hy; omega
        simp only [setVar] at hgt
        rw [List.countP_set hvl] at hgt
        rw [h0] at hgt
        have : ∀ (c : Prop) [Decidable c], (if c then 1 else 0) ≤ 1 := by intro c _; split <;> omega
        have := this (holds s.bodies.length (some ⟨some s.bodies.length, 0, sl.num⟩) = true)
        split at hgt <;> omega
      · exact hle
  cases hb : sl.body with
  | none =>
    have := hcopy (Or.inl hb)
    rw [hb] at this
    simpa only [Bool.false_eq_true, if_false] using this
  | some b =>
    by_cases hr : refCount s b ≤ 1
    · simp only [hr, decide_true, if_true]
      have := h.vars v sl hv
      unfold SliceOk at this
      rw [hb] at this
      obtain ⟨x, hx, hle⟩ := this
      exact ⟨s, b, x, sl, rfl, h, fun _ => rfl, rfl, fun _ _ => rfl, fun _ _ hy => hy, hv, hb, rfl, hx,
        (alone_of_refCount hv hb hr).2 x hx, hr, Or.inl ⟨rfl, rfl, rfl, hr⟩⟩
    · simp only [hr, decide_false, Bool.false_eq_true, if_false]
      have := hcopy (Or.inr ⟨b, hb, by omega⟩)
      rw [hb] at this
      exact this

end Strpp.Arr
