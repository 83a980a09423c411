import Verif.Proof.ArrayOps
/-! C18-C21: Array. `views s` lists what each Array variable shows; `specStep` (Verif/Spec/Array.lean) is the same call on
plain lists. -/
namespace Strpp.Arr

variable {E : Type} [Inhabited E]

/-- What this code further needs for a call to do the right thing (see the refutations): `push`, `insert` and a removal
from the middle must not meet a slice that does not begin its unshared body, and a slice must end before its body does. -/
def Good (s : State E) : Op E → Prop
  | .push v _ => AtFront s v
  | .insert v _ _ => AtFront s v
  | .remove v at_ len => AtFront s v ∨ at_ = 0 ∨ len = -1 ∨ at_ + len = (shown (views s) v).length
  | .deleteAt v at_ => AtFront s v ∨ at_ = 0 ∨ at_ + 1 = (shown (views s) v).length
  | .slice w at_ len => ∀ sl, s.vars[w]? = some (some sl) → at_ < sl.num → len ≠ 0 →
      ∃ b x, sl.body = some b ∧ s.bodies[b]? = some x ∧ sl.off + at_ + (if len = -1 then sl.num - at_ else min len.toNat (sl.num - at_)) < x.num
  | _ => True

theorem target_lt_or (s : State E) (v : Nat) (h : Exists (views s) v) : v < s.vars.length := by
  obtain ⟨sl, hsl⟩ := exists_views h
  exact lt_of_get hsl

/-- the common conclusion: well-formed, isolated, and (under `G`) as specified -/
def Does (s s' : State E) (op : Op E) (G : Prop) : Prop :=
  WF s' ∧ (∀ w, w ≠ target s.vars.length op → view s' w = view s w) ∧ (G → views s' = specStep (views s) op)

theorem exec_does {s : State E} (h : WF s) (op : Op E) (hl : Legal (views s) op) (hr : Roomy s (added (views s) op))
    (hslice : ∀ w a n, op = .slice w a n → Good s op) :
    ∃ s', exec s op = .ok s' ∧ Does s s' op (Good s op) := by
  cases op with
  | default =>
    have := newVar_spec h (sl := ⟨none, 0, 0⟩) rfl
    exact ⟨_, rfl, this.1, this.2.1, fun _ => views_push (by simp [newVar]) this.2.1 (by rw [this.2.2]; rfl)⟩
  | ofData data allocate =>
    have hcap := hr.1
    simp only [added] at hcap
    obtain ⟨b, b1, b2, b3, b4, b5⟩ := ofData_spec data (if allocate < data.length then data.length else allocate)
      (by omega) (by split <;> omega)
    have h1 := addBody_spec h b2
    have h2 := newVar_spec h1.1 (sl := ⟨some s.bodies.length, 0, data.length⟩) ⟨b, by simp, by simp only; omega⟩
    have h3 : ∀ w, w ≠ s.vars.length → view (newVar { s with bodies := s.bodies ++ [b] } ⟨some s.bodies.length, 0, data.length⟩) w = view s w :=
      fun w hw => by rw [h2.2.1 w hw, h1.2 w]
    refine ⟨_, by simp only [exec, b1, res_bind_ok], h2.1, h3, fun _ => views_push (by simp [newVar]) h3 ?_⟩
    refine h2.2.2.trans ?_
    congr 1
    have e : (s.bodies ++ [b])[s.bodies.length]? = some b := by simp
    simp only [contents, e, List.drop_zero]
    rw [← b5]; exact b4
  | ofStatic data =>
    have hcap := hr.1
    simp only [added] at hcap
    have b2 : (Body.ofStatic data).WF := ⟨by simp [Body.ofStatic], nofun, fun _ => rfl, hcap⟩
    have h1 := addBody_spec h b2
    have h2 := newVar_spec h1.1 (sl := ⟨some s.bodies.length, 0, data.length⟩) ⟨_, by simp; rfl, by simp [Body.ofStatic]⟩
    have h3 : ∀ w, w ≠ s.vars.length → view (newVar { s with bodies := s.bodies ++ [Body.ofStatic data] } ⟨some s.bodies.length, 0, data.length⟩) w = view s w :=
      fun w hw => by rw [h2.2.1 w hw, h1.2 w]
    refine ⟨_, rfl, h2.1, h3, fun _ => views_push (by simp [newVar]) h3 ?_⟩
    refine h2.2.2.trans ?_
    simp [contents, Body.ofStatic]
  | copy w =>
    obtain ⟨sl, hsl⟩ := exists_views hl
    have := newVar_spec h (sl := sl) (h.vars w sl hsl)
    refine ⟨newVar s sl, by simp only [exec, getVar_ok hsl, res_bind_ok], this.1, this.2.1,
      fun _ => views_push (by simp [newVar]) this.2.1 ?_⟩
    rw [this.2.2, shown_views s w hsl]
  | assign v w =>
    obtain ⟨slv, hslv⟩ := exists_views hl.1
    obtain ⟨sl, hsl⟩ := exists_views hl.2
    have := setVar_spec h (lt_of_get hslv) (h.vars w sl hsl)
    refine ⟨setVar s v sl, by simp only [exec, getVar_ok hsl, getVar_ok hslv, res_bind_ok], this.1, this.2.1,
      fun _ => views_set (lt_of_get hslv) (by simp [setVar]) this.2.1 ?_⟩
    rw [this.2.2, shown_views s w hsl]
  | destroy v =>
    obtain ⟨sl, hsl⟩ := exists_views hl
    have hvl := lt_of_get hsl
    have hv : ∀ w, w ≠ v → view { s with vars := s.vars.set v none } w = view s w := by
      intro w hw
      refine view_eq_of ?_ (fun _ _ => rfl)
      simp only [get_set_if _ _ _ _ hvl]; rw [if_neg hw]
    refine ⟨{ s with vars := s.vars.set v none }, by simp only [exec, getVar_ok hsl, res_bind_ok], ⟨h.bodies, ?_⟩, hv,
      fun _ => views_set hvl (by simp) hv ?_⟩
    · intro w sl' hw
      simp only [get_set_if _ _ _ _ hvl] at hw
      split at hw
      · cases hw
      · exact h.vars w sl' hw
    · unfold view; simp [hvl]
  | clear v =>
    obtain ⟨sl, hsl⟩ := exists_views hl
    have hok : SliceOk s { sl with num := 0 } := by
      have := h.vars v sl hsl
      unfold SliceOk at *
      simp only
      split
      · trivial
      · rename_i b hb; rw [hb] at this; obtain ⟨x, hx, hle⟩ := this; exact ⟨x, hx, by omega⟩
    have := setVar_spec h (lt_of_get hsl) hok
    refine ⟨setVar s v { sl with num := 0 }, by simp only [exec, getVar_ok hsl, res_bind_ok], this.1, this.2.1,
      fun _ => views_set (lt_of_get hsl) (by simp [setVar]) this.2.1 ?_⟩
    rw [this.2.2]
    have : contents s { sl with num := 0 } = [] := by
      unfold contents; simp only; split
      · rfl
      · split <;> simp
    rw [this]
  | pull v =>
    obtain ⟨sl, hsl⟩ := exists_views hl.1
    have hpos := hl.2
    rw [shown_views s v hsl, contents_length h hsl] at hpos
    have hcap := num_cap h hsl
    have hok : SliceOk s { sl with num := sl.num - 1 } := by
      have := h.vars v sl hsl
      unfold SliceOk at *
      simp only
      split
      · rename_i hb; rw [hb] at this; simp only at this; omega
      · rename_i b hb; rw [hb] at this; obtain ⟨x, hx, hle⟩ := this; exact ⟨x, hx, by omega⟩
    have := setVar_spec h (lt_of_get hsl) hok
    obtain ⟨y, _, hy⟩ := elem_ok h hsl (sl.num - 1) (by omega)
    have ht : toInt (sl.num - 1) = ((sl.num - 1 : Nat) : Int) := by unfold toInt; rw [if_pos (by omega)]
    have hd : decide (sl.num > 0) = true := by simpa using hpos
    refine ⟨setVar s v { sl with num := sl.num - 1 }, ?_, this.1, this.2.1,
      fun _ => views_set (lt_of_get hsl) (by simp [setVar]) this.2.1 ?_⟩
    · simp only [exec, getVar_ok hsl, res_bind_ok, hd, assert_true, ht, hy]
    · rw [this.2.2, shown_views s v hsl]
      have hlen := contents_length h hsl
      congr 1
      rw [List.dropLast_eq_take, hlen]
      unfold contents
      simp only
      split
      · simp
      · split
        · rw [List.take_take]; congr 1; omega
        · simp
  | set v i e =>
    obtain ⟨sl, hsl⟩ := exists_views hl.1
    obtain ⟨h0, h1⟩ := hl.2
    rw [shown_views s v hsl, contents_length h hsl] at h1
    obtain ⟨s', a1, a2, a3, a4, a5⟩ := set_ok h hsl i.toNat e (by omega) hr
    have ei : ((i.toNat : Nat) : Int) = i := by omega
    rw [ei] at a1
    exact ⟨s', a1, a2, a4, fun _ => views_set (lt_of_get hsl) a3 a4 (by rw [a5, shown_views s v hsl])⟩
  | remove v at_ len =>
    obtain ⟨sl, hsl⟩ := exists_views hl.1
    obtain ⟨h0, h1⟩ := hl.2
    rw [shown_views s v hsl, contents_length h hsl] at h0 h1
    obtain ⟨s', a1, a2, a3, a4, a5⟩ := remove_ok h hsl at_ len h0 h1 hr
    refine ⟨s', a1, a2, a4, fun hg => views_set (lt_of_get hsl) a3 a4 ?_⟩
    have hlen := contents_length h hsl
    have hcond : AtFront s v ∨ at_ = 0 ∨ at_ + effLen sl.num at_ len = sl.num := by
      simp only [Good] at hg
      rw [shown_views s v hsl, hlen] at hg
      unfold effLen
      rcases hg with hg | hg | hg | hg
      · exact Or.inl hg
      · exact Or.inr (Or.inl hg)
      · right; right; rw [if_pos hg]; omega
      · by_cases hm : len = -1
        · right; right; rw [if_pos hm]; omega
        · right; right; rw [if_neg hm]; omega
    rw [a5 hcond, shown_views s v hsl]
    congr 2
    unfold effLen
    split
    · rw [List.drop_of_length_le]; omega
    · rfl
  | deleteAt v at_ =>
    obtain ⟨sl, hsl⟩ := exists_views hl.1
    have h0 := hl.2
    rw [shown_views s v hsl, contents_length h hsl] at h0
    have hcap := num_cap h hsl
    obtain ⟨s', a1, a2, a3, a4, a5⟩ := remove_ok h hsl at_ 1 (by omega) (Or.inr ⟨by omega, by omega⟩) hr
    obtain ⟨y, _, hy⟩ := elem_ok h hsl at_ h0
    have ht : toInt at_ = (at_ : Int) := by unfold toInt; rw [if_pos (by omega)]
    refine ⟨s', by simp only [exec, ht, hy, res_bind_ok, a1], a2, a4, fun hg => views_set (lt_of_get hsl) a3 a4 ?_⟩
    simp only [Good] at hg
    rw [shown_views s v hsl, contents_length h hsl] at hg
    have e1 : effLen sl.num at_ 1 = 1 := by unfold effLen; rw [if_neg (by omega)]; rfl
    rw [e1] at a5
    rw [a5 hg, shown_views s v hsl, List.eraseIdx_eq_take_drop_succ]
  | push v e =>
    obtain ⟨sl, hsl⟩ := exists_views hl
    obtain ⟨s', a1, a2, a3, a4, a5⟩ := push_ok h hsl e hr
    exact ⟨s', a1, a2, a4, fun hg => views_set (lt_of_get hsl) a3 a4 (by rw [a5 hg, shown_views s v hsl])⟩
  | insert v pos w =>
    obtain ⟨hv, hw, hne, hp⟩ := hl
    obtain ⟨sl, hsl⟩ := exists_views hv
    obtain ⟨ad, had⟩ := exists_views hw
    rw [shown_views s v hsl, contents_length h hsl] at hp
    simp only [added] at hr
    rw [shown_views s w had, contents_length h had] at hr
    obtain ⟨s', a1, a2, a3, a4, a5⟩ := insert_ok h hne hsl had pos hp hr
    exact ⟨s', a1, a2, a4, fun hg => views_set (lt_of_get hsl) a3 a4
      (by rw [a5 hg, shown_views s v hsl, shown_views s w had])⟩
  | slice w at_ len =>
    obtain ⟨hw, hge, hlt⟩ := hl
    obtain ⟨sl, hsl⟩ := exists_views hw
    have hgood := hslice w at_ len rfl sl hsl
    have hcap := num_cap h hsl
    have hlen := contents_length h hsl
    have hd : decide (len ≥ -1) = true := by simpa using hge
    by_cases c : at_ ≥ sl.num ∨ len = 0
    · have := newVar_spec h (sl := ⟨none, 0, 0⟩) rfl
      refine ⟨newVar s ⟨none, 0, 0⟩, ?_, this.1, this.2.1, fun _ => views_push (by simp [newVar]) this.2.1 ?_⟩
      · have c' : (decide (at_ ≥ sl.num) || len == 0) = true := by simpa using c
        simp only [exec, slice, getVar_ok hsl, res_bind_ok, hd, assert_true, c', if_true]
      · rw [this.2.2, shown_views s w hsl]
        have hnil : (if len = -1 then (contents s sl).drop at_ else ((contents s sl).drop at_).take len.toNat) = [] := by
          rcases c with c | c
          · rw [List.drop_of_length_le (by omega)]; simp
          · subst c; simp
        rw [hnil]; rfl
    · have c' : (decide (at_ ≥ sl.num) || len == 0) = false := by
        simp only [not_or, Nat.not_le] at c
        simp; omega
      simp only [not_or, Nat.not_le] at c
      obtain ⟨b, x, hb, hx, hend⟩ := hgood (by omega) c.2
      have hok := h.vars w sl hsl
      unfold SliceOk at hok
      rw [hb] at hok
      obtain ⟨x', hx', hxle⟩ := hok
      rw [hx] at hx'; cases hx'
      have hxcap := (h.bodies b x hx).cap
      have hn : (if (len == -1) = true then sl.num - at_ else if wrap len > sl.num - at_ then sl.num - at_ else wrap len) =
          (if len = -1 then sl.num - at_ else min len.toNat (sl.num - at_)) := by
        by_cases hm : len = -1
        · simp [hm]
        · have hw1 : wrap len = len.toNat := by unfold wrap; omega
          simp only [beq_iff_eq, hm, if_false, hw1]
          split <;> omega
      generalize hN : (if len = -1 then sl.num - at_ else min len.toNat (sl.num - at_)) = n at hn hend
      have hnle : at_ + n ≤ sl.num := by
        rw [← hN]; split <;> omega
      have hok : SliceOk s ⟨some b, sl.off + at_, n⟩ := ⟨x, hx, by simp only; omega⟩
      have := newVar_spec h hok
      have w1 : wrap ((sl.off + at_ : Nat) + (n : Nat) : Int) = sl.off + at_ + n := by unfold wrap; omega
      have d1 : decide (sl.off + at_ < x.num) = true := by simp; omega
      have d2 : decide (sl.off + at_ + n < x.num) = true := by simpa using hend
      refine ⟨newVar s ⟨some b, sl.off + at_, n⟩, ?_, this.1, this.2.1, fun _ => views_push (by simp [newVar]) this.2.1 ?_⟩
      · simp only [exec, slice, getVar_ok hsl, res_bind_ok, hd, assert_true, c', Bool.false_eq_true, if_false]
        simp only [hn, mkSlice, hb, getBody, hx, res_bind_ok, w1, d1, d2, assert_true]
      · rw [this.2.2, shown_views s w hsl]
        congr 1
        simp only [contents, hb, hx]
        rw [← hN]
        rw [List.drop_take, List.drop_drop]
        split
        · rfl
        · rw [List.take_take]
  | plus w e =>
    obtain ⟨sl, hsl⟩ := exists_views hl
    have hlen := contents_length h hsl
    have hnum := hr.num h hsl
    obtain ⟨b, b1, b2, b3, b4, b5⟩ := ofData_spec (contents s sl) (sl.num + 1) (by omega) hnum
    have h1 := addBody_spec h b2
    have h2 := newVar_spec h1.1 (sl := ⟨some s.bodies.length, 0, sl.num⟩) ⟨b, by simp, by simp only; omega⟩
    have hnew : (newVar { s with bodies := s.bodies ++ [b] } ⟨some s.bodies.length, 0, sl.num⟩).vars[s.vars.length]? =
        some (some ⟨some s.bodies.length, 0, sl.num⟩) := by simp [newVar]
    have hroom : Roomy (newVar { s with bodies := s.bodies ++ [b] } ⟨some s.bodies.length, 0, sl.num⟩) 1 := by
      refine ⟨hr.1, ?_⟩
      intro x hx
      simp only [newVar, List.mem_append, List.mem_singleton] at hx
      rcases hx with hx | rfl
      · have := hr.2 x hx
        simpa only [added] using this
      · simp only [added] at hnum; omega
    obtain ⟨s', a1, a2, a3, a4, a5⟩ := push_ok h2.1 hnew e hroom
    have h3 : ∀ u, u ≠ s.vars.length → view s' u = view s u := fun u hu => by rw [a4 u hu, h2.2.1 u hu, h1.2 u]
    refine ⟨s', ?_, a2, h3, fun _ => views_push (by rw [a3]; simp [newVar]) h3 ?_⟩
    · simp only [exec, plusElem, getVar_ok hsl, res_bind_ok, elements_ok h hsl, b1, a1]
    · rw [a5 ?_, shown_views s w hsl]
      · congr 2
        have e : (s.bodies ++ [b])[s.bodies.length]? = some b := by simp
        simp only [contents, newVar, e, List.drop_zero]
        have hb : b.elems = b.mem.take sl.num := by rw [Body.elems, b5, hlen]
        rw [← hb]; exact b4
      · intro sl' hsl'
        rw [hnew] at hsl'
        cases hsl'
        exact Or.inl rfl

/-- A slice call that returns met the condition of `Good`. -/
theorem slice_good {s s' : State E} (h : WF s) {w at_ : Nat} {len : Int} (hl : Legal (views s) (.slice w at_ len))
    (hx : exec s (.slice w at_ len) = .ok s') : Good s (.slice w at_ len) := by
  intro sl hsl hat hne
  obtain ⟨hw, hge, hlt⟩ := hl
  have hcap := num_cap h hsl
  have hd : decide (len ≥ -1) = true := by simpa using hge
  have hok := h.vars w sl hsl
  have c' : (decide (at_ ≥ sl.num) || len == 0) = false := by simp; omega
  unfold SliceOk at hok
  cases hb : sl.body with
  | none => rw [hb] at hok; simp only at hok; omega
  | some b =>
    rw [hb] at hok
    obtain ⟨x, hx1, hle⟩ := hok
    have hxn := (h.bodies b x hx1).4
    refine ⟨b, x, rfl, hx1, ?_⟩
    simp only [exec, slice, getVar_ok hsl, res_bind_ok, hd, assert_true, c', mkSlice, hb, getBody, hx1] at hx
    have hn : ∀ n : Nat, n < 4294967296 → wrap (n : Int) = n := by intro n hn; unfold wrap; omega
    have hwl : len ≠ -1 → wrap len = len.toNat := by intro hh; unfold wrap; omega
    have hval : (if (len == -1) = true then sl.num - at_ else if wrap len > sl.num - at_ then sl.num - at_ else wrap len) =
        (if len = -1 then sl.num - at_ else min len.toNat (sl.num - at_)) := by
      by_cases e : len = -1
      · simp [e]
      · rw [if_neg (by simpa using e), if_neg e, hwl e]; split <;> omega
    rw [hval] at hx
    have hL : (if len = -1 then sl.num - at_ else min len.toNat (sl.num - at_)) ≤ sl.num - at_ := by split <;> omega
    generalize (if len = -1 then sl.num - at_ else min len.toNat (sl.num - at_)) = L at hx hL ⊢
    by_cases hlt2 : sl.off + at_ + L < x.num
    · exact hlt2
    · exfalso
      have e1 : decide (wrap ((sl.off + at_ + L : Nat) : Int) < x.num) = false := by
        rw [hn _ (by omega)]; simpa using hlt2
      simp only [Int.natCast_add] at e1
      simp only [Bool.false_eq_true, if_false, Int.natCast_add, e1] at hx
      cases hc : decide (sl.off + at_ < x.num) <;> rw [hc] at hx
      · cases hx
      · cases hx

/-- C18. Whatever the history of sharing that led here, a call changes what is shown by no variable but its own. (For
calls that break the rules of `Legal`, or exceed 2^31 elements, nothing is claimed. A slice that reaches the end of its
body aborts: `C19_refuted_slice`.) -/
theorem C18_isolation {s s' : State E} (h : WF s) (op : Op E) (hl : Legal (views s) op)
    (hr : Roomy s (added (views s) op)) (hx : exec s op = .ok s') :
    WF s' ∧ ∀ w, w ≠ target s.vars.length op → view s' w = view s w := by
  obtain ⟨s1, h1, h2⟩ := exec_does h op hl hr (fun u a n e => by subst e; exact slice_good h hl hx)
  rw [hx] at h1; cases h1
  exact ⟨h2.1, h2.2.1⟩

/-- A history of calls, each legal and within the size limit when it comes, that returned; the states in between are
existentially quantified. It may include the calls whose results this code gets wrong. -/
inductive Runs : State E → List (Op E) → State E → Prop
  | nil (s) : Runs s [] s
  | cons {s s1 s2 : State E} {op : Op E} {ops : List (Op E)} : Legal (views s) op → Roomy s (added (views s) op) →
      exec s op = .ok s1 → Runs s1 ops s2 → Runs s (op :: ops) s2

/-- C18, whole histories. From the start of the program, by any history of calls (first `before`, then `ops`), a variable
that none of the calls in `ops` names as its target shows afterwards what it showed before them. -/
theorem C18_history {before ops : List (Op E)} {s s' : State E} (h0 : Runs State.init before s) (h : Runs s ops s')
    (w : Nat) (hw : ∀ (i : Nat) (op : Op E) (si : State E), ops[i]? = some op → Runs s (ops.take i) si →
      w ≠ target si.vars.length op) : view s' w = view s w := by
  have hwf : ∀ {s : State E} {ops : List (Op E)} {s' : State E}, Runs s ops s' → WF s → WF s' := by
    intro s ops s' h
    induction h with
    | nil s => exact id
    | cons hl hr hx _ ih => exact fun hw => ih (C18_isolation hw _ hl hr hx).1
  have hs : WF s := hwf h0 ⟨by simp [State.init], by simp [State.init]⟩
  clear h0
  induction h with
  | nil s => rfl
  | cons hl hr hx hrest ih =>
    have h1 := C18_isolation hs _ hl hr hx
    rw [ih ?_ h1.1]
    · exact h1.2 w (hw 0 _ _ rfl (by simpa using Runs.nil _))
    · intro i op si hop hr'
      exact hw (i + 1) op si (by simpa using hop) (by simpa using Runs.cons hl hr hx hr')

/-- C19 (partial). A legal call gives, on all variables at once, what the call gives on plain lists, and leaves a
well-formed state. Missing: the calls excluded by `Good`, which this code gets wrong (see the refutations). -/
theorem C19_step_partial {s : State E} (h : WF s) (op : Op E) (hl : Legal (views s) op)
    (hr : Roomy s (added (views s) op)) (hg : Good s op) :
    ∃ s', exec s op = .ok s' ∧ WF s' ∧ views s' = specStep (views s) op := by
  obtain ⟨s', h1, h2⟩ := exec_does h op hl hr (fun _ _ _ _ => hg)
  exact ⟨s', h1, h2.1, h2.2.2 hg⟩

/-- every call of the history is legal, fits and is good when it comes -/
def Allowed : State E → List (Op E) → Prop
  | _, [] => True
  | s, op :: ops => Legal (views s) op ∧ Roomy s (added (views s) op) ∧ Good s op ∧ ∀ s', exec s op = .ok s' → Allowed s' ops

/-- C19 (partial). The same for a whole history from the start of the program. -/
theorem C19_history_partial (ops : List (Op E)) (h : Allowed (State.init : State E) ops) :
    ∃ s', execAll State.init ops = .ok s' ∧ WF s' ∧ views s' = ops.foldl specStep [] := by
  have key : ∀ (ops : List (Op E)) (s : State E), WF s → Allowed s ops →
      ∃ s', execAll s ops = .ok s' ∧ WF s' ∧ views s' = ops.foldl specStep (views s) := by
    intro ops
    induction ops with
    | nil => intro s hs _; exact ⟨s, rfl, hs, rfl⟩
    | cons op ops ih =>
      intro s hs ha
      obtain ⟨a1, a2, a3, a4⟩ := ha
      obtain ⟨s1, b1, b2, b3⟩ := C19_step_partial hs op a1 a2 a3
      obtain ⟨s2, c1, c2, c3⟩ := ih s1 b2 (a4 s1 b1)
      refine ⟨s2, by simp only [execAll, b1, res_bind_ok, c1], c2, ?_⟩
      rw [c3, b3]; rfl
  have hwf : WF (State.init : State E) := ⟨by simp [State.init], by simp [State.init]⟩
  exact key ops State.init hwf h

/-- C19. Reading an element gives that element of the list shown. -/
theorem C19_elem {s : State E} (h : WF s) (v : Nat) (l : List E) (hv : view s v = some l) (i : Nat) (hi : i < l.length) :
    elem s v i = .ok l[i] := by
  unfold view at hv
  split at hv
  · rename_i sl hsl
    cases hv
    rw [contents_length h hsl] at hi
    obtain ⟨x, hx, he⟩ := elem_ok h hsl i hi
    rw [he]
    rw [List.getElem?_eq_some_iff] at hx
    obtain ⟨_, hx⟩ := hx
    rw [hx]
  · cases hv

/-- C19 at full strength is false: after `shift`, an element pushed does not come last ([1,2,3].shift().push(9) shows
[2,9,3]). -/
theorem C19_refuted_push : (execAll (State.init : State Nat) [.ofData [1, 2, 3] 0, .deleteAt 0 0, .push 0 9]).map views =
    .ok [some [2, 9, 3]] := by decide

/-- C19 at full strength is false: `remove` from the middle, after `shift`, removes the wrong element. -/
theorem C19_refuted_remove :
    (execAll (State.init : State Nat) [.ofData [1, 2, 3, 4] 0, .deleteAt 0 0, .remove 0 1 1]).map views =
    .ok [some [3, 4]] := by decide

/-- C19 at full strength is false: clearing after `shift` and then pushing shows an old element, not the one pushed. -/
theorem C19_refuted_clear :
    (execAll (State.init : State Nat) [.ofData [1, 2, 3] 0, .deleteAt 0 0, .clear 0, .push 0 9]).map views =
    .ok [some [1]] := by decide

/-- C19 at full strength is false: every slice that reaches the end of its body aborts, e.g. the whole of an array, or
its tail. -/
theorem C19_refuted_slice :
    execAll (State.init : State Nat) [.ofData [1, 2, 3] 0, .slice 0 0 (-1)] = .error .assertion ∧
    execAll (State.init : State Nat) [.ofData [1, 2, 3] 0, .slice 0 2 1] = .error .assertion := by decide

/-- Non-vacuity of the hypotheses, and an example of sharing: a copy pushed to, a slice, contiguous slices joined. -/
example : (execAll (State.init : State Nat) [.ofData [1, 2, 3, 4, 5] 0, .copy 0, .push 1 6, .slice 0 0 2, .slice 0 2 2,
    .insert 2 2 3, .remove 1 1 2]).map views =
    .ok [some [1, 2, 3, 4, 5], some [1, 4, 5, 6], some [1, 2, 3, 4], some [3, 4]] := by decide

example : WF (State.init : State Nat) ∧ Legal (views (State.init : State Nat)) (.ofData [1, 2, 3] 8) ∧
    Roomy (State.init : State Nat) (added (views (State.init : State Nat)) (.ofData [1, 2, 3] 8)) :=
  ⟨⟨by simp [State.init], by simp [State.init]⟩, trivial, by decide, by simp [State.init]⟩

/-! ### C20: searches. The slice shown is `(mem.drop off).take num`, within the storage. -/

/-- `i` is the first index, from `start` on, at which `p` holds -/
def FirstFrom (p : E → Bool) (l : List E) (start : Nat) (i : Nat) : Prop :=
  start ≤ i ∧ (∃ x, l[i]? = some x ∧ p x = true) ∧ ∀ (j : Nat) (y : E), start ≤ j → j < i → l[j]? = some y → p y = false

/-- C20. `find` returns the first index after `after` at which the element matches, or -1 if there is none. -/
theorem C20_find (p : E → Bool) (mem : List E) (off num : Nat) (h : off + num ≤ mem.length) (after : Int)
    (l : List E) (hl : l = (mem.drop off).take num) :
    ∃ r, find p mem off num after = .ok r ∧
      ((r = -1 ∧ ∀ (j : Nat) (y : E), after < j → l[j]? = some y → p y = false) ∨
       ∃ i : Nat, r = i ∧ FirstFrom p l (if after < 0 then 0 else (after + 1).toNat) i) := by
  have hget : ∀ i : Nat, i < num → ∃ y, l[i]? = some y ∧ rd mem (off + i) = .ok y := by
    intro i hi
    refine ⟨mem[off + i], ?_, rd_lt _ _ _⟩
    rw [hl, List.getElem?_take, if_pos hi, List.getElem?_drop, List.getElem?_eq_getElem]
  have hlen : ∀ (j : Nat) (y : E), l[j]? = some y → j < num := by
    intro j y hy
    have := lt_of_get hy
    rw [hl] at this; simp at this; omega
  have key : ∀ n i, i + n = num ∨ (n = 0 ∧ num ≤ i) → ∃ r, findLoop p mem off i n = .ok r ∧
      ((r = -1 ∧ ∀ (j : Nat) (y : E), i ≤ j → l[j]? = some y → p y = false) ∨ ∃ k : Nat, r = k ∧ FirstFrom p l i k) := by
    intro n
    induction n with
    | zero =>
      intro i hi
      refine ⟨-1, rfl, Or.inl ⟨rfl, ?_⟩⟩
      intro j y hj hy
      have := hlen j y hy; omega
    | succ n ih =>
      intro i hi
      have hin : i < num := by omega
      obtain ⟨y, hy1, hy2⟩ := hget i hin
      unfold findLoop
      rw [hy2, res_bind_ok]
      by_cases hp : p y = true
      · rw [if_pos hp]
        exact ⟨i, rfl, Or.inr ⟨i, rfl, Nat.le_refl _, ⟨y, hy1, hp⟩, fun j _ h1 h2 => by omega⟩⟩
      · rw [if_neg hp]
        obtain ⟨r, hr, hcase⟩ := ih (i + 1) (by omega)
        refine ⟨r, hr, ?_⟩
        have hstep : ∀ (j : Nat) (z : E), j = i → l[j]? = some z → p z = false := by
          intro j z hj hz
          subst hj; rw [hy1] at hz; cases hz; simpa using hp
        rcases hcase with ⟨h1, h2⟩ | ⟨k, h1, h2, h3, h4⟩
        · left; refine ⟨h1, fun j z hj hz => ?_⟩
          by_cases hji : j = i
          · exact hstep j z hji hz
          · exact h2 j z (by omega) hz
        · right; refine ⟨k, h1, by omega, h3, fun j z hj hjk hz => ?_⟩
          by_cases hji : j = i
          · exact hstep j z hji hz
          · exact h4 j z (by omega) hjk hz
  unfold find
  generalize hst : (if after < 0 then 0 else (after + 1).toNat) = start
  simp only
  obtain ⟨r, hr, hcase⟩ := key (num - start) start (by omega)
  refine ⟨r, hr, ?_⟩
  rcases hcase with ⟨h1, h2⟩ | h1
  · left; refine ⟨h1, fun j y hj hy => h2 j y ?_ hy⟩
    rw [← hst]; split <;> omega
  · exact Or.inr h1

/-- C20 (partial). `rfind` returns the last matching index below the bound, *but never looks at index 0*. -/
theorem C20_rfind_partial (p : E → Bool) (mem : List E) (off num : Nat) (h : off + num ≤ mem.length) (before : Int)
    (hb : before ≤ num) (l : List E) (hl : l = (mem.drop off).take num) :
    ∃ r, rfind p mem off num before = .ok r ∧
      ((r = -1 ∧ ∀ (j : Nat) (y : E), 0 < j → (j : Int) < (if before < 0 then (num : Int) else before) → l[j]? = some y → p y = false) ∨
       ∃ i : Nat, r = i ∧ 0 < i ∧ (i : Int) < (if before < 0 then (num : Int) else before) ∧ (∃ x, l[i]? = some x ∧ p x = true) ∧
        ∀ (j : Nat) (y : E), i < j → (j : Int) < (if before < 0 then (num : Int) else before) → l[j]? = some y → p y = false) := by
  have hget : ∀ i : Nat, i < num → ∃ y, l[i]? = some y ∧ rd mem (off + i) = .ok y := by
    intro i hi
    refine ⟨mem[off + i], ?_, rd_lt _ _ _⟩
    rw [hl, List.getElem?_take, if_pos hi, List.getElem?_drop, List.getElem?_eq_getElem]
  have key : ∀ i, i < num → ∃ r, rfindLoop p mem off i = .ok r ∧
      ((r = -1 ∧ ∀ (j : Nat) (y : E), 0 < j → j ≤ i → l[j]? = some y → p y = false) ∨
        ∃ k : Nat, r = k ∧ 0 < k ∧ k ≤ i ∧ (∃ x, l[k]? = some x ∧ p x = true) ∧
          ∀ (j : Nat) (y : E), k < j → j ≤ i → l[j]? = some y → p y = false) := by
    intro i
    induction i with
    | zero => intro _; exact ⟨-1, rfl, Or.inl ⟨rfl, fun j _ h1 h2 => by omega⟩⟩
    | succ i ih =>
      intro hi
      obtain ⟨y, hy1, hy2⟩ := hget (i + 1) hi
      unfold rfindLoop
      rw [hy2, res_bind_ok]
      by_cases hp : p y = true
      · rw [if_pos hp]
        exact ⟨_, rfl, Or.inr ⟨i + 1, rfl, by omega, by omega, ⟨y, hy1, hp⟩, fun j _ h1 h2 => by omega⟩⟩
      · rw [if_neg hp]
        obtain ⟨r, hr, hcase⟩ := ih (by omega)
        have hstep : ∀ (j : Nat) (z : E), j = i + 1 → l[j]? = some z → p z = false := by
          intro j z hj hz
          subst hj; rw [hy1] at hz; cases hz; simpa using hp
        refine ⟨r, hr, ?_⟩
        rcases hcase with ⟨h1, h2⟩ | ⟨k, h1, h2, h3, h4, h5⟩
        · left; refine ⟨h1, fun j z hj1 hj2 hz => ?_⟩
          by_cases hji : j = i + 1
          · exact hstep j z hji hz
          · exact h2 j z hj1 (by omega) hz
        · right; refine ⟨k, h1, h2, by omega, h4, fun j z hj1 hj2 hz => ?_⟩
          by_cases hji : j = i + 1
          · exact hstep j z hji hz
          · exact h5 j z hj1 (by omega) hz
  unfold rfind
  generalize hst : (if before < 0 then (num : Int) else before) = bound
  have hbd : bound ≤ num := by rw [← hst]; split <;> omega
  simp only
  by_cases hz : bound - 1 ≤ 0
  · rw [if_pos hz]
    exact ⟨-1, rfl, Or.inl ⟨rfl, fun j _ h1 h2 => by omega⟩⟩
  · rw [if_neg hz]
    obtain ⟨r, hr, hcase⟩ := key (bound - 1).toNat (by omega)
    refine ⟨r, hr, ?_⟩
    rcases hcase with ⟨h1, h2⟩ | ⟨k, h1, h2, h3, h4, h5⟩
    · left; exact ⟨h1, fun j y a b c => h2 j y a (by omega) c⟩
    · right; exact ⟨k, h1, h2, by omega, h4, fun j y a b c => h5 j y a (by omega) c⟩

/-- C20 at full strength is false: `rfind` misses a match at index 0; `compare` calls an array equal to a proper prefix
of it; `bsearch` misses index 0 and reads past the end. -/
theorem C20_refuted :
    rfind (· == 7) [7, 1] 0 2 (-1) = .ok (-1) ∧
    compare (fun a b : Nat => decide (a < b)) [1, 2] [1] = 0 ∧
    bsearch (fun x : Nat => (x : Int) - 1) [1, 2, 3] 0 3 = .ok (-1) ∧
    bsearch (fun x : Nat => (x : Int) - 9) [1] 0 1 = .error .ub := by decide

theorem readable {mem : List E} {off num : Nat} (h : off + num + 1 ≤ mem.length) :
    ∃ y, rd mem off = .ok y ∧ (mem.drop off).take (num + 1) = y :: (mem.drop (off + 1)).take num := by
  have hlt : off < mem.length := by omega
  refine ⟨mem[off], rd_lt _ _ hlt, ?_⟩
  rw [List.drop_eq_getElem_cons hlt, List.take_succ_cons]

/-- C20. `all`, `any`, `one`, `inject` and `each` are the list functions. -/
theorem C20_quantifiers (p : E → Bool) (mem : List E) (num : Nat) : ∀ (off : Nat), off + num ≤ mem.length →
    all p mem off num = .ok (((mem.drop off).take num).all p) ∧
    any p mem off num = .ok (((mem.drop off).take num).any p) ∧
    one p mem off num false = .ok (decide (((mem.drop off).take num).countP p = 1)) := by
  have hone : ∀ num off, off + num ≤ mem.length →
      (∀ found, one p mem off num found = .ok (decide (((mem.drop off).take num).countP p + (if found then 1 else 0) = 1))) := by
    intro num
    induction num with
    | zero => intro off _ found; cases found <;> simp [one]
    | succ n ih =>
      intro off h found
      obtain ⟨y, h1, h2⟩ := readable (num := n) (by omega : off + n + 1 ≤ mem.length)
      unfold one
      rw [h1, res_bind_ok, h2, List.countP_cons]
      have i1 := ih (off + 1) (by omega)
      by_cases hp : p y = true
      · simp only [hp, if_true]
        cases found with
        | true => simp
        | false =>
          simp only [Bool.false_eq_true, if_false]
          rw [i1]; simp
      · have hp' : p y = false := by simpa using hp
        simp only [hp', Bool.false_eq_true, if_false]
        rw [i1]; simp
  induction num with
  | zero => intro off _; simp [all, any, one]
  | succ n ih =>
    intro off h
    refine ⟨?_, ?_, by rw [hone _ _ h]; simp⟩
    · obtain ⟨y, h1, h2⟩ := readable (num := n) (by omega : off + n + 1 ≤ mem.length)
      unfold all
      rw [h1, res_bind_ok, h2, List.all_cons, (ih (off + 1) (by omega)).1]
      cases p y <;> simp
    · obtain ⟨y, h1, h2⟩ := readable (num := n) (by omega : off + n + 1 ≤ mem.length)
      unfold any
      rw [h1, res_bind_ok, h2, List.any_cons, (ih (off + 1) (by omega)).2.1]
      cases p y <;> simp

theorem C20_inject {J : Type} (f : J → E → J) (mem : List E) (num : Nat) : ∀ (off : Nat) (j : J), off + num ≤ mem.length →
    inject f mem off num j = .ok (((mem.drop off).take num).foldl f j) := by
  induction num with
  | zero => intro off j _; simp [inject]
  | succ n ih =>
    intro off j h
    obtain ⟨y, h1, h2⟩ := readable (num := n) (by omega : off + n + 1 ≤ mem.length)
    unfold inject
    rw [h1, res_bind_ok, h2, List.foldl_cons, ih _ _ (by omega)]

/-- C20. `operator==` holds exactly for equal lists (of elements whose own `==` is equality). -/
theorem C20_equal [DecidableEq E] (a b : List E) : equal (fun x y => decide (x = y)) a b = decide (a = b) := by
  unfold equal
  rw [Bool.eq_iff_iff]
  simp only [Bool.and_eq_true, beq_iff_eq, decide_eq_true_iff, List.all_eq_true]
  constructor
  · rintro ⟨h1, h2⟩
    apply List.ext_getElem h1
    intro i ha hb
    exact h2 (a[i], b[i]) (List.mem_iff_getElem.2 ⟨i, by simp; omega, by simp⟩)
  · rintro rfl
    refine ⟨rfl, ?_⟩
    rintro ⟨x, y⟩ h
    obtain ⟨i, hi, he⟩ := List.mem_iff_getElem.1 h
    simp at he
    rw [← he.1, ← he.2]

/-- C20 (partial). `compare` is the lexicographic order when the first array is not longer than the second. -/
theorem C20_compare_partial (a b : List Nat) (h : a.length ≤ b.length) :
    compare (fun x y => decide (x < y)) a b = if a = b then 0 else if a < b then -1 else 1 := by
  induction a generalizing b with
  | nil =>
    cases b with
    | nil => rfl
    | cons y ys => simp [compare]
  | cons x xs ih =>
    cases b with
    | nil => simp at h
    | cons y ys =>
      simp only [List.length_cons, Nat.add_le_add_iff_right] at h
      unfold compare
      simp only [decide_eq_true_eq]
      by_cases h1 : x < y
      · rw [if_pos h1, if_neg (by intro e; cases e; omega), if_pos (show x :: xs < y :: ys from List.Lex.rel h1)]
      · rw [if_neg h1]
        by_cases h2 : y < x
        · rw [if_pos h2, if_neg (by intro e; cases e; omega), if_neg]
          intro hlt
          cases hlt with
          | rel h => omega
          | cons h => omega
        · rw [if_neg h2]
          have : x = y := by omega
          subst this
          rw [ih ys h]
          have e1 : (x :: xs = x :: ys) ↔ xs = ys := by simp
          have e2 : (x :: xs < x :: ys) ↔ xs < ys := by
            constructor
            · intro hlt
              cases hlt with
              | rel h => omega
              | cons h => exact h
            · intro hlt; exact List.Lex.cons hlt
          simp only [e1, e2]

/-- C20 (partial). When `bsearch` reports an index, that element compares equal; indices are in bounds. Missing: it does
not find every element, and may read one beyond the end (`C20_refuted`). -/
theorem C20_bsearch_partial (cmp : E → Int) (mem : List E) (off num : Nat) (hn : num < 2147483648) (i : Int)
    (h : bsearch cmp mem off num = .ok i) : i = -1 ∨ ∃ (k : Nat) (x : E), i = k ∧ mem[off + k]? = some x ∧ cmp x = 0 ∧ k ≤ num := by
  have key : ∀ fuel l r, r ≤ num → ∀ i, bsearchLoop cmp mem off fuel l r = .ok i →
      i = -1 ∨ ∃ (k : Nat) (x : E), i = k ∧ mem[off + k]? = some x ∧ cmp x = 0 ∧ k ≤ num := by
    intro fuel
    induction fuel with
    | zero => intro l r _ i h; cases h
    | succ fuel ih =>
      intro l r hr i h
      rw [bsearchLoop] at h
      split at h
      · rename_i hlr
        have hbind : ∀ {α β : Type} {m : Res α} {f : α → Res β} {b : β}, (m >>= f) = .ok b → ∃ a, m = .ok a ∧ f a = .ok b := by
          intro α β m f b hh
          cases m with
          | error e => cases hh
          | ok a => exact ⟨a, rfl, hh⟩
        obtain ⟨x, hx, h⟩ := hbind h
        have hx := rd_eq_ok.mp hx
        simp only at h
        split at h
        · rename_i hc
          cases h
          refine Or.inr ⟨_, x, ?_, hx, by simpa using hc, by omega⟩
          unfold toInt
          rw [if_pos (by omega)]
        · split at h
          · refine ih l _ ?_ i h
            unfold wrap
            omega
          · exact ih _ r hr i h
      · cases h; exact Or.inl rfl
  exact key _ _ _ (Nat.le_refl _) i h

example : bsearch (fun x : Nat => (x : Int) - 30) [10, 20, 30, 40, 50, 60, 70] 0 7 = .ok 2 ∧
    bsearch (fun x : Nat => (x : Int) - 70) [10, 20, 30, 40, 50, 60, 70] 0 7 = .ok 6 := by decide

/-- Besides: `delete_if` on an unshared array never deletes anything, whatever the condition. -/
theorem delete_if_no_effect (cond : E → Bool) (mem : List E) (off num : Nat) (h : off + num ≤ mem.length) :
    deleteIf cond mem off num = .ok num := by
  have key : ∀ n off bp, 0 ≤ bp → off + n ≤ mem.length → ∃ r, deleteIfLoop cond mem off n bp = .ok r ∧ 0 ≤ r := by
    intro n
    induction n with
    | zero => intro off bp h0 _; exact ⟨bp, rfl, h0⟩
    | succ n ih =>
      intro off bp h0 hle
      obtain ⟨y, h1, _⟩ := readable (num := n) (by omega : off + n + 1 ≤ mem.length)
      unfold deleteIfLoop
      rw [h1, res_bind_ok]
      exact ih _ _ (by split <;> omega) (by omega)
  obtain ⟨r, hr, h0⟩ := key num off 0 (by omega) h
  unfold deleteIf
  rw [hr, res_bind_ok, if_neg (by omega)]

/-! ### C21: storage -/

/-- C21. `insert` writes only inside the allocation (any other store is a fault), gives the spliced elements, and keeps
`num_elements <= num_alloc` (`Body.WF`). -/
theorem C21_insert (b : Body E) (h : b.WF) (hs : b.static = false) (rc : Nat) (hrc : rc ≤ 1) (pos : Nat) (hp : pos ≤ b.num)
    (es : List E) (hcap : b.num + es.length ≤ 2147483647) :
    ∃ b', b.insert rc pos es = .ok b' ∧ b'.num ≤ b'.alloc ∧ b'.mem.length = b'.alloc ∧
      b'.elems = b.elems.take pos ++ es ++ b.elems.drop pos := by
  obtain ⟨b', h1, h2, h3, h4, h5⟩ := insert_spec b h hs rc hrc pos hp es hcap
  exact ⟨b', h1, by rw [← h2.alloc h3]; exact h2.le, h2.alloc h3, h5⟩

/-- C21. `remove` likewise. -/
theorem C21_remove (b : Body E) (h : b.WF) (hs : b.static = false) (rc : Nat) (hrc : rc ≤ 1) (at_ len : Nat) (hl : 0 < len)
    (hp : at_ + len ≤ b.num) :
    ∃ b', b.remove rc at_ len = .ok b' ∧ b'.num ≤ b'.alloc ∧ b'.mem.length = b'.alloc ∧
      b'.elems = b.elems.take at_ ++ b.elems.drop (at_ + len) := by
  obtain ⟨b', h1, h2, h3, h4, h5⟩ := remove_spec b h hs rc hrc at_ len hl hp
  exact ⟨b', h1, by rw [← h2.alloc h3]; exact h2.le, h2.alloc h3, h5⟩

/-- C21. `resize` keeps the elements and provides at least the room asked for. -/
theorem C21_resize (b : Body E) (h : b.WF) (hs : b.static = false) (m : Nat) (hm : b.num ≤ m) (hcap : m ≤ 2147483647) :
    ∃ b', b.resize m = .ok b' ∧ m ≤ b'.alloc ∧ b'.mem.length = b'.alloc ∧ b'.elems = b.elems ∧ b.alloc ≤ b'.alloc + 4294967296 := by
  obtain ⟨b', h1, h2, h3, h4, h5, h6⟩ := resize_spec b h hs m hm hcap
  refine ⟨b', h1, by rw [← h2.alloc h3]; exact h6, h2.alloc h3, h5, ?_⟩
  unfold Body.resize at h1
  split at h1
  · cases h1; omega
  · have := h.alloc hs
    omega

example : (Body.ofData [1, 2, 3] 0 : Res (Body Nat)) = .ok ⟨[1, 2, 3, 0, 0, 0, 0, 0], 3, 8, false⟩ := by decide

end Strpp.Arr
