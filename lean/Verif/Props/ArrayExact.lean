import Verif.Props.Array
/-! C80: what `push`, `insert`, `remove`, `delete_at` and `slice` give in every case, also on a slice that lies inside a
storage it does not share. -/
set_option linter.unusedSimpArgs false
namespace Strpp.Arr

variable {E : Type} [Inhabited E]

/-- all the elements in the storage of variable `v`, shown or not -/
def stored (s : State E) (v : Nat) : List E :=
  match s.vars[v]? with
  | some (some sl) =>
    match sl.body with
    | some b =>
      match s.bodies[b]? with
      | some x => x.elems
      | none => []
    | none => []
  | _ => []

/-- how many of them come before those that `v` shows -/
def hiddenBefore (s : State E) (v : Nat) : Nat :=
  match s.vars[v]? with
  | some (some sl) => sl.off
  | _ => 0

/-- `v` has storage, not borrowed, and no other variable refers to it -/
def Alone (s : State E) (v : Nat) : Prop :=
  ∃ sl b x, s.vars[v]? = some (some sl) ∧ sl.body = some b ∧ s.bodies[b]? = some x ∧ x.static = false ∧
    ∀ (w : Nat) (sl' : Slice), w ≠ v → s.vars[w]? = some (some sl') → sl'.body ≠ some b

/-- `es` put in `l` before index `i` -/
def putIn (l : List E) (i : Nat) (es : List E) : List E := l.take i ++ es ++ l.drop i

/-- `n` elements taken out of `l` from index `i` on -/
def takeOut (l : List E) (i n : Nat) : List E := l.take i ++ l.drop (i + n)

/-- `n` elements of `l` from `off` on -/
def window (l : List E) (off n : Nat) : List E := (l.drop off).take n

theorem countP_one {α : Type} (p : α → Bool) : ∀ (l : List α) (v : Nat) (x : α), l[v]? = some x → p x = true →
    (∀ (w : Nat) (y : α), w ≠ v → l[w]? = some y → p y = false) → l.countP p = 1
  | [], v, x, h, _, _ => by simp at h
  | a :: l, 0, x, h, hp, ho => by
    simp only [List.getElem?_cons_zero, Option.some.injEq] at h
    subst h
    rw [List.countP_cons, hp]
    have : l.countP p = 0 := by
      rw [List.countP_eq_zero]
      intro y hy
      obtain ⟨i, hi⟩ := List.mem_iff_getElem?.mp hy
      rw [ho (i + 1) y (by omega) (by simpa using hi)]
      simp
    rw [this]; rfl
  | a :: l, v + 1, x, h, hp, ho => by
    rw [List.countP_cons, ho 0 a (by omega) rfl]
    rw [countP_one p l v x (by simpa using h) hp (fun w y hw hy => ho (w + 1) y (by omega) (by simpa using hy))]
    rfl

theorem alone_iff {s : State E} {v : Nat} {sl : Slice} {b : Nat} {x : Body E} (hv : s.vars[v]? = some (some sl)) (hb : sl.body = some b)
    (hx : s.bodies[b]? = some x) : Alone s v ↔ refCount s b ≤ 1 := by
  constructor
  · rintro ⟨sl', b', x', h1, h2, h3, h4, h5⟩
    rw [hv] at h1
    cases h1
    rw [hb] at h2
    cases h2
    rw [hx] at h3
    cases h3
    unfold refCount
    rw [hx]
    simp only [h4, Bool.false_eq_true, if_false, Nat.add_zero]
    rw [countP_one _ s.vars v (some sl) hv (by simp [hb])]
    · exact Nat.le_refl _
    · intro w y hw hy
      cases y with
      | none => rfl
      | some sl' => simpa using h5 w sl' hw hy
  · intro hr
    have := alone_of_refCount hv hb hr
    refine ⟨sl, b, x, hv, hb, hx, ?_, fun w sl' hw hw' => this.1 w sl' hw' hw⟩
    exact this.2 x hx

/-- The storage that a change in place is made in: the variable's own if it is alone in it, and a copy of what it shows
otherwise. -/
def base (s : State E) (v : Nat) (l : List E) (alone : Bool) : List E × Nat :=
  if alone then (stored s v, hiddenBefore s v) else (l, 0)

open Classical in
theorem unshare_base {s : State E} (h : WF s) {v : Nat} {sl : Slice} (hv : s.vars[v]? = some (some sl)) (n : Nat)
    (hr : Roomy s n) :
    ∃ (s' : State E) (id : Nat) (x : Body E) (sl' : Slice), unshare s v n = .ok s' ∧ WF s' ∧ (∀ w, view s' w = view s w) ∧
      s'.vars.length = s.vars.length ∧ (∀ (w : Nat), w ≠ v → s'.vars[w]? = s.vars[w]?) ∧
      s'.vars[v]? = some (some sl') ∧ sl'.body = some id ∧ sl'.num = sl.num ∧ s'.bodies[id]? = some x ∧
      x.static = false ∧ refCount s' id ≤ 1 ∧ x.num + n ≤ 2147483647 ∧ sl'.off + sl'.num ≤ x.num ∧
      (x.elems, sl'.off) = base s v (contents s sl) (decide (Alone s v)) := by
  obtain ⟨s', id, x, sl', e1, e2, e3, e4, e5, e6, e7, e8, e9, e10, e11, e12, e13⟩ := unshare_spec h hv n (hr.num h hv)
  have hok := e2.vars v sl' e7
  unfold SliceOk at hok
  rw [e8] at hok
  obtain ⟨x', hx', hle⟩ := hok
  rw [e10] at hx'
  cases hx'
  refine ⟨s', id, x, sl', e1, e2, e3, e4, e5, e7, e8, e9, e10, e11, e12, ?_, hle, ?_⟩
  · rcases e13 with ⟨_, rfl, rfl, _⟩ | ⟨_, _, h1, _⟩
    · exact hr.2 x (List.mem_of_getElem? e10)
    · rw [h1]; exact hr.num h hv
  · unfold base
    rcases e13 with ⟨hb, rfl, rfl, hrc⟩ | ⟨h0, h1, h2, h3⟩
    · have ha : Alone s' v := (alone_iff hv hb e10).mpr hrc
      rw [if_pos (by simpa using ha)]
      unfold stored hiddenBefore
      rw [hv]
      simp only [hb, e10]
    · have ha : ¬ Alone s v := by
        rcases h3 with h3 | ⟨b, hb, h3⟩
        · rintro ⟨sl2, b2, x2, g1, g2, -⟩
          rw [hv] at g1; cases g1
          rw [h3] at g2; cases g2
        · intro ha
          have hok := h.vars v sl hv
          unfold SliceOk at hok
          rw [hb] at hok
          obtain ⟨y, hy, -⟩ := hok
          have := (alone_iff hv hb hy).mp ha
          omega
      rw [if_neg (by simpa using ha), h0, h1]

theorem view_var {s : State E} {v : Nat} {l : List E} (h : view s v = some l) : ∃ sl, s.vars[v]? = some (some sl) ∧ contents s sl = l := by
  unfold view at h
  split at h
  · rename_i sl hsl; cases h; exact ⟨sl, hsl, rfl⟩
  · cases h

theorem Runs.wf {s s' : State E} {ops : List (Op E)} (h : Runs s ops s') : WF s → WF s' := by
  induction h with
  | nil s => exact id
  | cons hl hr hx _ ih => exact fun hw => ih (C18_isolation hw _ hl hr hx).1

theorem runs_wf {s : State E} {ops : List (Op E)} (h : Runs State.init ops s) : WF s :=
  h.wf ⟨by simp [State.init], by simp [State.init]⟩

theorem view_set_var {s : State E} {v : Nat} {sl sl' : Slice} (h : s.vars[v]? = some (some sl)) :
    view (setVar s v sl') v = some (contents (setVar s v sl') sl') := by
  unfold view setVar
  simp only [get_set_if _ _ _ _ (lt_of_get h), if_true]

open Classical in
/-- C80. `push`: the element is put in the storage at the index *length of what is shown*, counted from the beginning of
the storage; one more element is shown. So it comes last exactly where nothing is hidden before the slice. -/
theorem C80_push {before : List (Op E)} {s : State E} (hs : Runs State.init before s) {v : Nat} {l : List E} (hv : view s v = some l) (e : E) (hr : Roomy s 1) :
    ∃ s', exec s (.push v e) = .ok s' ∧
      view s' v = some (window (putIn (base s v l (decide (Alone s v))).1 l.length [e]) (base s v l (decide (Alone s v))).2 (l.length + 1)) ∧
      ∀ w, w ≠ v → view s' w = view s w := by
  have h := runs_wf hs
  obtain ⟨sl, hsl, rfl⟩ := view_var hv
  have hlen := contents_length h hsl
  obtain ⟨s1, id, x, sl1, e1, e2, e3, e4, e5, e6, e7, e8, e9, e10, e11, e12, e13, e14⟩ := unshare_base h hsl 1 hr
  have hxwf := e2.bodies id x e9
  obtain ⟨b, b1, b2, b3, b4, b5⟩ := insert_spec x hxwf e10 (refCount s1 id) e11 sl1.num (by omega) [e] (by simpa using e12)
  simp only [exec]
  unfold push
  rw [e1, res_bind_ok, getVar_ok e6, res_bind_ok]
  simp only [e7, getBody, e9, res_bind_ok, b1]
  have hm := mutate_spec (sl' := { sl1 with num := sl1.num + 1 }) e2 e6 e7 e11 b2 (lt_of_get e9) e7
    (by simp only; rw [b4]; simp; omega)
  rw [e7] at hm
  refine ⟨_, rfl, ?_, fun w hw => by rw [hm.2.1 w hw, e3 w]⟩
  rw [hm.2.2, ← e14, hlen]
  simp only
  rw [slice_elems _ _ (by rw [b4]; simp; omega), b5, e8]
  rfl

/-- `w` lies in the same storage, and begins where `v` ends -/
def FollowsOn (s : State E) (v w : Nat) : Prop :=
  ∃ a b, s.vars[v]? = some (some a) ∧ s.vars[w]? = some (some b) ∧ a.body = b.body ∧ b.off = a.off + a.num

open Classical in
/-- C80. `insert(pos, w)`: a neighbour in the same storage just widens the slice; otherwise the elements are put in the
storage at `pos`, counted from the beginning of the *storage*, and that many more elements are shown. -/
theorem C80_insert {before : List (Op E)} {s : State E} (hs : Runs State.init before s) {v w : Nat} (hne : v ≠ w) {l m : List E}
    (hv : view s v = some l) (hw : view s w = some m) (pos : Nat) (hpos : pos ≤ l.length) (hr : Roomy s m.length) :
    ∃ s', exec s (.insert v pos w) = .ok s' ∧
      view s' v = some (
        if FollowsOn s v w ∧ pos = l.length then l ++ m
        else if FollowsOn s w v ∧ pos = 0 then m ++ l
        else window (putIn (base s v l (decide (Alone s v))).1 pos m) (base s v l (decide (Alone s v))).2 (l.length + m.length)) ∧
      ∀ u, u ≠ v → view s' u = view s u := by
  have h := runs_wf hs
  obtain ⟨sl, hsl, rfl⟩ := view_var hv
  obtain ⟨ad, had, rfl⟩ := view_var hw
  have hlv := contents_length h hsl
  have hlw := contents_length h had
  rw [hlw] at hr
  rw [hlv] at hpos
  have f1 : FollowsOn s v w ↔ sl.body = ad.body ∧ ad.off = sl.off + sl.num := by
    constructor
    · rintro ⟨a, b, h1, h2, h3, h4⟩
      rw [hsl] at h1; cases h1
      rw [had] at h2; cases h2
      exact ⟨h3, h4⟩
    · rintro ⟨h1, h2⟩; exact ⟨sl, ad, hsl, had, h1, h2⟩
  have f2 : FollowsOn s w v ↔ sl.body = ad.body ∧ sl.off = ad.off + ad.num := by
    constructor
    · rintro ⟨a, b, h1, h2, h3, h4⟩
      rw [had] at h1; cases h1
      rw [hsl] at h2; cases h2
      exact ⟨h3.symm, h4⟩
    · rintro ⟨h1, h2⟩; exact ⟨ad, sl, had, hsl, h1.symm, h2⟩
  obtain ⟨s0, i1, i2, i3, i4, i5⟩ := insert_ok h hne hsl had pos hpos hr
  have hokv := h.vars v sl hsl
  have hokw := h.vars w ad had
  simp only [exec]
  refine ⟨s0, i1, ?_, i4⟩
  by_cases c1 : sl.body = ad.body ∧ pos = sl.num ∧ sl.off + pos = ad.off
  · rw [if_pos ⟨f1.mpr ⟨c1.1, by omega⟩, by omega⟩]
    unfold insert at i1
    rw [getVar_ok hsl, res_bind_ok, getVar_ok had, res_bind_ok, if_pos (by simp only [Bool.and_eq_true, beq_iff_eq]; exact c1)] at i1
    cases i1
    obtain ⟨cb, cp, co⟩ := c1
    subst cp
    rw [view_set_var hsl]
    congr 1
    unfold contents SliceOk at *
    simp only
    rw [← cb] at hokw ⊢
    cases hb : sl.body with
    | none => rfl
    | some b =>
      rw [hb] at hokw
      obtain ⟨x, hx, hle⟩ := hokw
      simp only [setVar, hx]
      rw [List.take_add, List.drop_drop, co]
  · have c1' : ¬ (FollowsOn s v w ∧ pos = (contents s sl).length) := by
      rw [f1, hlv]; rintro ⟨⟨a, b⟩, c⟩; exact c1 ⟨a, c, by omega⟩
    rw [if_neg c1']
    by_cases c2 : sl.body = ad.body ∧ pos = 0 ∧ ad.off + ad.num = sl.off
    · rw [if_pos ⟨f2.mpr ⟨c2.1, by omega⟩, by omega⟩]
      unfold insert at i1
      rw [getVar_ok hsl, res_bind_ok, getVar_ok had, res_bind_ok, if_neg (by simpa using c1), if_pos (by simp only [Bool.and_eq_true, beq_iff_eq]; exact c2)] at i1
      cases i1
      obtain ⟨cb, cp, co⟩ := c2
      subst cp
      rw [view_set_var hsl]
      congr 1
      unfold contents SliceOk at *
      simp only
      rw [← cb] at hokw ⊢
      cases hb : sl.body with
      | none => rfl
      | some b =>
        rw [hb] at hokw
        obtain ⟨x, hx, hle⟩ := hokw
        simp only [setVar, hx]
        have ea : sl.off - ad.num = ad.off := by omega
        rw [ea, Nat.add_comm sl.num, List.take_add, List.drop_drop, co]
    · have c2' : ¬ (FollowsOn s w v ∧ pos = 0) := by
        rw [f2]; rintro ⟨⟨a, b⟩, c⟩; exact c2 ⟨a, c, by omega⟩
      rw [if_neg c2']
      unfold insert at i1
      rw [getVar_ok hsl, res_bind_ok, getVar_ok had, res_bind_ok, if_neg (by simpa using c1), if_neg (by simpa using c2)] at i1
      obtain ⟨s1, id, x, sl1, e1, e2, e3, e4, e5, e6, e7, e8, e9, e10, e11, e12, e13, e14⟩ := unshare_base h hsl ad.num hr
      have hxwf := e2.bodies id x e9
      have hw1 : s1.vars[w]? = some (some ad) := by rw [e5 w (fun e => hne e.symm)]; exact had
      have hcw : contents s1 ad = contents s ad := by
        have := e3 w
        rw [view_some hw1, view_some had, Option.some.injEq] at this
        exact this
      obtain ⟨b, b1, b2, b3, b4, b5⟩ := insert_spec x hxwf e10 (refCount s1 id) e11 pos (by omega) (contents s ad) (by omega)
      rw [e1, res_bind_ok, getVar_ok e6, res_bind_ok] at i1
      simp only [e7] at i1
      rw [elements_ok e2 hw1, hcw] at i1
      simp only [getBody, e9, res_bind_ok, b1] at i1
      have hm := mutate_spec (sl' := { sl1 with num := sl1.num + ad.num }) e2 e6 e7 e11 b2 (lt_of_get e9) e7
        (by simp only; rw [b4, hlw]; omega)
      rw [e7] at hm
      cases i1
      rw [hm.2.2, ← e14, hlv, hlw]
      simp only
      rw [slice_elems _ _ (by rw [b4, hlw]; omega), b5, e8]
      rfl

open Classical in
/-- C80. `remove(at, n)` (and `delete_at`, for one): at either end of what is shown, the slice is just narrowed; from the
middle, the elements are taken out of the storage from `at` on, counted from the beginning of the *storage*. -/
theorem C80_remove {before : List (Op E)} {s : State E} (hs : Runs State.init before s) {v : Nat} {l : List E}
    (hv : view s v = some l) (at_ n : Nat) (hn : at_ + n ≤ l.length) (hr : Roomy s 0) :
    ∃ s', exec s (.remove v at_ n) = .ok s' ∧
      view s' v = some (
        if n = 0 ∨ at_ = 0 ∨ at_ + n = l.length then takeOut l at_ n
        else window (takeOut (base s v l (decide (Alone s v))).1 at_ n) (base s v l (decide (Alone s v))).2 (l.length - n)) ∧
      (n = 1 → exec s (.deleteAt v at_) = .ok s') ∧
      ∀ w, w ≠ v → view s' w = view s w := by
  have h := runs_wf hs
  obtain ⟨sl, hsl, rfl⟩ := view_var hv
  have hl := contents_length h hsl
  have hcap := num_cap h hsl
  rw [hl] at hn ⊢
  obtain ⟨s0, i1, i2, i3, i4, i5⟩ := remove_ok h hsl at_ n (by omega) (Or.inr ⟨by omega, by omega⟩) hr
  have hef : effLen sl.num at_ n = n := by unfold effLen; rw [if_neg (by omega)]; simp
  rw [hef] at i5
  simp only [exec]
  refine ⟨s0, i1, ?_, ?_, i4⟩
  · by_cases c : n = 0 ∨ at_ = 0 ∨ at_ + n = sl.num
    · rw [if_pos c]
      rcases c with c | c
      · subst c
        have : Arr.remove s v at_ ((0 : Nat) : Int) = .ok s := by
          unfold Arr.remove
          rw [getVar_ok hsl, res_bind_ok]
          have hw : wrap ((sl.num : Int) - 0) = sl.num := by unfold wrap; omega
          have hd : decide (sl.num ≥ at_) = true := by simp; omega
          have hm1 : ((0 : Int) == -1) = false := rfl
          simp only [Int.natCast_zero, hm1, Bool.false_eq_true, if_false]
          rw [hw, hd, assert_true, res_bind_ok, if_pos (by simp)]
        rw [this] at i1
        cases i1
        rw [view_some hsl]
        simp [takeOut]
      · exact i5 (Or.inr c)
    · rw [if_neg c]
      simp only [not_or] at c
      unfold Arr.remove at i1
      rw [getVar_ok hsl, res_bind_ok] at i1
      have hm1 : ((n : Int) == -1) = false := by simp
      have w1 : wrap ((sl.num : Int) - (n : Nat)) = sl.num - n := by unfold wrap; omega
      have w2 : wrap ((at_ : Int) + (n : Nat)) = at_ + n := by unfold wrap; omega
      simp only [hm1, Bool.false_eq_true, if_false, w1, w2] at i1
      have ha : decide (sl.num - n ≥ at_) = true := by simp; omega
      have c1 : ¬ (at_ == sl.num || (n : Int) == 0) = true := by simp; omega
      rw [ha, assert_true, res_bind_ok, if_neg c1, if_neg (by simpa using c.2.2), if_neg (by simpa using c.2.1)] at i1
      obtain ⟨s1, id, x1, sl1, e1, e2, e3, e4, e5, e6, e7, e8, e9, e10, e11, e12, e13, e14⟩ := unshare_base h hsl 0 hr
      have hxwf := e2.bodies id x1 e9
      obtain ⟨b', b1, b2, b3, b4, b5⟩ := remove_spec x1 hxwf e10 (refCount s1 id) e11 at_ n (by omega) (by omega)
      rw [e1, res_bind_ok, getVar_ok e6, res_bind_ok] at i1
      simp only [e7, getBody, e9, res_bind_ok, b1] at i1
      have w4 : wrap ((sl1.num : Int) - (n : Nat)) = sl1.num - n := by unfold wrap; omega
      rw [w4] at i1
      have hm := mutate_spec (sl' := { sl1 with num := sl1.num - n }) e2 e6 e7 e11 b2 (lt_of_get e9) e7
        (by simp only; omega)
      rw [e7] at hm
      cases i1
      rw [hm.2.2, ← e14]
      simp only
      rw [slice_elems _ _ (by omega), b5, e8]
      rfl
  · intro h1
    subst h1
    have ht : toInt at_ = (at_ : Int) := by unfold toInt; rw [if_pos (by omega)]
    obtain ⟨y, _, hy⟩ := elem_ok h hsl at_ (by omega)
    rw [ht, hy, res_bind_ok]
    exact i1

/-- C80. `slice(at, n)` aborts exactly if it would be non-empty and reach the end of the storage; otherwise it shows the
part asked for, cut at the end of what is shown. -/
theorem C80_slice {before : List (Op E)} {s : State E} (hs : Runs State.init before s) {w : Nat} {l : List E}
    (hv : view s w = some l) (at_ : Nat) (n : Int) (hn : -1 ≤ n ∧ n < 2147483648) :
    let part := if n = -1 then l.drop at_ else (l.drop at_).take n.toNat
    (part ≠ [] ∧ hiddenBefore s w + at_ + part.length = (stored s w).length → exec s (.slice w at_ n) = .error .assertion) ∧
    (¬ (part ≠ [] ∧ hiddenBefore s w + at_ + part.length = (stored s w).length) →
      ∃ s', exec s (.slice w at_ n) = .ok s' ∧ views s' = views s ++ [some part]) := by
  intro part
  have h := runs_wf hs
  obtain ⟨sl, hsl, rfl⟩ := view_var hv
  have hl := contents_length h hsl
  have hcap := num_cap h hsl
  have hd : decide (n ≥ -1) = true := by simpa using hn.1
  have hsh : hiddenBefore s w = sl.off := by unfold hiddenBefore; rw [hsl]
  have hpl : part.length = if n = -1 then sl.num - at_ else min n.toNat (sl.num - at_) := by
    show (if n = -1 then (contents s sl).drop at_ else ((contents s sl).drop at_).take n.toNat).length = _
    split
    · rw [List.length_drop, hl]
    · rw [List.length_take, List.length_drop, hl]
  have hlegal : Legal (views s) (.slice w at_ n) := by
    refine ⟨⟨contents s sl, ?_⟩, hn.1, hn.2⟩
    rw [views_get, if_pos (lt_of_get hsl), view_some hsl]
  have hroom : ∀ (hg : Good s (.slice w at_ n)), ∃ s', exec s (.slice w at_ n) = .ok s' ∧ views s' = views s ++ [some part] := by
    intro hg
    obtain ⟨s', h1, h2⟩ := exec_does h (.slice w at_ n) hlegal ⟨by simp [added], fun x hx => by
      obtain ⟨i, hi⟩ := List.mem_iff_getElem?.mp hx
      have := (h.bodies i x hi).cap
      simpa [added] using this⟩ (fun _ _ _ _ => hg)
    refine ⟨s', h1, ?_⟩
    rw [h2.2.2 hg]
    simp only [specStep, shown_views s w hsl]
    rfl
  have hok := h.vars w sl hsl
  unfold SliceOk at hok
  constructor
  · rintro ⟨hne, hend⟩
    have hpos : 0 < part.length := List.length_pos_iff.mpr hne
    have hat : at_ < sl.num := by rw [hpl] at hpos; split at hpos <;> omega
    have hn0 : n ≠ 0 := by rintro rfl; rw [hpl] at hpos; simp at hpos
    cases hb : sl.body with
    | none => rw [hb] at hok; simp only at hok; omega
    | some b =>
      rw [hb] at hok
      obtain ⟨x, hx, hle⟩ := hok
      have hst : (stored s w).length = x.num := by
        unfold stored; rw [hsl]; simp only [hb, hx]; exact (h.bodies b x hx).length
      have hxcap := (h.bodies b x hx).cap
      rw [hst, hsh] at hend
      have c' : (decide (at_ ≥ sl.num) || n == 0) = false := by simp; omega
      simp only [exec, slice, getVar_ok hsl, res_bind_ok, hd, assert_true, c', Bool.false_eq_true, if_false]
      have hval : (if (n == -1) = true then sl.num - at_ else if wrap n > sl.num - at_ then sl.num - at_ else wrap n) = part.length := by
        rw [hpl]
        by_cases e : n = -1
        · simp [e]
        · have hwl : wrap n = n.toNat := by unfold wrap; omega
          rw [if_neg (by simpa using e), if_neg e, hwl]; split <;> omega
      rw [hval]
      have w1 : wrap ((sl.off + at_ : Nat) + (part.length : Nat) : Int) = sl.off + at_ + part.length := by unfold wrap; omega
      have d2 : decide (sl.off + at_ + part.length < x.num) = false := by simp; omega
      simp only [mkSlice, hb, getBody, hx, res_bind_ok, w1, d2]
      cases decide (sl.off + at_ < x.num) <;> rfl
  · intro hno
    refine hroom ?_
    intro sl' hsl' hat hn0
    rw [hsl] at hsl'
    cases hsl'
    cases hb : sl.body with
    | none => rw [hb] at hok; simp only at hok; omega
    | some b =>
      rw [hb] at hok
      obtain ⟨x, hx, hle⟩ := hok
      have hst : (stored s w).length = x.num := by
        unfold stored; rw [hsl]; simp only [hb, hx]; exact (h.bodies b x hx).length
      refine ⟨b, x, rfl, hx, ?_⟩
      rw [← hpl]
      have hple : part.length ≤ sl.num - at_ := by rw [hpl]; split <;> omega
      have hpos : 0 < part.length := by rw [hpl]; split <;> omega
      have : ¬ (sl.off + at_ + part.length = x.num) := by
        intro e
        exact hno ⟨List.length_pos_iff.mp hpos, by rw [hst, hsh]; exact e⟩
      omega

/-- Cases met: [1,2,3,4,5] shifted is alone in its storage, with one element hidden before it; a push puts 9 in the
middle. A copy of it is not alone, and its push is right. -/
def shifted : List (Op Nat) := [.ofData [1, 2, 3, 4, 5] 0, .deleteAt 0 0]
example : (execAll State.init shifted).map (fun s => (stored s 0, hiddenBefore s 0, views s)) =
    .ok ([1, 2, 3, 4, 5], 1, [some [2, 3, 4, 5]]) := by decide
example : window (putIn [1, 2, 3, 4, 5] 4 [9]) 1 5 = [2, 3, 4, 9, 5] := by decide
example : (execAll State.init (shifted ++ [.push 0 9])).map views = .ok [some [2, 3, 4, 9, 5]] ∧
    (execAll State.init (shifted ++ [.copy 0, .push 0 9])).map views = .ok [some [2, 3, 4, 5, 9], some [2, 3, 4, 5]] ∧
    (execAll State.init (shifted ++ [.remove 0 1 2])).map views = .ok [some [4, 5]] ∧
    (execAll State.init (shifted ++ [.slice 0 1 2])).map views = .ok [some [2, 3, 4, 5], some [3, 4]] := by decide
example : ∃ s : State Nat, Runs State.init shifted s ∧ Alone s 0 ∧ Roomy s 1 := by
  refine ⟨_, Runs.cons (by trivial) ⟨by decide, by simp [State.init]⟩ (by rfl)
    (Runs.cons (by unfold Legal; exact ⟨⟨_, rfl⟩, by decide⟩) ⟨by decide, by decide⟩ (by rfl) (Runs.nil _)), ?_, ⟨by decide, by decide⟩⟩
  refine ⟨_, _, _, rfl, rfl, rfl, rfl, ?_⟩
  intro w sl hw hsl
  cases w with
  | zero => exact absurd rfl hw
  | succ w => simp [State.init, newVar, setVar] at hsl

end Strpp.Arr
