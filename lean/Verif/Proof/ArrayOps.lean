import Verif.Proof.Array
import Verif.Spec.Array
/-! Each Array call against the list specification. -/
namespace Strpp.Arr

variable {E : Type} [Inhabited E]

/-- what all variables show -/
def views (s : State E) : List (Option (List E)) := s.vars.map (Option.map (contents s))

theorem views_get (s : State E) (w : Nat) :
    (views s)[w]? = if w < s.vars.length then some (view s w) else none := by
  unfold views view
  rw [List.getElem?_map]
  by_cases h : w < s.vars.length
  · rw [if_pos h, List.getElem?_eq_getElem h]
    cases s.vars[w] <;> rfl
  · rw [if_neg h, List.getElem?_eq_none (by omega)]; rfl

theorem views_length (s : State E) : (views s).length = s.vars.length := by simp [views]

theorem view_none (s : State E) (w : Nat) (h : s.vars.length ≤ w) : view s w = none := by
  unfold view; rw [List.getElem?_eq_none h]

theorem view_views (s : State E) (w : Nat) : view s w = ((views s)[w]?).join := by
  rw [views_get]
  split
  · rfl
  · rename_i h; rw [view_none s w (by omega)]; rfl

theorem shown_views (s : State E) (v : Nat) {sl : Slice} (h : s.vars[v]? = some (some sl)) :
    shown (views s) v = contents s sl := by
  unfold shown
  rw [← view_views, view_some h]; rfl

theorem exists_views {s : State E} {v : Nat} (h : Exists (views s) v) : ∃ sl, s.vars[v]? = some (some sl) := by
  obtain ⟨l, hl⟩ := h
  rw [views_get] at hl
  split at hl
  · unfold view at hl
    split at hl
    · rename_i sl hsl; exact ⟨sl, hsl⟩
    · simp at hl
  · cases hl

/-- change of one variable -/
theorem views_set {s s' : State E} {v : Nat} {c : Option (List E)} (hv : v < s.vars.length) (hl : s'.vars.length = s.vars.length)
    (h1 : ∀ w, w ≠ v → view s' w = view s w) (h2 : view s' v = c) : views s' = (views s).set v c := by
  apply List.ext_getElem?
  intro w
  rw [get_set_if _ _ _ _ (by rw [views_length]; exact hv), views_get, views_get, hl]
  by_cases hw : w = v
  · subst hw; rw [if_pos hv, if_pos rfl, h2]
  · rw [if_neg hw, h1 w hw]

/-- one more variable -/
theorem views_push {s s' : State E} {c : Option (List E)} (hl : s'.vars.length = s.vars.length + 1)
    (h1 : ∀ w, w ≠ s.vars.length → view s' w = view s w) (h2 : view s' s.vars.length = c) : views s' = views s ++ [c] := by
  apply List.ext_getElem?
  intro w
  rw [get_push, views_length, views_get, views_get, hl]
  by_cases hw : w = s.vars.length
  · subst hw; rw [if_pos (by omega), if_pos rfl, h2]
  · rw [if_neg hw, h1 w hw]
    by_cases hw2 : w < s.vars.length
    · rw [if_pos (by omega), if_pos hw2]
    · rw [if_neg (by omega), if_neg hw2]

/-- the storage of every body stays within 2^31 - 1 elements when `n` are added -/
def Roomy (s : State E) (n : Nat) : Prop := n ≤ 2147483647 ∧ ∀ x ∈ s.bodies, x.num + n ≤ 2147483647

/-- an in-place change of variable `v`'s body is done at the right place: its slice starts the body, or it will get its
own copy -/
def AtFront (s : State E) (v : Nat) : Prop :=
  ∀ sl, s.vars[v]? = some (some sl) → sl.off = 0 ∨ sl.body = none ∨ ∃ b, sl.body = some b ∧ 2 ≤ refCount s b

theorem setVar_length (s : State E) (v : Nat) (sl : Slice) : (setVar s v sl).vars.length = s.vars.length := by simp [setVar]

theorem Roomy.num {s : State E} {n : Nat} (h : Roomy s n) (hw : WF s) {v : Nat} {sl : Slice}
    (hv : s.vars[v]? = some (some sl)) : sl.num + n ≤ 2147483647 := by
  have := hw.vars v sl hv
  unfold SliceOk at this
  split at this
  · have := h.1; omega
  · obtain ⟨x, hx, hle⟩ := this
    have := h.2 x (List.mem_of_getElem? hx)
    omega

/-- the slice shown, from the body's elements -/
theorem slice_elems {x : Body E} (off num : Nat) (h : off + num ≤ x.num) :
    (x.mem.drop off).take num = (x.elems.drop off).take num := by
  unfold Body.elems
  rw [List.drop_take, List.take_take]
  congr 1
  omega

/-- After Unshare: the body, and where the slice is in it. -/
theorem unshare_elems {s : State E} (h : WF s) {v : Nat} {sl : Slice} (hv : s.vars[v]? = some (some sl)) (n : Nat)
    (hr : Roomy s n) :
    ∃ (s' : State E) (id : Nat) (x : Body E) (sl' : Slice), unshare s v n = .ok s' ∧ WF s' ∧ (∀ w, view s' w = view s w) ∧
      s'.vars.length = s.vars.length ∧ (∀ (w : Nat), w ≠ v → s'.vars[w]? = s.vars[w]?) ∧
      s'.vars[v]? = some (some sl') ∧ sl'.body = some id ∧ sl'.num = sl.num ∧ s'.bodies[id]? = some x ∧
      x.static = false ∧ refCount s' id ≤ 1 ∧ x.num + n ≤ 2147483647 ∧ sl'.off + sl'.num ≤ x.num ∧
      (x.elems.drop sl'.off).take sl.num = contents s sl ∧ (AtFront s v → sl'.off = 0) := by
  obtain ⟨s', id, x, sl', e1, e2, e3, e4, e5, e6, e7, e8, e9, e10, e11, e12, e13⟩ := unshare_spec h hv n (hr.num h hv)
  have hok := e2.vars v sl' e7
  unfold SliceOk at hok
  rw [e8] at hok
  obtain ⟨x', hx', hle⟩ := hok
  rw [e10] at hx'
  cases hx'
  have hview := e3 v
  rw [view_some e7, view_some hv, Option.some.injEq] at hview
  refine ⟨s', id, x, sl', e1, e2, e3, e4, e5, e7, e8, e9, e10, e11, e12, ?_, hle, ?_, ?_⟩
  · rcases e13 with ⟨_, rfl, rfl, _⟩ | ⟨_, _, h1, _⟩
    · exact hr.2 x (List.mem_of_getElem? e10)
    · rw [h1]; exact hr.num h hv
  · rw [← slice_elems _ _ (by omega), ← hview, ← e9]
    simp [contents, e8, e10]
  · intro hf
    rcases e13 with ⟨hb, rfl, rfl, hrc⟩ | ⟨h0, _⟩
    · rcases hf _ hv with h0 | h0 | ⟨b, hb', h2⟩
      · exact h0
      · rw [h0] at hb; cases hb
      · rw [hb] at hb'; cases hb'; omega
    · exact h0

theorem push_ok {s : State E} (h : WF s) {v : Nat} {sl : Slice} (hv : s.vars[v]? = some (some sl)) (e : E) (hr : Roomy s 1) :
    ∃ s', push s v e = .ok s' ∧ WF s' ∧ s'.vars.length = s.vars.length ∧ (∀ w, w ≠ v → view s' w = view s w) ∧
      (AtFront s v → view s' v = some (contents s sl ++ [e])) := by
  obtain ⟨s1, id, x, sl1, e1, e2, e3, e4, e5, e6, e7, e8, e9, e10, e11, e12, e13, e14, e15⟩ := unshare_elems h hv 1 hr
  have hxwf := e2.bodies id x e9
  obtain ⟨b, b1, b2, b3, b4, b5⟩ := insert_spec x hxwf e10 (refCount s1 id) e11 sl1.num (by omega) [e] (by simpa using e12)
  unfold push
  rw [e1, res_bind_ok, getVar_ok e6, res_bind_ok]
  simp only [e7, getBody, e9, res_bind_ok, b1]
  have hm := mutate_spec (sl' := { sl1 with num := sl1.num + 1 }) e2 e6 e7 e11 b2 (lt_of_get e9) e7
    (by simp only; rw [b4]; simp; omega)
  rw [e7] at hm
  refine ⟨_, rfl, hm.1, by simp [setVar, setBody, e4], ?_, ?_⟩
  · intro w hw; rw [hm.2.1 w hw, e3 w]
  · intro hf
    have h0 := e15 hf
    rw [hm.2.2]
    simp only
    rw [slice_elems _ _ (by rw [b4]; simp; omega), b5, h0, e8, List.drop_zero]
    rw [h0, List.drop_zero] at e14
    rw [e14]
    have hlen := contents_length h hv
    congr 1
    rw [List.take_append, List.take_of_length_le (by simp; omega)]
    simp [hlen]

theorem insert_ok {s : State E} (h : WF s) {v w : Nat} (hne : v ≠ w) {sl ad : Slice} (hv : s.vars[v]? = some (some sl))
    (hw : s.vars[w]? = some (some ad)) (pos : Nat) (hpos : pos ≤ sl.num) (hr : Roomy s ad.num) :
    ∃ s', insert s v pos w = .ok s' ∧ WF s' ∧ s'.vars.length = s.vars.length ∧ (∀ u, u ≠ v → view s' u = view s u) ∧
      (AtFront s v → view s' v = some ((contents s sl).take pos ++ contents s ad ++ (contents s sl).drop pos)) := by
  have hlv := contents_length h hv
  have hlw := contents_length h hw
  have hokv := h.vars v sl hv
  have hokw := h.vars w ad hw
  have hvl := lt_of_get hv
  unfold insert
  rw [getVar_ok hv, res_bind_ok, getVar_ok hw, res_bind_ok]
  by_cases c1 : (sl.body == ad.body && (pos == sl.num && sl.off + pos == ad.off)) = true
  · rw [if_pos c1]
    simp only [Bool.and_eq_true, beq_iff_eq] at c1
    obtain ⟨cb, cp, co⟩ := c1
    subst cp
    have hok : SliceOk s { sl with num := sl.num + ad.num } := by
      unfold SliceOk at *
      simp only
      rw [← cb] at hokw
      cases hb : sl.body with
      | none => rw [hb] at hokv hokw; simp only at *; omega
      | some b =>
        rw [hb] at hokv hokw
        obtain ⟨x, hx, hle⟩ := hokw
        exact ⟨x, hx, by omega⟩
    have hs := setVar_spec (v := v) h hvl hok
    refine ⟨_, rfl, hs.1, setVar_length .., hs.2.1, fun _ => ?_⟩
    rw [hs.2.2, List.take_of_length_le (by omega), List.drop_of_length_le (by omega), List.append_nil]
    congr 1
    unfold contents SliceOk at *
    simp only
    rw [← cb] at hokw ⊢
    cases hb : sl.body with
    | none => rfl
    | some b =>
      rw [hb] at hokw
      obtain ⟨x, hx, hle⟩ := hokw
      simp only [hx]
      rw [List.take_add, List.drop_drop, co]
  · rw [if_neg c1]
    by_cases c2 : (sl.body == ad.body && (pos == 0 && ad.off + ad.num == sl.off)) = true
    · rw [if_pos c2]
      simp only [Bool.and_eq_true, beq_iff_eq] at c2
      obtain ⟨cb, cp, co⟩ := c2
      subst cp
      have hok : SliceOk s { sl with off := sl.off - ad.num, num := sl.num + ad.num } := by
        unfold SliceOk at *
        simp only
        rw [← cb] at hokw
        cases hb : sl.body with
        | none => rw [hb] at hokv hokw; simp only at *; omega
        | some b =>
          rw [hb] at hokv hokw
          obtain ⟨x, hx, hle⟩ := hokv
          exact ⟨x, hx, by omega⟩
      have hs := setVar_spec (v := v) h hvl hok
      refine ⟨_, rfl, hs.1, setVar_length .., hs.2.1, fun _ => ?_⟩
      rw [hs.2.2, List.take_zero, List.nil_append, List.drop_zero]
      congr 1
      unfold contents SliceOk at *
      simp only
      rw [← cb] at hokw ⊢
      cases hb : sl.body with
      | none => rfl
      | some b =>
        rw [hb] at hokw
        obtain ⟨x, hx, hle⟩ := hokw
        simp only [hx]
        have ea : sl.off - ad.num = ad.off := by omega
        rw [ea, Nat.add_comm sl.num, List.take_add, List.drop_drop, co]
    · rw [if_neg c2]
      obtain ⟨s1, id, x, sl1, e1, e2, e3, e4, e5, e6, e7, e8, e9, e10, e11, e12, e13, e14, e15⟩ := unshare_elems h hv ad.num hr
      have hxwf := e2.bodies id x e9
      have hw1 : s1.vars[w]? = some (some ad) := by rw [e5 w (fun e => hne e.symm)]; exact hw
      have hcw : contents s1 ad = contents s ad := by
        have := e3 w
        rw [view_some hw1, view_some hw, Option.some.injEq] at this
        exact this
      obtain ⟨b, b1, b2, b3, b4, b5⟩ := insert_spec x hxwf e10 (refCount s1 id) e11 pos (by omega) (contents s ad) (by omega)
      rw [e1, res_bind_ok, getVar_ok e6, res_bind_ok]
      simp only [e7]
      rw [elements_ok e2 hw1, hcw]
      simp only [getBody, e9, res_bind_ok, b1]
      have hm := mutate_spec (sl' := { sl1 with num := sl1.num + ad.num }) e2 e6 e7 e11 b2 (lt_of_get e9) e7
        (by simp only; rw [b4, hlw]; omega)
      rw [e7] at hm
      refine ⟨_, rfl, hm.1, by simp [setVar, setBody, e4], ?_, ?_⟩
      · intro u hu; rw [hm.2.1 u hu, e3 u]
      · intro hf
        have h0 := e15 hf
        rw [hm.2.2]
        simp only
        rw [slice_elems _ _ (by rw [b4, hlw]; omega), b5, h0, e8, List.drop_zero]
        rw [h0, List.drop_zero] at e14
        rw [← e14]
        have hxl := hxwf.length
        congr 1
        apply List.ext_getElem?
        intro k
        simp only [List.getElem?_take, List.append_assoc, List.getElem?_append, List.length_take, List.getElem?_drop, hxl, hlw]
        have m1 : min pos x.num = pos := by omega
        have m2 : min pos (min sl.num x.num) = pos := by omega
        rw [m1, m2]
        by_cases k1 : k < pos
        · rw [if_pos (by omega), if_pos k1, if_pos k1, if_pos k1, if_pos k1, if_pos (by omega)]
        · rw [if_neg k1, if_neg k1]
          by_cases k2 : k - pos < ad.num
          · rw [if_pos (by omega), if_pos k2, if_pos k2]
          · rw [if_neg k2, if_neg k2]
            by_cases k3 : k < sl.num + ad.num
            · rw [if_pos k3, if_pos (by omega)]
            · rw [if_neg k3, if_neg (by omega)]

theorem set_ok {s : State E} (h : WF s) {v : Nat} {sl : Slice} (hv : s.vars[v]? = some (some sl)) (i : Nat) (e : E)
    (hi : i < sl.num) (hr : Roomy s 0) :
    ∃ s', Arr.set s v i e = .ok s' ∧ WF s' ∧ s'.vars.length = s.vars.length ∧ (∀ w, w ≠ v → view s' w = view s w) ∧
      view s' v = some ((contents s sl).set i e) := by
  obtain ⟨s1, id, x, sl1, e1, e2, e3, e4, e5, e6, e7, e8, e9, e10, e11, e12, e13, e14, e15⟩ := unshare_elems h hv 0 hr
  have hxwf := e2.bodies id x e9
  have hcap := num_cap h hv
  have hbs : sl.body.isSome = true := by
    have := h.vars v sl hv
    unfold SliceOk at this
    cases hb : sl.body with
    | none => rw [hb] at this; simp only at this; omega
    | some b => rfl
  have hle := hxwf.le
  unfold Arr.set
  have c1 : (decide ((i : Int) ≥ 0) && decide (wrap (i : Int) < sl.num) && sl.body.isSome) = true := by
    have : wrap (i : Int) = i := by unfold wrap; omega
    rw [this, hbs]; simp; omega
  rw [getVar_ok hv, res_bind_ok, c1, assert_true, res_bind_ok, e1, res_bind_ok, getVar_ok e6, res_bind_ok]
  simp only [e7, getBody, e9, res_bind_ok]
  rw [wr_lt _ _ _ (by simp; omega), res_bind_ok]
  have hx' : ({ x with mem := x.mem.set (sl1.off + (i : Int).toNat) e } : Body E).WF :=
    ⟨by simpa using hle, by simpa using hxwf.alloc, hxwf.static, hxwf.cap⟩
  have hm := mutate_spec (sl' := sl1) e2 e6 e7 e11 hx' (lt_of_get e9) e7 e13
  have hsame : setVar (setBody s1 id { x with mem := x.mem.set (sl1.off + (i : Int).toNat) e }) v sl1 =
      setBody s1 id { x with mem := x.mem.set (sl1.off + (i : Int).toNat) e } := by
    unfold setVar setBody
    simp only
    congr 1
    apply List.ext_getElem?
    intro k
    rw [get_set_if _ _ _ _ (lt_of_get e6)]
    split
    · rename_i hk; rw [hk, e6]
    · rfl
  rw [hsame] at hm
  refine ⟨_, rfl, hm.1, by simp [setBody, e4], ?_, ?_⟩
  · intro w hw; rw [hm.2.1 w hw, e3 w]
  · rw [hm.2.2, ← e14, ← slice_elems _ _ (by omega), e8]
    congr 1
    apply List.ext_getElem?
    intro k
    simp only [List.getElem?_take, List.getElem?_drop, List.getElem?_set, List.length_take, List.length_drop]
    by_cases hk : k < sl.num
    · rw [if_pos hk]
      by_cases hki : i = k
      · subst hki
        rw [if_pos (by simp), if_pos (by simp; omega), if_pos rfl, if_pos (by omega)]
      · rw [if_neg (by simp; omega), if_neg hki, if_pos hk]
    · rw [if_neg hk]
      by_cases hki : i = k
      · omega
      · rw [if_neg hki, if_neg hk]

/-- the effective length of a removal -/
def effLen (n at_ : Nat) (len : Int) : Nat := if len = -1 then n - at_ else len.toNat

theorem remove_ok {s : State E} (h : WF s) {v : Nat} {sl : Slice} (hv : s.vars[v]? = some (some sl)) (at_ : Nat) (len : Int)
    (hat : at_ ≤ sl.num) (hlen : len = -1 ∨ (0 ≤ len ∧ at_ + len ≤ sl.num)) (hr : Roomy s 0) :
    ∃ s', Arr.remove s v at_ len = .ok s' ∧ WF s' ∧ s'.vars.length = s.vars.length ∧ (∀ w, w ≠ v → view s' w = view s w) ∧
      ((AtFront s v ∨ at_ = 0 ∨ at_ + effLen sl.num at_ len = sl.num) →
        view s' v = some ((contents s sl).take at_ ++ (contents s sl).drop (at_ + effLen sl.num at_ len))) := by
  have hcap := num_cap h hv
  have hvl := lt_of_get hv
  have hcl := contents_length h hv
  have heff : (if len == -1 then toInt (wrap ((sl.num : Int) - at_)) else len) = (effLen sl.num at_ len : Nat) := by
    unfold effLen
    by_cases hm : len = -1
    · subst hm
      have : wrap ((sl.num : Int) - at_) = sl.num - at_ := by unfold wrap; omega
      simp only [beq_self_eq_true, if_true, this, toInt]
      rw [if_pos (by omega)]
    · have : (len == -1) = false := by simpa using hm
      simp only [this, Bool.false_eq_true, if_false, hm]
      omega
  have hle : at_ + effLen sl.num at_ len ≤ sl.num := by
    unfold effLen; split <;> omega
  unfold Arr.remove
  rw [getVar_ok hv, res_bind_ok]
  simp only [heff]
  generalize effLen sl.num at_ len = n at hle ⊢
  have w1 : wrap ((sl.num : Int) - (n : Nat)) = sl.num - n := by unfold wrap; omega
  have w2 : wrap ((at_ : Int) + (n : Nat)) = at_ + n := by unfold wrap; omega
  rw [w1, w2]
  have ha : decide (sl.num - n ≥ at_) = true := by simp; omega
  rw [ha, assert_true, res_bind_ok]
  by_cases c1 : (at_ == sl.num || (n : Int) == 0) = true
  · rw [if_pos c1]
    refine ⟨s, rfl, h, rfl, fun _ _ => rfl, fun _ => ?_⟩
    simp only [Bool.or_eq_true, beq_iff_eq] at c1
    rw [view_some hv]
    have : n = 0 := by omega
    subst this
    simp
  · rw [if_neg c1]
    simp only [Bool.or_eq_true, beq_iff_eq, not_or] at c1
    have hn : 0 < n := by omega
    have hsb : ∃ b x, sl.body = some b ∧ s.bodies[b]? = some x ∧ sl.off + sl.num ≤ x.num := by
      have := h.vars v sl hv
      unfold SliceOk at this
      cases hb : sl.body with
      | none => rw [hb] at this; simp only at this; omega
      | some b =>
        rw [hb] at this
        obtain ⟨x, hx, hle⟩ := this
        exact ⟨b, x, rfl, hx, hle⟩
    obtain ⟨b, x, hb, hx, hxle⟩ := hsb
    have hcont : contents s sl = (x.mem.drop sl.off).take sl.num := by simp [contents, hb, hx]
    by_cases c2 : at_ + n = sl.num
    · have c2' : (at_ + n == sl.num) = true := by simpa using c2
      rw [if_pos c2']
      have hok : SliceOk s { sl with num := sl.num - n } := by
        unfold SliceOk; rw [hb]; exact ⟨x, hx, by simp only; omega⟩
      have hs := setVar_spec (v := v) h hvl hok
      refine ⟨_, rfl, hs.1, setVar_length .., hs.2.1, fun _ => ?_⟩
      rw [hs.2.2, List.drop_of_length_le (by omega), List.append_nil, hcont]
      simp only [contents, hb, hx, List.take_take]
      congr 2
      omega
    · have c2' : ¬ (at_ + n == sl.num) = true := by simpa using c2
      rw [if_neg c2']
      by_cases c3 : at_ = 0
      · have c3' : (at_ == 0) = true := by simpa using c3
        rw [if_pos c3']
        have hcap2 := (h.bodies b x hx).cap
        have w3 : wrap ((sl.off : Int) + (n : Nat)) = sl.off + n := by unfold wrap; omega
        rw [w3]
        have hok : SliceOk s { sl with off := sl.off + n, num := sl.num - n } := by
          unfold SliceOk; rw [hb]; exact ⟨x, hx, by simp only; omega⟩
        have hs := setVar_spec (v := v) h hvl hok
        refine ⟨_, rfl, hs.1, setVar_length .., hs.2.1, fun _ => ?_⟩
        subst c3
        rw [hs.2.2, List.take_zero, List.nil_append, hcont, Nat.zero_add]
        simp only [contents, hb, hx]
        rw [List.drop_take, List.drop_drop]
      · have c3' : ¬ (at_ == 0) = true := by simpa using c3
        rw [if_neg c3']
        obtain ⟨s1, id, x1, sl1, e1, e2, e3, e4, e5, e6, e7, e8, e9, e10, e11, e12, e13, e14, e15⟩ := unshare_elems h hv 0 hr
        have hxwf := e2.bodies id x1 e9
        obtain ⟨b', b1, b2, b3, b4, b5⟩ := remove_spec x1 hxwf e10 (refCount s1 id) e11 at_ n hn (by omega)
        rw [e1, res_bind_ok, getVar_ok e6, res_bind_ok]
        simp only [e7, getBody, e9, res_bind_ok, b1]
        have w4 : wrap ((sl1.num : Int) - (n : Nat)) = sl1.num - n := by unfold wrap; omega
        rw [w4]
        have hm := mutate_spec (sl' := { sl1 with num := sl1.num - n }) e2 e6 e7 e11 b2 (lt_of_get e9) e7
          (by simp only; omega)
        rw [e7] at hm
        refine ⟨_, rfl, hm.1, by simp [setVar, setBody, e4], ?_, ?_⟩
        · intro w hw; rw [hm.2.1 w hw, e3 w]
        · intro hf
          have h0 := e15 (by rcases hf with hf | hf | hf; exact hf; exact absurd hf c3; exact absurd hf c2)
          rw [hm.2.2]
          simp only
          rw [slice_elems _ _ (by omega), b5, h0, e8, List.drop_zero]
          rw [h0, List.drop_zero] at e14
          rw [← e14]
          have hxl := hxwf.length
          congr 1
          apply List.ext_getElem?
          intro k
          simp only [List.getElem?_take, List.getElem?_append, List.length_take, List.getElem?_drop, hxl]
          have m1 : min at_ x1.num = at_ := by omega
          have m2 : min at_ (min sl.num x1.num) = at_ := by omega
          rw [m1, m2]
          by_cases k1 : k < at_
          · rw [if_pos (by omega), if_pos k1, if_pos k1, if_pos k1, if_pos k1, if_pos (by omega)]
          · rw [if_neg k1, if_neg k1]
            by_cases k3 : k < sl.num - n
            · rw [if_pos k3, if_pos (by omega)]
            · rw [if_neg k3, if_neg (by omega)]

theorem elem_ok {s : State E} (h : WF s) {v : Nat} {sl : Slice} (hv : s.vars[v]? = some (some sl)) (i : Nat)
    (hi : i < sl.num) : ∃ x, (contents s sl)[i]? = some x ∧ elem s v i = .ok x := by
  have hcap := num_cap h hv
  have := h.vars v sl hv
  unfold SliceOk at this
  cases hb : sl.body with
  | none => rw [hb] at this; simp only at this; omega
  | some b =>
    rw [hb] at this
    obtain ⟨x, hx, hle⟩ := this
    have hml := (h.bodies b x hx).le
    have hcont : contents s sl = (x.mem.drop sl.off).take sl.num := by simp [contents, hb, hx]
    have hlt : sl.off + i < x.mem.length := by omega
    refine ⟨x.mem[sl.off + i], ?_, ?_⟩
    · rw [hcont, List.getElem?_take, if_pos hi, List.getElem?_drop, List.getElem?_eq_getElem hlt]
    · unfold elem
      rw [getVar_ok hv, res_bind_ok]
      have : wrap (i : Int) = i := by unfold wrap; omega
      rw [this, hb]
      have c : (decide ((i : Int) ≥ 0) && decide (i < sl.num) && (some b).isSome) = true := by simp; omega
      rw [c, assert_true, res_bind_ok]
      simp only [getBody, hx, res_bind_ok]
      have e : (i : Int).toNat = i := by omega
      rw [e, rd_lt _ _ hlt]

end Strpp.Arr
