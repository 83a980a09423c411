import Verif.Props.Array
import Verif.Model.ArraySearch
/-! Properties C76 (looking through an array value) and C77 (binary search), include/array.h. -/
namespace Strpp.Arr

variable {E : Type} [Inhabited E]

/-- the array `v` has storage: it is not default constructed and not an empty slice -/
def HasBody (s : State E) (v : Nat) : Prop := ∃ sl b, s.vars[v]? = some (some sl) ∧ sl.body = some b

theorem look_spec {α : Type} {s : State E} (h : WF s) {v : Nat} {l : List E} (hv : view s v = some l) (f : List E → Nat → Nat → Res α) :
    (¬ HasBody s v → look s v f = .error .ub) ∧
    (HasBody s v → ∃ mem off num, off + num ≤ mem.length ∧ (mem.drop off).take num = l ∧ l.length = num ∧ look s v f = f mem off num) := by
  unfold view at hv
  split at hv
  · rename_i sl hsl
    unfold look
    rw [getVar_ok hsl, res_bind_ok]
    cases hb : sl.body with
    | none =>
      refine ⟨fun _ => rfl, ?_⟩
      rintro ⟨sl', b, h1, h2⟩
      rw [hsl] at h1; cases h1
      rw [hb] at h2; cases h2
    | some b =>
      refine ⟨fun hn => absurd ⟨sl, b, hsl, hb⟩ hn, fun _ => ?_⟩
      have hok := h.vars v sl hsl
      unfold SliceOk at hok
      rw [hb] at hok
      obtain ⟨x, hx, hle⟩ := hok
      have hcl := contents_length h hsl
      unfold contents at hv hcl
      rw [hb] at hv hcl
      simp only [hx] at hv hcl
      cases hv
      refine ⟨x.mem, sl.off, sl.num, ?_, rfl, hcl, ?_⟩
      · have := (h.bodies b x hx).le; omega
      · simp only [getBody, hx, res_bind_ok]
  · cases hv

/-- C76. In any well-formed state of any number of arrays, `all`, `any`, `one`, `inject` and `each` of an array with
storage are those of the list that it shows. -/
theorem C76_quantifiers {s : State E} (h : WF s) {v : Nat} {l : List E} (hv : view s v = some l) (hb : HasBody s v)
    (p : E → Bool) {J : Type} (f : J → E → J) (j : J) :
    look s v (fun mem off num => all p mem off num) = .ok (l.all p) ∧
    look s v (fun mem off num => any p mem off num) = .ok (l.any p) ∧
    look s v (fun mem off num => one p mem off num false) = .ok (decide (l.countP p = 1)) ∧
    look s v (fun mem off num => inject f mem off num j) = .ok (l.foldl f j) ∧
    eachIn s v = .ok l := by
  have hk : ∀ (l : List E), l.foldl (fun seen x => seen ++ [x]) [] = l := by
    intro l
    have : ∀ (l acc : List E), l.foldl (fun seen x => seen ++ [x]) acc = acc ++ l := by
      intro l
      induction l with
      | nil => intro acc; simp
      | cons x l ih => intro acc; rw [List.foldl_cons, ih]; simp
    rw [this]; rfl
  unfold eachIn
  refine ⟨?_, ?_, ?_, ?_, ?_⟩ <;>
    (obtain ⟨mem, off, num, h1, h2, h3, h4⟩ := (look_spec h hv _).2 hb
     rw [h4])
  · rw [(C20_quantifiers p mem num off h1).1, h2]
  · rw [(C20_quantifiers p mem num off h1).2.1, h2]
  · rw [(C20_quantifiers p mem num off h1).2.2, h2]
  · rw [C20_inject f mem num off j h1, h2]
  · rw [C20_inject _ mem num off _ h1, h2, hk]

/-- C76. `find` (and `detect`) of an array with storage: the first matching index after `after`, or -1. -/
theorem C76_find {s : State E} (h : WF s) {v : Nat} {l : List E} (hv : view s v = some l) (hb : HasBody s v)
    (p : E → Bool) (after : Int) :
    ∃ r, look s v (fun mem off num => find p mem off num after) = .ok r ∧
      ((r = -1 ∧ ∀ (j : Nat) (y : E), after < j → l[j]? = some y → p y = false) ∨
       ∃ i : Nat, r = i ∧ after < i ∧ (∃ x, l[i]? = some x ∧ p x = true) ∧
        ∀ (j : Nat) (y : E), after < j → j < i → l[j]? = some y → p y = false) := by
  obtain ⟨mem, off, num, h1, h2, h3, h4⟩ := (look_spec h hv (fun mem off num => find p mem off num after)).2 hb
  obtain ⟨r, hr, hc⟩ := C20_find p mem off num h1 after l h2.symm
  refine ⟨r, by rw [h4, hr], ?_⟩
  rcases hc with hc | ⟨i, rfl, a, b, c⟩
  · exact Or.inl hc
  · refine Or.inr ⟨i, rfl, ?_, b, ?_⟩
    · split at a <;> omega
    · intro j y h1 h2 h3
      refine c j y ?_ h2 h3
      split <;> omega

/-- C76. `rfind` of an array with storage, for a bound not beyond its end: the last matching index below the bound, among
the indices *after the first*; or -1. -/
theorem C76_rfind {s : State E} (h : WF s) {v : Nat} {l : List E} (hv : view s v = some l) (hb : HasBody s v)
    (p : E → Bool) (before : Int) (hbf : before ≤ l.length) :
    ∃ r, look s v (fun mem off num => rfind p mem off num before) = .ok r ∧
      ((r = -1 ∧ ∀ (j : Nat) (y : E), 0 < j → (before < 0 ∨ (j : Int) < before) → l[j]? = some y → p y = false) ∨
       ∃ i : Nat, r = i ∧ 0 < i ∧ (before < 0 ∨ (i : Int) < before) ∧ (∃ x, l[i]? = some x ∧ p x = true) ∧
        ∀ (j : Nat) (y : E), i < j → (before < 0 ∨ (j : Int) < before) → l[j]? = some y → p y = false) := by
  obtain ⟨mem, off, num, h1, h2, h3, h4⟩ := (look_spec h hv (fun mem off num => rfind p mem off num before)).2 hb
  obtain ⟨r, hr, hc⟩ := C20_rfind_partial p mem off num h1 before (by omega) l h2.symm
  have hlt : ∀ (j : Nat) (y : E), l[j]? = some y → j < num := by
    intro j y hy; have := lt_of_get hy; omega
  have hbnd : ∀ (j : Nat) (y : E), l[j]? = some y → (before < 0 ∨ (j : Int) < before) →
      (j : Int) < (if before < 0 then (num : Int) else before) := by
    intro j y hy hor
    have := hlt j y hy
    split <;> omega
  refine ⟨r, by rw [h4, hr], ?_⟩
  rcases hc with ⟨a, b⟩ | ⟨i, rfl, a, b, c, d⟩
  · exact Or.inl ⟨a, fun j y h1 h2 h3 => b j y h1 (hbnd j y h3 h2) h3⟩
  · refine Or.inr ⟨i, rfl, a, ?_, c, fun j y h1 h2 h3 => d j y h1 (hbnd j y h3 h2) h3⟩
    split at b <;> omega

/-- C76. Every one of these calls on an array without storage is undefined behaviour, although it is an empty array. -/
theorem C76_null {α : Type} {s : State E} (h : WF s) {v : Nat} {l : List E} (hv : view s v = some l) (hb : ¬ HasBody s v)
    (f : List E → Nat → Nat → Res α) (p : E → Bool) {F : Type} [Inhabited F] (g : E → F) :
    l = [] ∧ look s v f = .error .ub ∧ select p s v = .error .ub ∧ mapTo g s v = .error .ub := by
  have hlook := (look_spec h hv f).1 hb
  unfold view at hv
  split at hv
  · rename_i sl hsl
    have hbody : sl.body = none := by
      cases hbb : sl.body with
      | none => rfl
      | some b => exact absurd ⟨sl, b, hsl, hbb⟩ hb
    have hok := h.vars v sl hsl
    unfold SliceOk at hok
    rw [hbody] at hok
    refine ⟨?_, hlook, ?_, ?_⟩
    · cases hv; unfold contents; rw [hbody]
    · unfold select
      rw [getVar_ok hsl, res_bind_ok, hbody]
      rfl
    · unfold mapTo
      rw [getVar_ok hsl, res_bind_ok, hbody]
      simp only at hok
      rw [hok]
      simp only [exec]
      rfl
  · cases hv

-- an array that has never held anything
example : (do
    let s ← exec (State.init : State Nat) .default
    look s 0 (fun mem off num => find (· == 3) mem off num (-1))) = .error .ub := by decide
-- an array that was emptied is found to be empty
example : (do
    let s ← execAll (State.init : State Nat) [.ofData [1, 2] 0, .clear 0]
    look s 0 (fun mem off num => find (· == 3) mem off num (-1))) = .ok (-1) := by decide

/-! ### select and map -/

theorem unshare_bodies {s s' : State E} (h : WF s) {v : Nat} {sl : Slice} (hv : s.vars[v]? = some (some sl)) {n : Nat}
    (hu : unshare s v n = .ok s') : ∀ y ∈ s'.bodies, y ∈ s.bodies ∨ y.num = sl.num := by
  unfold unshare at hu
  rw [getVar_ok hv, res_bind_ok] at hu
  simp only at hu
  have hu2 : s' = s ∨ (do
      let data ← elements s sl
      let b ← Body.ofData data (sl.num + n)
      .ok (setVar { s with bodies := s.bodies ++ [b] } v ⟨some s.bodies.length, 0, sl.num⟩)) = .ok s' := by
    by_cases hk : ∃ b, sl.body = some b ∧ refCount s b ≤ 1
    · obtain ⟨b, hb, hrc⟩ := hk
      left
      rw [hb] at hu
      simp only [hrc, decide_true, if_true] at hu
      cases hu; rfl
    · right
      cases hb : sl.body with
      | none => rw [hb] at hu; simpa using hu
      | some b =>
        have : ¬ refCount s b ≤ 1 := fun h => hk ⟨b, hb, h⟩
        rw [hb] at hu
        simp only [this, decide_false] at hu
        simpa using hu
  rcases hu2 with rfl | hu
  · exact fun y hy => Or.inl hy
  · have he : ∃ d, elements s sl = .ok d ∧ d.length = sl.num := by
      unfold elements
      have hok := h.vars v sl hv
      unfold SliceOk at hok
      cases hb : sl.body with
      | none =>
        rw [hb] at hok
        simp only at hok
        simp only [hok, beq_self_eq_true, if_true]
        exact ⟨[], rfl, rfl⟩
      | some b =>
        rw [hb] at hok
        obtain ⟨x, hx, hle⟩ := hok
        have := (h.bodies b x hx).le
        simp only [getBody, hx, res_bind_ok]
        rw [readN_spec _ _ _ (by omega)]
        exact ⟨_, rfl, by simp; omega⟩
    obtain ⟨d, hd, hdl⟩ := he
    rw [hd, res_bind_ok] at hu
    obtain ⟨b, hb, hu⟩ := hbind hu
    cases hu
    have hbn : b.num = d.length := by
      unfold Body.ofData at hb
      obtain ⟨b1, -, hb⟩ := hbind hb
      obtain ⟨m1, -, hb⟩ := hbind hb
      cases hb; rfl
    intro y hy
    simp only [setVar, List.mem_append, List.mem_singleton] at hy
    rcases hy with hy | rfl
    · exact Or.inl hy
    · right; omega

/-- pushing to an array that starts its body, with what stays true for pushing again -/
theorem push_more {s : State E} (h : WF s) {v : Nat} {sl : Slice} (hv : s.vars[v]? = some (some sl)) (h0 : sl.off = 0) (e : E) {n : Nat}
    (hr : Roomy s (n + 1)) :
    ∃ s' sl', push s v e = .ok s' ∧ WF s' ∧ s'.vars.length = s.vars.length ∧ (∀ w, w ≠ v → view s' w = view s w) ∧
      view s' v = some (contents s sl ++ [e]) ∧ s'.vars[v]? = some (some sl') ∧ sl'.off = 0 ∧ Roomy s' n := by
  have hr1 : Roomy s 1 := ⟨by have := hr.1; omega, fun x hx => by have := hr.2 x hx; omega⟩
  have hfront : AtFront s v := by
    intro sl2 h2
    rw [hv] at h2; cases h2
    exact Or.inl h0
  obtain ⟨s', p1, p2, p3, p4, p5⟩ := push_ok h hv e hr1
  obtain ⟨s1, id, x, sl1, e1, e2, e3, e4, e5, e6, e7, e8, e9, e10, e11, e12, e13, e14, e15⟩ := unshare_elems h hv 1 hr1
  have hxwf := e2.bodies id x e9
  obtain ⟨b, b1, b2, b3, b4, b5⟩ := insert_spec x hxwf e10 (refCount s1 id) e11 sl1.num (by omega) [e] (by simpa using e12)
  have hbod := unshare_bodies h hv e1
  have hnum : sl.num + (n + 1) ≤ 2147483647 := hr.num h hv
  have hs' : push s v e = .ok (setVar (setBody s1 id b) v { sl1 with num := sl1.num + 1 }) := by
    unfold push
    rw [e1, res_bind_ok, getVar_ok e6, res_bind_ok]
    simp only [e7, getBody, e9, res_bind_ok, b1]
  rw [p1] at hs'
  cases hs'
  refine ⟨_, { sl1 with num := sl1.num + 1 }, p1, p2, p3, p4, p5 hfront, ?_, e15 hfront, ?_, ?_⟩
  · simp only [setVar, setBody]
    rw [List.getElem?_set_self (lt_of_get e6)]
  · have := hr.1; omega
  · intro y hy
    simp only [setVar, setBody] at hy
    rcases List.mem_or_eq_of_mem_set hy with hy | rfl
    · rcases hbod y hy with h1 | h1
      · have := hr.2 y h1; omega
      · omega
    · rw [b4]
      rcases hbod x (List.mem_of_getElem? e9) with h1 | h1
      · have := hr.2 x h1; simp; omega
      · simp; omega

/-- C76. `select` on an array with storage makes a new array of the elements that satisfy the condition, in order, and
changes no other array. -/
theorem C76_select {s : State E} (h : WF s) {v : Nat} {l : List E} (hv : view s v = some l) (hb : HasBody s v)
    (p : E → Bool) (hr : Roomy s l.length) :
    ∃ s', select p s v = .ok s' ∧ WF s' ∧ views s' = views s ++ [some (l.filter p)] := by
  obtain ⟨mem, off, num, h1, h2, h3, h4⟩ := (look_spec h hv (fun mem off num =>
    selectLoop p mem s.vars.length off num (newVar s ⟨none, 0, 0⟩))).2 hb
  have hsel : select p s v = selectLoop p mem s.vars.length off num (newVar s ⟨none, 0, 0⟩) := h4
  rw [hsel, ← h2]
  have hn := newVar_spec h (sl := ⟨none, 0, 0⟩) rfl
  have key : ∀ (n off : Nat) (t : State E) (sl : Slice), off + n ≤ mem.length → WF t → t.vars.length = s.vars.length + 1 →
      t.vars[s.vars.length]? = some (some sl) → sl.off = 0 → Roomy t n → (∀ w, w ≠ s.vars.length → view t w = view s w) →
      ∃ t', selectLoop p mem s.vars.length off n t = .ok t' ∧ WF t' ∧
        views t' = views s ++ [some (contents t sl ++ ((mem.drop off).take n).filter p)] := by
    intro n
    induction n with
    | zero =>
      intro off t sl _ hw hl hsl h0 _ hoth
      refine ⟨t, rfl, hw, ?_⟩
      rw [List.take_zero, List.filter_nil, List.append_nil]
      exact views_push hl hoth (view_some hsl)
    | succ n ih =>
      intro off t sl hle hw hl hsl h0 hrm hoth
      obtain ⟨y, hy1, hy2⟩ := readable (num := n) (by omega : off + n + 1 ≤ mem.length)
      simp only [selectLoop]
      rw [hy1, res_bind_ok, hy2]
      by_cases hp : p y = true
      · rw [if_pos hp]
        obtain ⟨t1, sl1, q1, q2, q3, q4, q5, q6, q7, q8⟩ := push_more hw hsl h0 y hrm
        rw [q1, res_bind_ok]
        obtain ⟨t', r1, r2, r3⟩ := ih (off + 1) t1 sl1 (by omega) q2 (by omega) q6 q7 q8
          (fun w hw' => by rw [q4 w hw', hoth w hw'])
        refine ⟨t', r1, r2, ?_⟩
        rw [r3, List.filter_cons_of_pos hp]
        have : contents t1 sl1 = contents t sl ++ [y] := by
          have := view_some q6
          rw [q5] at this
          exact (Option.some.inj this).symm
        rw [this, List.append_assoc]
        rfl
      · rw [if_neg hp]
        obtain ⟨t', r1, r2, r3⟩ := ih (off + 1) t sl (by omega) hw hl hsl h0
          ⟨by have := hrm.1; omega, fun x hx => by have := hrm.2 x hx; omega⟩ hoth
        refine ⟨t', r1, r2, ?_⟩
        rw [r3, List.filter_cons_of_neg hp]
  obtain ⟨t', r1, r2, r3⟩ := key num off (newVar s ⟨none, 0, 0⟩) ⟨none, 0, 0⟩ h1 hn.1 (by simp [newVar]) (by simp [newVar]) rfl
    (by rw [h3] at hr; exact hr) hn.2.1
  refine ⟨t', r1, r2, ?_⟩
  rw [r3]
  rfl

/-- C76. `map` on an array with storage makes an array of the results, in order. -/
theorem C76_map {F : Type} [Inhabited F] {s : State E} (h : WF s) {v : Nat} {l : List E} (hv : view s v = some l) (hb : HasBody s v)
    (f : E → F) (hl : l.length ≤ 2147483647) :
    ∃ t, mapTo f s v = .ok t ∧ WF t ∧ views t = [some (l.map f)] := by
  obtain ⟨mem, off, num, h1, h2, h3, h4⟩ := (look_spec h hv (fun mem off num => do
    let t ← exec (State.init : State F) (.ofData [] num)
    mapLoop f mem off num t)).2 hb
  have hsel : mapTo f s v = (do
      let t ← exec (State.init : State F) (.ofData [] num)
      mapLoop f mem off num t) := by
    rw [← h4]
    unfold mapTo look
    obtain ⟨sl, b, hsl, hbb⟩ := hb
    have hok := h.vars v sl hsl
    unfold SliceOk at hok
    rw [hbb] at hok
    obtain ⟨x, hx, -⟩ := hok
    rw [getVar_ok hsl, res_bind_ok, res_bind_ok, hbb]
    simp only [getBody, hx, res_bind_ok]
  rw [hsel, ← h2]
  have hinit : WF (State.init : State F) := ⟨by simp [State.init], by simp [State.init]⟩
  have key : ∀ (n off : Nat) (t : State F) (sl : Slice), off + n ≤ mem.length → WF t → t.vars.length = 1 →
      t.vars[0]? = some (some sl) → sl.off = 0 → Roomy t n →
      ∃ t', mapLoop f mem off n t = .ok t' ∧ WF t' ∧
        views t' = [some (contents t sl ++ ((mem.drop off).take n).map f)] := by
    intro n
    induction n with
    | zero =>
      intro off t sl _ hw hl hsl h0 _
      refine ⟨t, rfl, hw, ?_⟩
      rw [List.take_zero, List.map_nil, List.append_nil]
      apply List.ext_getElem?
      intro w
      rw [views_get, hl]
      cases w with
      | zero => rw [if_pos (by omega), view_some hsl]; rfl
      | succ w => rw [if_neg (by omega)]; rfl
    | succ n ih =>
      intro off t sl hle hw hl hsl h0 hrm
      obtain ⟨y, hy1, hy2⟩ := readable (num := n) (by omega : off + n + 1 ≤ mem.length)
      simp only [mapLoop]
      rw [hy1, res_bind_ok, hy2]
      obtain ⟨t1, sl1, q1, q2, q3, q4, q5, q6, q7, q8⟩ := push_more hw hsl h0 (f y) hrm
      rw [q1, res_bind_ok]
      obtain ⟨t', r1, r2, r3⟩ := ih (off + 1) t1 sl1 (by omega) q2 (by omega) q6 q7 q8
      refine ⟨t', r1, r2, ?_⟩
      have : contents t1 sl1 = contents t sl ++ [f y] := by
        have := view_some q6
        rw [q5] at this
        exact (Option.some.inj this).symm
      rw [r3, this, List.map_cons, List.append_assoc]
      rfl
  obtain ⟨b, c1, c2, c3, c4, c5⟩ := ofData_spec ([] : List F) (if num < ([] : List F).length then ([] : List F).length else num)
    (by simp) (by simp; omega)
  have hex : exec (State.init : State F) (.ofData [] num) = .ok (newVar ⟨[b], []⟩ ⟨some 0, 0, 0⟩) := by
    simp only [exec]
    rw [c1, res_bind_ok]
    rfl
  have hwf := newVar_spec (addBody_spec hinit c2).1 (sl := ⟨some 0, 0, 0⟩) ⟨b, rfl, by simp⟩
  rw [hex, res_bind_ok]
  obtain ⟨t', r1, r2, r3⟩ := key num off (newVar ⟨[b], []⟩ ⟨some 0, 0, 0⟩) ⟨some 0, 0, 0⟩ h1 hwf.1 rfl rfl rfl
    ⟨by omega, by
      intro x hx
      simp only [newVar, List.mem_singleton] at hx
      subst hx
      rw [c5]; simp; omega⟩
  refine ⟨t', r1, r2, ?_⟩
  rw [r3]
  simp [contents, newVar]

example : (do
    let s ← execAll (State.init : State Nat) [.ofData [1, 2, 3, 4, 5] 0, .deleteAt 0 0, .copy 0]
    let s ← select (fun n => n % 2 == 1) s 1
    let t ← mapTo (fun n : Nat => n * 10) s 0
    .ok (views s, views t)) = .ok ([some [2, 3, 4, 5], some [2, 3, 4, 5], some [3, 5]], [some [20, 30, 40, 50]]) := by decide

end Strpp.Arr
