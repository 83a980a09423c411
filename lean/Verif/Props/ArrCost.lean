import Verif.Proof.ArrCost
/-! C101: what building up an array costs. `pushesCost` (Verif/Model/ArrCost.lean) counts the elements that the loops of
the calls copy; `stored`, `hiddenBefore` and `Alone` are those of C80. -/
set_option linter.unusedSectionVars false
set_option linter.unusedSimpArgs false
namespace Strpp.Arr

variable {E : Type} [Inhabited E]

/-- the first push copies what is shown if the storage is not `v`'s own -/
theorem push_shared {s : State E} (h : WF s) {v : Nat} {sl : Slice} (hv : s.vars[v]? = some (some sl)) (hc : sl.num + 1 ≤ 1073741824)
    (hs : ¬ Alone s v) : ∃ (s1 : State E) (x : Body E), unshare s v 1 = .ok s1 ∧ Whole s1 v x ∧ x.elems = contents s sl ∧ x.num = sl.num ∧
      unshareCost s v = sl.num ∧ unshare s1 v 1 = .ok s1 ∧ unshareCost s1 v = 0 ∧ ∀ w, view s1 w = view s w := by
  obtain ⟨s1, id, x, sl1, e1, e2, e3, e4, e5, e6, e7, e8, e9, e10, e11, e12, e13⟩ := unshare_spec h hv 1 (by omega)
  have hrc2 : refCount s1 id ≤ 1 := e12
  rcases e13 with ⟨g1, g2, g3, g4⟩ | ⟨g1, g2, g3, g4⟩
  · subst g2
    exact absurd ((alone_iff hv g1 e10).mpr g4) hs
  · refine ⟨s1, x, e1, ⟨e2, ⟨sl1, id, e7, e8, g1, by rw [e9, g3], e10, e12⟩, e11⟩, g2, g3, ?_, ?_, ?_, e3⟩
    · unfold unshareCost
      rw [getVar_ok hv]
      simp only
      rw [if_neg]
      rcases g4 with g4 | ⟨b, g4, g5⟩
      · simp [g4]
      · simp only [g4, decide_eq_true_eq]; omega
    · unfold unshare
      rw [getVar_ok e7, res_bind_ok, e8]
      simp [e12]
    · unfold unshareCost
      rw [getVar_ok e7]
      simp [e8, e12]

theorem push_of_unshared {s s1 : State E} {v : Nat} (h1 : unshare s v 1 = .ok s1) (h2 : unshare s1 v 1 = .ok s1)
    (h3 : unshareCost s1 v = 0) (e : E) :
    exec s (.push v e) = exec s1 (.push v e) ∧ pushCost s v = unshareCost s v + pushCost s1 v := by
  constructor
  · simp only [exec]
    unfold push
    rw [h1, h2]
  · unfold pushCost
    rw [h3, h1, h2]
    simp

/-- C101. Pushing elements one after the other to an array that shows all of its own storage, or shares it: the elements
come after those there were, nothing else changes, and in all at most four elements are copied for each one pushed, and
two for each that was there at the beginning. -/
theorem C101_pushes {before : List (Op E)} {s : State E} (hs : Runs State.init before s) {v : Nat} {l : List E}
    (hv : view s v = some l) (hw : ¬ Alone s v ∨ (hiddenBefore s v = 0 ∧ stored s v = l)) (es : List E)
    (hc : l.length + es.length ≤ 1073741824) :
    ∃ s', execAll s (es.map (.push v)) = .ok s' ∧ view s' v = some (l ++ es) ∧ (∀ w, w ≠ v → view s' w = view s w) ∧
      pushesCost s v es ≤ 4 * es.length + 2 * l.length := by
  have h := runs_wf hs
  obtain ⟨sl, hsl, rfl⟩ := view_var hv
  have hlen := contents_length h hsl
  have hdebt : ∀ (x : Body E), x.WF → x.static = false → debt x ≤ x.num := by
    intro x h1 h2
    have a1 := h1.alloc h2
    have a2 := h1.le
    unfold debt; omega
  by_cases ha : Alone s v
  · rcases hw with hw | ⟨hw1, hw2⟩
    · exact absurd ha hw
    obtain ⟨sl', id, x, g1, g2, g3, g4, g5⟩ := ha
    have hsl' := hsl
    rw [g1] at hsl'; cases hsl'
    have hst : stored s v = x.elems := by unfold stored; rw [hsl]; simp only [g2, g3]
    have hoff : sl.off = 0 := by unfold hiddenBefore at hw1; rw [hsl] at hw1; exact hw1
    have hxw := h.bodies id x g3
    have hnum : sl.num = x.num := by rw [← hlen, ← hw2, hst, hxw.length]
    have hW : Whole s v x := ⟨h, ⟨sl, id, hsl, g2, hoff, hnum, g3, (alone_iff hsl g2 g3).mp ⟨sl, id, x, g1, g2, g3, g4, g5⟩⟩, g4⟩
    obtain ⟨s', x', a1, a2, a3, a4, a5⟩ := pushes_whole es hW (by omega)
    refine ⟨s', a1, ?_, a5, ?_⟩
    · rw [a2.view, a3, ← hst, hw2]
    · have := hdebt x hxw g4
      omega
  · cases es with
    | nil => exact ⟨s, rfl, by simpa using hv, fun _ _ => rfl, by simp [pushesCost]⟩
    | cons e es =>
      simp only [List.length_cons] at hc
      obtain ⟨s1, x, b1, b2, b3, b4, b5, b6, b7, b8⟩ := push_shared h hsl (by omega) ha
      obtain ⟨c1, c2⟩ := push_of_unshared b1 b6 b7 e
      obtain ⟨s', x', a1, a2, a3, a4, a5⟩ := pushes_whole (e :: es) b2 (by simp only [List.length_cons]; omega)
      have hsame : execAll s ((e :: es).map (.push v)) = execAll s1 ((e :: es).map (.push v)) := by
        show (exec s (.push v e) >>= fun s => execAll s (es.map (.push v))) = (exec s1 (.push v e) >>= fun s => execAll s (es.map (.push v)))
        rw [c1]
      have hcost : pushesCost s v (e :: es) = sl.num + pushesCost s1 v (e :: es) := by
        simp only [pushesCost, c1, c2, b5]
        omega
      refine ⟨s', by rw [hsame]; exact a1, by rw [a2.view, a3, b3], fun w hw => by rw [a5 w hw, b8 w], ?_⟩
      obtain ⟨sl1, id, d1, d2, d3, d4, d5, d6⟩ := b2.sl
      have := hdebt x (b2.wf.bodies id x d5) b2.own
      rw [hcost]
      omega

theorem copy_wf {s : State E} (h : WF s) {v : Nat} {sl : Slice} (hv : s.vars[v]? = some (some sl)) : WF (newVar s sl) := by
  refine ⟨h.bodies, fun w sl' hw => ?_⟩
  unfold newVar at hw
  simp only at hw
  have key : SliceOk s sl' → SliceOk (newVar s sl) sl' := by
    intro hh; unfold SliceOk newVar at *; exact hh
  rcases Nat.lt_or_ge w s.vars.length with g | g
  · rw [List.getElem?_append_left g] at hw
    exact key (h.vars w sl' hw)
  · rw [List.getElem?_append_right g] at hw
    cases hk : w - s.vars.length with
    | zero => rw [hk] at hw; simp at hw; subst hw; exact key (h.vars v sl hv)
    | succ k => rw [hk] at hw; simp at hw

theorem keep_wf : ∀ (es : List E) {s : State E} (_ : WF s) {v : Nat} {l : List E} (_ : view s v = some l)
    (_ : l.length + es.length ≤ 1073741824), 2 * es.length * l.length + es.length * (es.length + 1) ≤ 2 * keepCost s v es
  | [], s, h, v, l, hv, hc => by simp
  | e :: es, s, h, v, l, hv, hc => by
    simp only [List.length_cons] at hc ⊢
    obtain ⟨sl, hsl, rfl⟩ := view_var hv
    have hlen := contents_length h hsl
    have hcw := copy_wf h hsl
    have hlt := lt_of_get hsl
    have hsl1 : (newVar s sl).vars[v]? = some (some sl) := by
      unfold newVar; simp only; rw [List.getElem?_append_left hlt]; exact hsl
    have hnew : (newVar s sl).vars[s.vars.length]? = some (some sl) := by
      unfold newVar; simp
    have hna : ¬ Alone (newVar s sl) v := by
      rintro ⟨sl', b, x, g1, g2, g3, g4, g5⟩
      rw [hsl1] at g1; cases g1
      exact g5 s.vars.length sl (by omega) hnew g2
    have hcont : contents (newVar s sl) sl = contents s sl := rfl
    obtain ⟨s1, x, b1, b2, b3, b4, b5, b6, b7, b8⟩ := push_shared hcw hsl1 (by omega) hna
    obtain ⟨c1, c2⟩ := push_of_unshared b1 b6 b7 e
    obtain ⟨s2, x2, a1, a2, a3, a4, a5, a6⟩ := push_whole b2 e (by omega)
    have hpc := whole_cost b2
    have hv2 : view s2 v = some (contents s sl ++ [e]) := by rw [a2.view, a3, b3, hcont]
    have ih := keep_wf es a2.wf hv2 (by simp only [List.length_append, List.length_cons, List.length_nil]; omega)
    have hk : keepCost s v (e :: es) = pushCost (newVar s sl) v + keepCost s2 v es := by
      have e1 : exec s (.copy v) = .ok (newVar s sl) := by simp only [exec]; rw [getVar_ok hsl, res_bind_ok]
      simp only [keepCost, e1, c1, a1]
    rw [hk, c2, b5, ← hlen]
    simp only [List.length_append, List.length_cons, List.length_nil] at ih
    generalize (contents s sl).length = n at *
    generalize es.length = k at *
    generalize keepCost s2 v es = c at *
    generalize pushCost s1 v = d at *
    have e1 : 2 * k * (n + (0 + 1)) = 2 * k * n + 2 * k := by rw [Nat.mul_add]; omega
    have e2 : 2 * (k + 1) * n = 2 * k * n + 2 * n := by rw [Nat.mul_add 2, Nat.add_mul]
    have e3 : (k + 1) * (k + 1 + 1) = k * (k + 1) + 2 * (k + 1) := by
      rw [Nat.mul_add (k + 1) (k + 1) 1, Nat.add_mul k 1 (k + 1)]; omega
    rw [e1] at ih
    rw [e2, e3]
    omega

/-- C101. The provision is needed: when a copy is taken and kept before each push, each copies all there is, and what `n`
pushes copy grows with the square of `n`. -/
theorem C101_limit_kept {before : List (Op E)} {s : State E} (hs : Runs State.init before s) {v : Nat} {l : List E}
    (hv : view s v = some l) (es : List E) (hc : l.length + es.length ≤ 1073741824) :
    2 * es.length * l.length + es.length * (es.length + 1) ≤ 2 * keepCost s v es :=
  keep_wf es (runs_wf hs) hv hc

/-- an array made by `n` pushes on an empty one -/
example : (do
    let s ← execAll (State.init : State Nat) [.default]
    .ok (pushesCost s 0 (List.range 100)) : Res Nat) = .ok 220 := by decide +kernel

/-- Non-vacuity: a variable that shares its storage, after a history. -/
example : ∃ s : State Nat, Runs State.init [.ofData [1, 2, 3] 0, .copy 0] s ∧ view s 1 = some [1, 2, 3] ∧
    ∃ s', execAll s ([4, 5].map (.push 1)) = .ok s' ∧ view s' 1 = some [1, 2, 3, 4, 5] ∧ view s' 0 = some [1, 2, 3] := by
  refine ⟨_, Runs.cons (s1 := _) (by simp [Legal]) (by unfold Roomy added; simp [State.init]) rfl
    (Runs.cons (s1 := _) (by unfold Legal; exact ⟨[1, 2, 3], by decide⟩) (by unfold Roomy added; decide) rfl (.nil _)), by decide, ?_⟩
  refine ⟨_, rfl, by decide, by decide⟩

end Strpp.Arr
