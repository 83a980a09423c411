import Verif.Proof.CowMap
/-!
C22 and C23: maps that share bodies, for every history of calls. `views` is what every variable shows, each as a finite
map; `specStep` is what a call should do to that.
-/
namespace Strpp.CM
variable {K V : Type} [DecidableEq K] {lt : K → K → Bool}

theorem get_set_if {α : Type} (l : List α) (i : Nat) (x : α) (h : i < l.length) (w : Nat) :
    (l.set i x)[w]? = if w = i then some x else l[w]? := by
  rw [List.getElem?_set]
  by_cases e : i = w
  · subst e; simp [h]
  · rw [if_neg e, if_neg (Ne.symm e)]

theorem get_push {α : Type} (l : List α) (x : α) (w : Nat) :
    (l ++ [x])[w]? = if w = l.length then some x else l[w]? := by
  rw [List.getElem?_append]
  split
  · rw [if_neg (by omega)]
  · split
    · rename_i e; subst e; simp
    · rw [List.getElem?_eq_none (by simp; omega), List.getElem?_eq_none (by omega)]

/-- a body added, one variable pointed at it -/
theorem fresh_ok {s : State K V} (h : WF lt s) {v : Nat} (hv : v < s.vars.length) {m : List (K × V)} (hm : Sorted lt m) :
    WF lt (fresh s v m) ∧ (fresh s v m).vars[v]? = some (some s.bodies.length) ∧
    (fresh s v m).bodies[s.bodies.length]? = some m ∧
    (∀ w, w ≠ v → (fresh s v m).vars[w]? ≠ some (some s.bodies.length)) ∧
    (∀ w, w ≠ v → view lt (fresh s v m) w = view lt s w) := by
  refine ⟨⟨?_, ?_⟩, ?_, ?_, ?_, ?_⟩
  · intro b x hx
    simp only [fresh, get_push] at hx
    split at hx
    · cases hx; exact hm
    · exact h.bodies b x hx
  · intro w b hw
    simp only [fresh, get_set_if _ _ _ hv, List.length_append, List.length_singleton] at hw ⊢
    split at hw
    · cases hw; omega
    · have := h.vars w b hw; omega
  · simp [fresh, hv]
  · simp [fresh]
  · intro w hw hh
    simp only [fresh, get_set_if _ _ _ hv, if_neg hw] at hh
    have := h.vars w _ hh
    omega
  · intro w hw
    unfold view
    simp only [fresh, get_set_if _ _ _ hv, if_neg hw]
    split
    · rename_i b hb
      have := h.vars w b hb
      rw [List.getElem?_append_left this]
    · rfl

theorem bodyOf_ok {s : State K V} {v b : Nat} (h : s.vars[v]? = some (some b)) : bodyOf s v = .ok b := by
  unfold bodyOf; rw [h]

theorem entries_ok {s : State K V} {b : Nat} {m : List (K × V)} (h : s.bodies[b]? = some m) : entries s b = .ok m := by
  unfold entries; rw [h]

theorem unshare_ok (o : StrictOrder lt) {s : State K V} (h : WF lt s) {v b : Nat} {m : List (K × V)}
    (hv : s.vars[v]? = some (some b)) (hb : s.bodies[b]? = some m) :
    ∃ s' b' m', unshare lt s v = .ok s' ∧ WF lt s' ∧ s'.vars.length = s.vars.length ∧ s'.vars[v]? = some (some b') ∧
      s'.bodies[b']? = some m' ∧ (∀ j, mfind lt j m' = mfind lt j m) ∧
      (∀ w, w ≠ v → s'.vars[w]? ≠ some (some b')) ∧ (∀ w, w ≠ v → view lt s' w = view lt s w) := by
  unfold unshare
  rw [bodyOf_ok hv, res_bind_ok]
  by_cases hc : refCount s b ≤ 1
  · rw [if_pos hc]
    refine ⟨s, b, m, rfl, h, rfl, hv, hb, fun _ => rfl, ?_, fun _ _ => rfl⟩
    intro w hw hh
    have := refCount_two (Ne.symm hw) hv hh
    omega
  · rw [if_neg hc, entries_ok hb, res_bind_ok]
    obtain ⟨a1, a2, a3, a4, a5⟩ := fresh_ok h (lt_of_get hv) (build_spec o m).1
    exact ⟨_, _, _, rfl, a1, by simp [fresh], a2, a3, build_sorted o m (h.bodies b m hb), a4, a5⟩

theorem modify_ok {s : State K V} (h : WF lt s) {v b : Nat} {m : List (K × V)}
    (hv : s.vars[v]? = some (some b)) (hb : s.bodies[b]? = some m) (f : List (K × V) → List (K × V)) (hf : Sorted lt (f m)) :
    ∃ s', modify s v f = .ok s' ∧ WF lt s' ∧ s'.vars = s.vars ∧ s'.bodies[b]? = some (f m) ∧
      (∀ w, s.vars[w]? ≠ some (some b) → view lt s' w = view lt s w) := by
  refine ⟨{ s with bodies := s.bodies.set b (f m) }, ?_, ⟨?_, ?_⟩, rfl, ?_, ?_⟩
  · unfold modify; rw [bodyOf_ok hv, res_bind_ok, entries_ok hb, res_bind_ok]
  · intro c x hx
    simp only [get_set_if _ _ _ (lt_of_get hb)] at hx
    split at hx
    · cases hx; exact hf
    · exact h.bodies c x hx
  · intro w c hw
    simpa using h.vars w c hw
  · simp [lt_of_get hb]
  · intro w hw
    unfold view
    simp only [get_set_if _ _ _ (lt_of_get hb)]
    split
    · rename_i c hc
      rw [if_neg (by rintro rfl; exact hw hc)]
    · rfl

/-- unshare, then change -/
theorem edit_ok (o : StrictOrder lt) {s : State K V} (h : WF lt s) {v b : Nat} {m : List (K × V)}
    (hv : s.vars[v]? = some (some b)) (hb : s.bodies[b]? = some m) (f : List (K × V) → List (K × V)) (g : FMap K V → FMap K V)
    (hf : ∀ m, Sorted lt m → Sorted lt (f m) ∧ (fun j => mfind lt j (f m)) = g (fun j => mfind lt j m)) :
    ∃ s', (do let s ← unshare lt s v; modify s v f) = .ok s' ∧ WF lt s' ∧ s'.vars.length = s.vars.length ∧
      view lt s' v = some (g (fun j => mfind lt j m)) ∧ (∀ w, w ≠ v → view lt s' w = view lt s w) := by
  obtain ⟨s1, b1, m1, a1, a2, a3, a4, a5, a6, a7, a8⟩ := unshare_ok o h hv hb
  have hs1 := hf m1 (a2.bodies b1 m1 a5)
  obtain ⟨s2, c1, c2, c3, c4, c5⟩ := modify_ok a2 a4 a5 f hs1.1
  refine ⟨s2, by rw [a1, res_bind_ok, c1], c2, by rw [c3, a3], ?_, ?_⟩
  · rw [view_some (by rw [c3]; exact a4) c4, hs1.2]
    congr 2
    funext j; exact a6 j
  · intro w hw
    rw [c5 w (a7 w hw), a8 w hw]

/-- what this code further needs for a call not to disturb other variables: `put` of a key that is there already must not
meet a shared body -/
def Good (lt : K → K → Bool) (s : State K V) : Op K V → Prop
  | .put v k _ => (∃ x, shown (views lt s) v k = some x) → ∀ w, w ≠ v → s.vars[w]? = s.vars[v]? → False
  | _ => True

theorem shown_views (s : State K V) (v : Nat) {b : Nat} {m : List (K × V)} (hv : s.vars[v]? = some (some b))
    (hb : s.bodies[b]? = some m) : shown (views lt s) v = fun j => mfind lt j m := by
  unfold shown
  rw [views_get, view_some hv hb]; rfl

/-- the conclusion of every case below -/
def Does (lt : K → K → Bool) (s s' : State K V) (op : Op K V) (G : Prop) : Prop :=
  WF lt s' ∧ (views lt s').length = (specStep (views lt s) op).length ∧
  view lt s' (target s.vars.length op) = ((specStep (views lt s) op)[target s.vars.length op]?).join ∧
  (G → ∀ w, w ≠ target s.vars.length op → view lt s' w = view lt s w)

theorem exec_does (o : StrictOrder lt) {s : State K V} (h : WF lt s) (op : Op K V) (hl : Legal (views lt s) op) :
    ∃ s', exec lt s op = .ok s' ∧ Does lt s s' op (Good lt s op) := by
  have hview : ∀ {s' : State K V} {w : Nat}, w < s.vars.length → s'.vars[w]? = s.vars[w]? →
      (∀ b, s.vars[w]? = some (some b) → s'.bodies[b]? = s.bodies[b]?) → view lt s' w = view lt s w := by
    intro s' w _ h1 h2
    unfold view
    rw [h1]
    split
    · rename_i b hb; rw [h2 b hb]
    · rfl
  -- a new variable on body b
  have hnew : ∀ (bodies : List (List (K × V))) (b : Nat) (m : List (K × V)), (∀ (c : Nat) (x : List (K × V)), bodies[c]? = some x → Sorted lt x) →
      s.bodies.length ≤ bodies.length → (∀ c : Nat, c < s.bodies.length → bodies[c]? = s.bodies[c]?) → bodies[b]? = some m →
      WF lt ⟨bodies, s.vars ++ [some b]⟩ ∧ view lt ⟨bodies, s.vars ++ [some b]⟩ s.vars.length = some (fun j => mfind lt j m) ∧
      ∀ w, w ≠ s.vars.length → view lt ⟨bodies, s.vars ++ [some b]⟩ w = view lt s w := by
    intro bodies b m h1 hle h2 h3
    refine ⟨⟨h1, ?_⟩, ?_, ?_⟩
    · intro w c hw
      simp only [get_push] at hw
      split at hw
      · cases hw; exact lt_of_get h3
      · have := h.vars w c hw; simp only; omega
    · exact view_some (by simp) h3
    · intro w hw
      unfold view
      simp only [get_push, if_neg hw]
      split
      · rename_i c hc; rw [h2 c (h.vars w c hc)]
      · rfl
  have hsorted : ∀ m, Sorted lt m → ∀ (c : Nat) (x : List (K × V)), (s.bodies ++ [m])[c]? = some x → Sorted lt x := by
    intro m hm c x hx
    rw [get_push] at hx
    split at hx
    · cases hx; exact hm
    · exact h.bodies c x hx
  have hold : ∀ (m : List (K × V)) c, c < s.bodies.length → (s.bodies ++ [m])[c]? = s.bodies[c]? :=
    fun m c hc => List.getElem?_append_left hc
  have hpush : ∀ (x : Option (FMap K V)), ((views lt s ++ [x])[s.vars.length]?).join = x := by
    intro x
    rw [show s.vars.length = (views lt s).length from (views_length s).symm]
    simp
  have hset : ∀ (v : Nat) (x : Option (FMap K V)), v < s.vars.length → (((views lt s).set v x)[v]?).join = x := by
    intro v x hv
    simp [views_length, hv]
  cases op with
  | default =>
    have := hnew (s.bodies ++ [[]]) s.bodies.length [] (hsorted [] (by simp [Sorted])) (by simp) (hold _) (by simp)
    refine ⟨_, rfl, this.1, by simp [specStep, views_length], ?_, fun _ => this.2.2⟩
    rw [target, this.2.1, specStep, hpush]; rfl
  | ofPairs es =>
    have := hnew (s.bodies ++ [build lt es]) s.bodies.length (build lt es) (hsorted _ (build_spec o es).1) (by simp) (hold _) (by simp)
    refine ⟨_, rfl, this.1, by simp [specStep, views_length], ?_, fun _ => this.2.2⟩
    rw [target, this.2.1, specStep, hpush]
    congr 1
    funext j; exact (build_spec o es).2 j
  | copy w =>
    obtain ⟨b, m, hv, hb⟩ := exists_views hl
    have := hnew s.bodies b m h.bodies (Nat.le_refl _) (fun _ _ => rfl) hb
    refine ⟨_, by simp only [exec, bodyOf_ok hv, res_bind_ok], this.1, by simp [specStep, views_length], ?_, fun _ => this.2.2⟩
    rw [target, this.2.1, specStep, hpush, shown_views s w hv hb]
  | assign v w =>
    obtain ⟨b, m, hv, hb⟩ := exists_views hl.2
    obtain ⟨bv, mv, hvv, hbv⟩ := exists_views hl.1
    have hvl := lt_of_get hvv
    refine ⟨{ s with vars := s.vars.set v (some b) }, by simp only [exec, bodyOf_ok hv, bodyOf_ok hvv, res_bind_ok],
      ⟨h.bodies, ?_⟩, by simp [specStep, views_length], ?_, ?_⟩
    · intro u c hu
      simp only [get_set_if _ _ _ hvl] at hu
      split at hu
      · cases hu; exact lt_of_get hb
      · exact h.vars u c hu
    · rw [target, specStep, hset v _ hvl, shown_views s w hv hb]
      exact view_some (by simp [hvl]) hb
    · intro _ u hu
      have hu' : u ≠ v := hu
      unfold view
      simp only [get_set_if _ _ _ hvl, if_neg hu']
  | destroy v =>
    obtain ⟨b, m, hv, hb⟩ := exists_views hl
    have hvl := lt_of_get hv
    refine ⟨{ s with vars := s.vars.set v none }, by simp only [exec, bodyOf_ok hv, res_bind_ok],
      ⟨h.bodies, ?_⟩, by simp [specStep, views_length], ?_, ?_⟩
    · intro u c hu
      simp only [get_set_if _ _ _ hvl] at hu
      split at hu
      · cases hu
      · exact h.vars u c hu
    · rw [target, specStep, hset v _ hvl]
      unfold view; simp [hvl]
    · intro _ u hu
      have hu' : u ≠ v := hu
      unfold view
      simp only [get_set_if _ _ _ hvl, if_neg hu']
  | clear v =>
    obtain ⟨b, m, hv, hb⟩ := exists_views hl
    have hvl := lt_of_get hv
    obtain ⟨a1, a2, a3, a4, a5⟩ := fresh_ok h hvl (m := []) (by simp [Sorted])
    refine ⟨fresh s v [], by simp only [exec, bodyOf_ok hv, res_bind_ok], a1, by simp [specStep, views_length, fresh], ?_, fun _ => a5⟩
    rw [target, specStep, hset v _ hvl, view_some a2 a3]; rfl
  | insert v k x =>
    obtain ⟨b, m, hv, hb⟩ := exists_views hl
    obtain ⟨s', a1, a2, a3, a4, a5⟩ := edit_ok o h hv hb (minsert lt k x)
      (fun f => if (f k).isSome then f else f.update k (some x)) (by
        intro m hm
        refine ⟨(minsert_spec o k x m hm).1, ?_⟩
        funext j
        rw [(minsert_spec o k x m hm).2 j]
        split <;> rfl)
    refine ⟨s', a1, a2, by simp [specStep, views_length, a3], ?_, fun _ => a5⟩
    rw [target, specStep, hset v _ (lt_of_get hv), a4, shown_views s v hv hb]
  | remove v k =>
    obtain ⟨b, m, hv, hb⟩ := exists_views hl
    obtain ⟨s', a1, a2, a3, a4, a5⟩ := edit_ok o h hv hb (merase lt k) (fun f => f.update k none) (by
        intro m hm
        refine ⟨(merase_spec o k m hm).1, ?_⟩
        funext j
        rw [(merase_spec o k m hm).2 j]; rfl)
    refine ⟨s', a1, a2, by simp [specStep, views_length, a3], ?_, fun _ => a5⟩
    rw [target, specStep, hset v _ (lt_of_get hv), a4, shown_views s v hv hb]
  | put v k x =>
    obtain ⟨b, m, hv, hb⟩ := exists_views hl
    have hins : ∀ {s1 : State K V} {m1 : List (K × V)}, WF lt s1 → s1.vars = s.vars → s1.bodies[b]? = some m1 →
        mfind lt k m1 = none →
        ∃ s', CM.insert lt s1 v k x = .ok s' ∧ WF lt s' ∧ s'.vars.length = s.vars.length ∧
          view lt s' v = some (FMap.update (fun j => mfind lt j m1) k (some x)) ∧ ∀ w, w ≠ v → view lt s' w = view lt s1 w := by
      intro s1 m1 h1 h2 h3 h4
      obtain ⟨s', a1, a2, a3, a4, a5⟩ := edit_ok o h1 (by rw [h2]; exact hv) h3 (minsert lt k x)
        (fun f => if (f k).isSome then f else f.update k (some x)) (by
          intro m hm
          refine ⟨(minsert_spec o k x m hm).1, ?_⟩
          funext j
          rw [(minsert_spec o k x m hm).2 j]
          split <;> rfl)
      refine ⟨s', a1, a2, by rw [a3, h2], ?_, a5⟩
      rw [a4]; simp only [h4]; rfl
    by_cases hf : (mfind lt k m).isSome = true
    · have hes := merase_spec o k m (h.bodies b m hb)
      obtain ⟨s1, c1, c2, c3, c4, c5⟩ := modify_ok h hv hb (merase lt k) hes.1
      obtain ⟨s', a1, a2, a3, a4, a5⟩ := hins c2 c3 c4 (by rw [hes.2 k, if_pos rfl])
      refine ⟨s', ?_, a2, by simp [specStep, views_length, a3], ?_, ?_⟩
      · simp only [exec, CM.put, putErase, bodyOf_ok hv, entries_ok hb, res_bind_ok, hf, if_true, c1, a1]
      · rw [target, specStep, hset v _ (lt_of_get hv), a4, shown_views s v hv hb]
        congr 1
        funext j
        unfold FMap.update
        simp only [hes.2 j]
        split <;> rfl
      · intro hg w hw
        have hw' : w ≠ v := hw
        rw [a5 w hw']
        refine c5 w ?_
        intro hh
        refine hg ?_ w hw' (by rw [hh, hv])
        rw [shown_views s v hv hb]
        exact Option.isSome_iff_exists.mp hf
    · obtain ⟨s', a1, a2, a3, a4, a5⟩ := hins h rfl hb (by simpa using hf)
      refine ⟨s', ?_, a2, by simp [specStep, views_length, a3], ?_, fun _ => a5⟩
      · simp only [exec, CM.put, putErase, bodyOf_ok hv, entries_ok hb, res_bind_ok, hf, Bool.false_eq_true, if_false, a1]
      · rw [target, specStep, hset v _ (lt_of_get hv), a4, shown_views s v hv hb]

/-- histories of legal calls -/
inductive Runs (lt : K → K → Bool) : State K V → List (Op K V) → State K V → Prop
  | nil (s) : Runs lt s [] s
  | cons {s s1 s2 : State K V} {op : Op K V} {ops : List (Op K V)} : Legal (views lt s) op → exec lt s op = .ok s1 →
      Runs lt s1 ops s2 → Runs lt s (op :: ops) s2

theorem init_wf : WF lt (State.init : State K V) := ⟨by simp [State.init], by simp [State.init]⟩

theorem runs_wf (o : StrictOrder lt) {s s' : State K V} {ops : List (Op K V)} (h : Runs lt s ops s') (hs : WF lt s) : WF lt s' := by
  induction h with
  | nil s => exact hs
  | cons hl hx _ ih =>
    obtain ⟨s1, h1, h2⟩ := exec_does o hs _ hl
    rw [hx] at h1; cases h1
    exact ih h2.1

/-- C23. After any history of calls (even one that met the fault of `put`), a legal call returns, and the variable it
works on shows what that call gives on finite maps. -/
theorem C23_step (o : StrictOrder lt) {before : List (Op K V)} {s : State K V} (h : Runs lt State.init before s) (op : Op K V)
    (hl : Legal (views lt s) op) :
    ∃ s', exec lt s op = .ok s' ∧
      view lt s' (target s.vars.length op) = ((specStep (views lt s) op)[target s.vars.length op]?).join := by
  obtain ⟨s', h1, h2⟩ := exec_does o (runs_wf o h init_wf) op hl
  exact ⟨s', h1, h2.2.2.1⟩

/-- C23. Reading: `operator[]`, `contains`, `size` and iteration of a map give what the map shown says. Iteration visits
the keys in increasing order, each once, and `size` counts them. -/
theorem C23_reads [Inhabited V] (o : StrictOrder lt) {before : List (Op K V)} {s : State K V} (h : Runs lt State.init before s)
    (v : Nat) (f : FMap K V) (hv : view lt s v = some f) :
    (∀ k, get lt s v k = .ok ((f k).getD default)) ∧ (∀ k, contains lt s v k = .ok (f k).isSome) ∧
    ∃ es, iterate s v = .ok es ∧ size s v = .ok es.length ∧ es.Pairwise (fun a b => lt a.1 b.1 = true) ∧
      ∀ k x, (k, x) ∈ es ↔ f k = some x := by
  have hwf := runs_wf o h init_wf
  unfold view at hv
  split at hv
  · rename_i b hb
    rw [Option.map_eq_some_iff] at hv
    obtain ⟨m, hm, rfl⟩ := hv
    have hi : iterate s v = .ok m := by unfold iterate; rw [bodyOf_ok hb, res_bind_ok, entries_ok hm]
    refine ⟨?_, ?_, m, hi, ?_, hwf.bodies b m hm, fun k x => (mfind_mem o k x m (hwf.bodies b m hm)).symm⟩
    · intro k
      unfold get
      rw [hi, res_bind_ok]
      split
      · rename_i x hx; simp only [hx]; rfl
      · rename_i hx; simp only [hx]; rfl
    · intro k
      unfold contains
      rw [hi, res_bind_ok]
    · unfold size
      rw [hi, res_bind_ok]
  · cases hv

/-- C22 (partial). After any history, a call leaves what every other variable shows, unless it is a `put` of a key already
there while another variable shares the body. Missing: that case, which this code gets wrong (`C22_refuted_put`). -/
theorem C22_isolation_partial (o : StrictOrder lt) {before : List (Op K V)} {s s' : State K V} (h : Runs lt State.init before s)
    (op : Op K V) (hl : Legal (views lt s) op) (hg : Good lt s op) (hx : exec lt s op = .ok s') (w : Nat)
    (hw : w ≠ target s.vars.length op) : view lt s' w = view lt s w := by
  obtain ⟨s1, h1, h2⟩ := exec_does o (runs_wf o h init_wf) op hl
  rw [hx] at h1; cases h1
  exact h2.2.2.2 hg w hw

/-- C22 at full strength is false: after `b = a`, `a.put(k, ..)` of a key `k` in both removes `k` from `b`. -/
theorem C22_refuted_put :
    (do let s ← execAll (fun a b : Nat => decide (a < b)) (State.init : State Nat Nat) [.ofPairs [(1, 10), (2, 20)], .copy 0, .put 0 1 11]
        let a ← iterate s 0
        let b ← iterate s 1
        .ok (a, b)) = .ok ([(1, 11), (2, 20)], [(2, 20)]) := by decide

/-- C23. Whole histories, as long as `put` does not meet its fault: all variables show what the calls give on finite maps. -/
theorem C23_history (o : StrictOrder lt) (ops : List (Op K V)) (s : State K V) (h : Runs lt State.init ops s)
    (hg : ∀ (i : Nat) (op : Op K V) (si : State K V), ops[i]? = some op → Runs lt State.init (ops.take i) si → Good lt si op) :
    views lt s = ops.foldl specStep [] := by
  have key : ∀ {s0 s : State K V} {ops : List (Op K V)}, Runs lt s0 ops s → WF lt s0 →
      (∀ (i : Nat) (op : Op K V) (si : State K V), ops[i]? = some op → Runs lt s0 (ops.take i) si → Good lt si op) →
      views lt s = ops.foldl specStep (views lt s0) := by
    intro s0 s ops h
    induction h with
    | nil s => intro _ _; rfl
    | @cons s s1 s2 op ops hl hx hr ih =>
      intro hw hg
      obtain ⟨s1', h1, h2⟩ := exec_does o hw _ hl
      rw [hx] at h1; cases h1
      have hgood := hg 0 op s rfl (by simpa using Runs.nil s)
      have e : views lt s1 = specStep (views lt s) op := by
        refine views_ext h2.2.1 ?_
        intro w _
        rw [views_get]
        by_cases hwt : w = target s.vars.length op
        · subst hwt; exact h2.2.2.1
        · rw [h2.2.2.2 hgood w hwt]
          have hother : (specStep (views lt s) op)[w]? = (views lt s)[w]? ∨
              (w ≥ s.vars.length ∧ ((specStep (views lt s) op)[w]?).join = none) := by
            have hp : ∀ x : Option (FMap K V), w ≠ s.vars.length →
                (views lt s ++ [x])[w]? = (views lt s)[w]? := by
              intro x hne
              rw [get_push, views_length, if_neg hne]
            cases op <;> simp only [specStep, target] at hwt ⊢ <;>
              first
              | exact Or.inl (hp _ hwt)
              | exact Or.inl (by rw [List.getElem?_set_ne (Ne.symm hwt)])
          rcases hother with he | ⟨hge, he⟩
          · rw [he, views_get]
          · rw [he]
            unfold view
            rw [List.getElem?_eq_none hge]
      rw [List.foldl_cons, ← e]
      refine ih h2.1 ?_
      intro i op' si hop hr'
      exact hg (i + 1) op' si (by simpa using hop) (by simpa using Runs.cons hl hx hr')
  have := key h init_wf hg
  simpa [views, State.init] using this

/-- Non-vacuity: Nat keys are strictly ordered; a history with sharing. -/
example : StrictOrder (fun a b : Nat => decide (a < b)) :=
  ⟨by simp, by intro a b c; simp; omega, by intro a b; simp; omega⟩

example : (do let s ← execAll (fun a b : Nat => decide (a < b)) (State.init : State Nat Nat)
                [.ofPairs [(2, 20), (1, 10), (2, 99)], .copy 0, .remove 0 2, .insert 1 3 30, .insert 1 1 7, .put 1 1 5]
              let a ← iterate s 0
              let b ← iterate s 1
              .ok (a, b)) = .ok ([(1, 10)], [(1, 5), (2, 20), (3, 30)]) := by decide

end Strpp.CM
