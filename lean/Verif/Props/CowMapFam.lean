import Verif.Props.CowMap
import Verif.Spec.CowMapFam
/-! C81: what CowMap variables show after any history of calls, also where `put` disturbs the maps that share its body. -/
set_option linter.unusedSimpArgs false
namespace Strpp.CM

variable {K V : Type} [DecidableEq K] {lt : K → K → Bool}

/-- the body of a variable -/
def bodyAt (s : State K V) (v : Nat) : Option Nat := (s.vars[v]?).join

theorem bodyAt_some {s : State K V} {v b : Nat} : bodyAt s v = some b ↔ s.vars[v]? = some (some b) := by
  unfold bodyAt
  cases s.vars[v]? with
  | none => simp
  | some o => cases o <;> simp

theorem fam_some {a : Fams K V} {v g : Nat} : a.fam v = some g ↔ ∃ m, a.vars[v]? = some (some (g, m)) := by
  unfold Fams.fam
  cases h : a.vars[v]? with
  | none => simp
  | some o =>
    cases o with
    | none => simp
    | some p => obtain ⟨g', m⟩ := p; simp

/-- The two machines agree: the same variables, showing the same maps; a family is a shared body. -/
structure Agree (lt : K → K → Bool) (s : State K V) (a : Fams K V) : Prop where
  wf : WF lt s
  length : a.vars.length = s.vars.length
  view : ∀ v, view lt s v = (a.vars[v]?).join.map (·.2)
  live : ∀ v, (bodyAt s v).isSome = (a.fam v).isSome
  same : ∀ v w, bodyAt s v ≠ none → (bodyAt s v = bodyAt s w ↔ a.fam v = a.fam w)
  fresh : ∀ v g, a.fam v = some g → g < a.next

theorem Agree.map_eq {s : State K V} {a : Fams K V} (h : Agree lt s a) {v : Nat} {f : FMap K V} (hv : CM.view lt s v = some f) : a.map v = f := by
  unfold Fams.map
  rw [← h.view, hv]; rfl

theorem fam_own (a : Fams K V) (v : Nat) (m : FMap K V) (hv : v < a.vars.length) (w : Nat) :
    (a.own v m).fam w = if w = v then some a.next else a.fam w := by
  unfold Fams.fam Fams.own
  simp only [get_set_if _ _ _ hv]
  split <;> rfl

theorem agree_own {s s1 : State K V} {a : Fams K V} (h : Agree lt s a) {v b : Nat} {m : FMap K V} (hv : v < s.vars.length)
    (hw : WF lt s1) (hl : s1.vars.length = s.vars.length) (ho : ∀ w, w ≠ v → bodyAt s1 w = bodyAt s w)
    (hb : bodyAt s1 v = some b) (hn : ∀ w, w ≠ v → bodyAt s1 w ≠ some b) (hm : CM.view lt s1 v = some m)
    (hs : ∀ w, w ≠ v → CM.view lt s1 w = CM.view lt s w) : Agree lt s1 (a.own v m) := by
  have hva : v < a.vars.length := by rw [h.length]; exact hv
  have hfr : ∀ w, a.fam w ≠ some a.next := fun w e => by have := h.fresh w _ e; omega
  refine ⟨hw, by simp [Fams.own, hl, h.length], ?_, ?_, ?_, ?_⟩
  · intro w
    unfold Fams.own
    simp only [get_set_if _ _ _ hva]
    by_cases e : w = v
    · subst e; rw [if_pos rfl, hm]; rfl
    · rw [if_neg e, hs w e, h.view w]
  · intro w
    rw [fam_own a v m hva]
    by_cases e : w = v
    · subst e; rw [if_pos rfl, hb]; rfl
    · rw [if_neg e, ho w e, h.live w]
  · intro w u hne
    rw [fam_own a v m hva, fam_own a v m hva]
    by_cases e : w = v
    · subst e
      rw [if_pos rfl]
      by_cases e' : u = w
      · subst e'; simp
      · rw [if_neg e', hb]
        constructor
        · intro x; exact absurd x.symm (hn u e')
        · intro x; exact absurd x.symm (hfr u)
    · rw [if_neg e]
      by_cases e' : u = v
      · subst e'
        rw [if_pos rfl, hb]
        exact ⟨fun x => absurd x (hn w e), fun x => absurd x (hfr w)⟩
      · rw [if_neg e', ho w e, ho u e']
        rw [ho w e] at hne
        exact h.same w u hne
  · intro w g hg
    rw [fam_own a v m hva] at hg
    show g < a.next + 1
    by_cases e : w = v
    · rw [if_pos e] at hg; cases hg; omega
    · rw [if_neg e] at hg; have := h.fresh w g hg; omega

theorem fam_push (a : Fams K V) (x : Option (Nat × FMap K V)) (n w : Nat) :
    (⟨a.vars ++ [x], n⟩ : Fams K V).fam w = if w = a.vars.length then x.map (·.1) else a.fam w := by
  unfold Fams.fam
  simp only [get_push]
  split <;> rfl

theorem agree_new {s s1 : State K V} {a : Fams K V} (h : Agree lt s a) {b : Nat} {m : FMap K V}
    (hw : WF lt s1) (hl : s1.vars = s.vars ++ [some b]) (hn : ∀ w, bodyAt s w ≠ some b) (hm : CM.view lt s1 s.vars.length = some m)
    (hs : ∀ w, w ≠ s.vars.length → CM.view lt s1 w = CM.view lt s w) : Agree lt s1 (a.new m) := by
  have hba : ∀ w, bodyAt s1 w = if w = s.vars.length then some b else bodyAt s w := by
    intro w
    unfold bodyAt
    rw [hl, get_push]
    split <;> rfl
  have hfam : ∀ w, (a.new m).fam w = if w = s.vars.length then some a.next else a.fam w := by
    intro w; unfold Fams.new; rw [fam_push, h.length]; rfl
  have hfr : ∀ w, a.fam w ≠ some a.next := fun w e => by have := h.fresh w _ e; omega
  refine ⟨hw, by simp [Fams.new, hl, h.length], ?_, ?_, ?_, ?_⟩
  · intro w
    unfold Fams.new
    simp only [get_push, h.length]
    by_cases e : w = s.vars.length
    · subst e; rw [if_pos rfl, hm]; rfl
    · rw [if_neg e, hs w e, h.view w]
  · intro w
    rw [hba, hfam]
    split
    · rfl
    · exact h.live w
  · intro w u hne
    rw [hba, hba, hfam, hfam]
    rw [hba] at hne
    by_cases e : w = s.vars.length
    · by_cases e' : u = s.vars.length
      · simp [e, e']
      · rw [if_pos e, if_pos e, if_neg e', if_neg e']
        exact ⟨fun x => absurd x.symm (hn u), fun x => absurd x.symm (hfr u)⟩
    · rw [if_neg e] at hne
      by_cases e' : u = s.vars.length
      · rw [if_neg e, if_neg e, if_pos e', if_pos e']
        exact ⟨fun x => absurd x (hn w), fun x => absurd x (hfr w)⟩
      · rw [if_neg e, if_neg e, if_neg e', if_neg e']
        exact h.same w u hne
  · intro w g hg
    rw [hfam] at hg
    show g < a.next + 1
    by_cases e : w = s.vars.length
    · rw [if_pos e] at hg; cases hg; omega
    · rw [if_neg e] at hg; have := h.fresh w g hg; omega

/-- unshare, then change: with the bodies -/
theorem edit_full (o : StrictOrder lt) {s : State K V} {a : Fams K V} (h : Agree lt s a) {v b : Nat} {m : List (K × V)}
    (hv : s.vars[v]? = some (some b)) (hb : s.bodies[b]? = some m) (f : List (K × V) → List (K × V)) (g : FMap K V → FMap K V)
    (hf : ∀ m, Sorted lt m → Sorted lt (f m) ∧ (fun j => mfind lt j (f m)) = g (fun j => mfind lt j m)) :
    ∃ s', (do let s ← unshare lt s v; modify s v f) = .ok s' ∧ Agree lt s' (a.own v (g (a.map v))) := by
  have hmap : a.map v = fun j => mfind lt j m := h.map_eq (view_some hv hb)
  have hun : ∃ s1 b1 m1, unshare lt s v = .ok s1 ∧ WF lt s1 ∧ s1.vars.length = s.vars.length ∧ s1.vars[v]? = some (some b1) ∧
      s1.bodies[b1]? = some m1 ∧ (∀ j, mfind lt j m1 = mfind lt j m) ∧ (∀ w, w ≠ v → s1.vars[w]? = s.vars[w]?) ∧
      (∀ w, w ≠ v → s1.vars[w]? ≠ some (some b1)) ∧ (∀ w, w ≠ v → CM.view lt s1 w = CM.view lt s w) := by
    unfold unshare
    rw [bodyOf_ok hv, res_bind_ok]
    by_cases hc : refCount s b ≤ 1
    · rw [if_pos hc]
      refine ⟨s, b, m, rfl, h.wf, rfl, hv, hb, fun _ => rfl, fun _ _ => rfl, ?_, fun _ _ => rfl⟩
      intro w hw hh
      have := refCount_two (Ne.symm hw) hv hh
      omega
    · rw [if_neg hc, entries_ok hb, res_bind_ok]
      obtain ⟨a1, a2, a3, a4, a5⟩ := fresh_ok h.wf (lt_of_get hv) (build_spec o m).1
      exact ⟨_, _, _, rfl, a1, by simp [CM.fresh], a2, a3, build_sorted o m (h.wf.bodies b m hb),
        fun w hw => by simp only [CM.fresh, get_set_if _ _ _ (lt_of_get hv), if_neg hw], a4, a5⟩
  obtain ⟨s1, b1, m1, a1, a2, a3, a4, a5, a6, a7, a8, a9⟩ := hun
  have hs1 := hf m1 (a2.bodies b1 m1 a5)
  obtain ⟨s2, c1, c2, c3, c4, c5⟩ := modify_ok a2 a4 a5 f hs1.1
  refine ⟨s2, by rw [a1, res_bind_ok, c1], agree_own h (lt_of_get hv) c2 (by rw [c3, a3]) ?_ (b := b1) ?_ ?_ ?_ ?_⟩
  · intro w hw; unfold bodyAt; rw [c3, a7 w hw]
  · rw [bodyAt_some, c3]; exact a4
  · intro w hw; rw [Ne, bodyAt_some, c3]; exact a8 w hw
  · rw [view_some (by rw [c3]; exact a4) c4, hs1.2, hmap]
    congr 2
    funext j; exact a6 j
  · intro w hw; rw [c5 w (a8 w hw), a9 w hw]

theorem loseKey_get (a : Fams K V) (v : Nat) (k : K) (w : Nat) :
    ((a.loseKey v k).vars[w]?).join = (a.vars[w]?).join.map fun (g, m) => if a.fam v = some g then (g, m.update k none) else (g, m) := by
  unfold Fams.loseKey
  simp only [List.getElem?_map]
  cases a.vars[w]? with
  | none => rfl
  | some x => cases x <;> rfl

theorem loseKey_fam (a : Fams K V) (v : Nat) (k : K) (w : Nat) : (a.loseKey v k).fam w = a.fam w := by
  unfold Fams.fam
  rw [loseKey_get]
  cases (a.vars[w]?).join with
  | none => rfl
  | some p =>
    obtain ⟨g, m⟩ := p
    simp only [Option.map_some]
    split <;> rfl

/-- one call -/
theorem agree_step (o : StrictOrder lt) {s : State K V} {a : Fams K V} (h : Agree lt s a) (op : Op K V) (hl : Legal (views lt s) op) :
    ∃ s', exec lt s op = .ok s' ∧ Agree lt s' (famStep a op) := by
  have hins : ∀ (k : K) (x : V) (m : List (K × V)), Sorted lt m → Sorted lt (minsert lt k x m) ∧
      (fun j => mfind lt j (minsert lt k x m)) =
        (fun f : FMap K V => if (f k).isSome then f else f.update k (some x)) (fun j => mfind lt j m) := by
    intro k x m hm
    refine ⟨(minsert_spec o k x m hm).1, ?_⟩
    funext j
    rw [(minsert_spec o k x m hm).2 j]
    simp only
    split <;> rfl
  have hbnd : ∀ w, bodyAt s w ≠ some s.bodies.length := by
    intro w e
    have := h.wf.vars w _ (bodyAt_some.mp e)
    omega
  have hdoes := exec_does o h.wf op hl
  cases op with
  | default =>
    obtain ⟨s', h1, h2, h3, h4, h5⟩ := hdoes
    refine ⟨s', h1, ?_⟩
    simp only [exec] at h1
    cases h1
    refine agree_new h h2 rfl hbnd ?_ (h5 trivial)
    exact view_some (b := s.bodies.length) (m := []) (by simp) (by simp)
  | ofPairs es =>
    obtain ⟨s', h1, h2, h3, h4, h5⟩ := hdoes
    refine ⟨s', h1, ?_⟩
    simp only [exec] at h1
    cases h1
    refine agree_new h h2 rfl hbnd ?_ (h5 trivial)
    rw [view_some (b := s.bodies.length) (m := build lt es) (by simp) (by simp)]
    congr 1
    funext j; exact (build_spec o es).2 j
  | copy w =>
    obtain ⟨b, m, hv, hb⟩ := exists_views hl
    obtain ⟨s', h1, h2, h3, h4, h5⟩ := hdoes
    refine ⟨s', h1, ?_⟩
    simp only [exec, bodyOf_ok hv, res_bind_ok] at h1
    cases h1
    have hba : ∀ u, bodyAt { s with vars := s.vars ++ [some b] } u = if u = s.vars.length then bodyAt s w else bodyAt s u := by
      intro u
      unfold bodyAt
      simp only [get_push, hv]
      split <;> rfl
    have hfam : ∀ u, (famStep a (.copy w)).fam u = if u = s.vars.length then a.fam w else a.fam u := by
      intro u
      unfold famStep
      rw [fam_push, h.length]; rfl
    refine ⟨h2, by simp [famStep, h.length], ?_, ?_, ?_, ?_⟩
    · intro u
      unfold famStep
      simp only [get_push, h.length]
      by_cases e : u = s.vars.length
      · rw [if_pos e]
        subst e
        show _ = (a.vars[w]?).join.map (·.2)
        rw [← h.view w]
        rw [view_some hv hb]; exact view_some (b := b) (by simp) hb
      · rw [if_neg e, ← h.view u]; exact h5 trivial u e
    · intro u; rw [hba, hfam]; split
      · exact h.live w
      · exact h.live u
    · intro u u' hne
      rw [hba, hba, hfam, hfam]
      rw [hba] at hne
      by_cases e : u = s.vars.length <;> by_cases e' : u' = s.vars.length
      · simp [e, e']
      · rw [if_pos e] at hne; rw [if_pos e, if_pos e, if_neg e', if_neg e']; exact h.same w u' hne
      · rw [if_neg e] at hne; rw [if_neg e, if_neg e, if_pos e', if_pos e']; exact h.same u w hne
      · rw [if_neg e] at hne; rw [if_neg e, if_neg e, if_neg e', if_neg e']; exact h.same u u' hne
    · intro u g hg
      rw [hfam] at hg
      split at hg
      · exact h.fresh w g hg
      · exact h.fresh u g hg
  | assign v w =>
    obtain ⟨b, m, hv, hb⟩ := exists_views hl.2
    obtain ⟨bv, mv, hvv, hbv⟩ := exists_views hl.1
    have hvl := lt_of_get hvv
    have hva : v < a.vars.length := by rw [h.length]; exact hvl
    obtain ⟨s', h1, h2, h3, h4, h5⟩ := hdoes
    refine ⟨s', h1, ?_⟩
    simp only [exec, bodyOf_ok hv, bodyOf_ok hvv, res_bind_ok] at h1
    cases h1
    have hba : ∀ u, bodyAt { s with vars := s.vars.set v (some b) } u = if u = v then bodyAt s w else bodyAt s u := by
      intro u
      unfold bodyAt
      simp only [get_set_if _ _ _ hvl, hv]
      split <;> rfl
    have hfam : ∀ u, (famStep a (.assign v w)).fam u = if u = v then a.fam w else a.fam u := by
      intro u
      unfold famStep Fams.fam
      simp only [get_set_if _ _ _ hva]
      split <;> rfl
    refine ⟨h2, by simp [famStep, h.length], ?_, ?_, ?_, ?_⟩
    · intro u
      unfold famStep
      simp only [get_set_if _ _ _ hva]
      by_cases e : u = v
      · rw [if_pos e]
        subst e
        show _ = (a.vars[w]?).join.map (·.2)
        rw [← h.view w]
        rw [view_some hv hb]; exact view_some (b := b) (by simp [hvl]) hb
      · rw [if_neg e, ← h.view u]; exact h5 trivial u e
    · intro u; rw [hba, hfam]; split
      · exact h.live w
      · exact h.live u
    · intro u u' hne
      rw [hba, hba, hfam, hfam]
      rw [hba] at hne
      by_cases e : u = v <;> by_cases e' : u' = v
      · simp [e, e']
      · rw [if_pos e] at hne; rw [if_pos e, if_pos e, if_neg e', if_neg e']; exact h.same w u' hne
      · rw [if_neg e] at hne; rw [if_neg e, if_neg e, if_pos e', if_pos e']; exact h.same u w hne
      · rw [if_neg e] at hne; rw [if_neg e, if_neg e, if_neg e', if_neg e']; exact h.same u u' hne
    · intro u g hg
      rw [hfam] at hg
      split at hg
      · exact h.fresh w g hg
      · exact h.fresh u g hg
  | destroy v =>
    obtain ⟨b, m, hv, hb⟩ := exists_views hl
    have hvl := lt_of_get hv
    have hva : v < a.vars.length := by rw [h.length]; exact hvl
    obtain ⟨s', h1, h2, h3, h4, h5⟩ := hdoes
    refine ⟨s', h1, ?_⟩
    simp only [exec, bodyOf_ok hv, res_bind_ok] at h1
    cases h1
    have hba : ∀ u, bodyAt { s with vars := s.vars.set v none } u = if u = v then none else bodyAt s u := by
      intro u
      unfold bodyAt
      simp only [get_set_if _ _ _ hvl]
      split <;> rfl
    have hfam : ∀ u, (famStep a (.destroy v)).fam u = if u = v then none else a.fam u := by
      intro u
      unfold famStep Fams.fam
      simp only [get_set_if _ _ _ hva]
      split <;> rfl
    have hns : ∀ {o p : Option Nat}, o.isSome = p.isSome → (o = none ↔ p = none) := by
      intro o p; cases o <;> cases p <;> simp
    refine ⟨h2, by simp [famStep, h.length], ?_, ?_, ?_, ?_⟩
    · intro u
      unfold famStep
      simp only [get_set_if _ _ _ hva]
      by_cases e : u = v
      · rw [if_pos e]; subst e; unfold CM.view; simp [hvl]
      · rw [if_neg e, ← h.view u]; exact h5 trivial u e
    · intro u; rw [hba, hfam]; split
      · rfl
      · exact h.live u
    · intro u u' hne
      rw [hba, hba, hfam, hfam]
      rw [hba] at hne
      by_cases e : u = v
      · rw [if_pos e] at hne; exact absurd rfl hne
      · rw [if_neg e] at hne
        by_cases e' : u' = v
        · rw [if_neg e, if_neg e, if_pos e', if_pos e']; exact hns (h.live u)
        · rw [if_neg e, if_neg e, if_neg e', if_neg e']; exact h.same u u' hne
    · intro u g hg
      rw [hfam] at hg
      split at hg
      · cases hg
      · exact h.fresh u g hg
  | clear v =>
    obtain ⟨b, m, hv, hb⟩ := exists_views hl
    have hvl := lt_of_get hv
    obtain ⟨a1, a2, a3, a4, a5⟩ := fresh_ok h.wf hvl (m := []) (by simp [Sorted])
    refine ⟨CM.fresh s v [], by simp only [exec, bodyOf_ok hv, res_bind_ok], ?_⟩
    refine agree_own h hvl a1 (by simp [CM.fresh]) ?_ (bodyAt_some.mpr a2) ?_ (view_some a2 a3) a5
    · intro w hw; unfold bodyAt CM.fresh; simp only [get_set_if _ _ _ hvl, if_neg hw]
    · intro w hw; rw [Ne, bodyAt_some]; exact a4 w hw
  | insert v k x =>
    obtain ⟨b, m, hv, hb⟩ := exists_views hl
    exact edit_full o h hv hb (minsert lt k x) (fun f => if (f k).isSome then f else f.update k (some x)) (hins k x)
  | remove v k =>
    obtain ⟨b, m, hv, hb⟩ := exists_views hl
    exact edit_full o h hv hb (merase lt k) (fun f => f.update k none) (by
      intro m hm
      refine ⟨(merase_spec o k m hm).1, ?_⟩
      funext j
      rw [(merase_spec o k m hm).2 j]; rfl)
  | put v k x =>
    obtain ⟨b, m, hv, hb⟩ := exists_views hl
    have hmap : a.map v = fun j => mfind lt j m := h.map_eq (view_some hv hb)
    -- the state after the first statements of `put`
    have herase : ∃ s1 m1, putErase lt s v k = .ok s1 ∧ s1.vars = s.vars ∧ s1.bodies[b]? = some m1 ∧
        (∀ j, mfind lt j m1 = if j = k then none else mfind lt j m) ∧ Agree lt s1 (a.loseKey v k) := by
      have hview : ∀ {s1 : State K V}, s1.vars = s.vars → WF lt s1 →
          (∀ w, s.vars[w]? ≠ some (some b) → CM.view lt s1 w = CM.view lt s w) →
          CM.view lt s1 v = some (FMap.update (fun j => mfind lt j m) k none) → Agree lt s1 (a.loseKey v k) := by
        intro s1 e1 e2 e3 e4
        have hba : ∀ w, bodyAt s1 w = bodyAt s w := fun w => by unfold bodyAt; rw [e1]
        refine ⟨e2, by simp [Fams.loseKey, e1, h.length], ?_, ?_, ?_, ?_⟩
        · intro w
          rw [loseKey_get]
          by_cases hw : s.vars[w]? = some (some b)
          · have hf : a.fam v = a.fam w := (h.same v w (by rw [bodyAt_some.mpr hv]; simp)).mp (by rw [bodyAt_some.mpr hv, bodyAt_some.mpr hw])
            have hvw : CM.view lt s1 w = CM.view lt s1 v := by unfold CM.view; rw [e1, hw, hv]
            have ha := h.view w
            rw [view_some hw hb] at ha
            rw [hvw, e4]
            cases hp : (a.vars[w]?).join with
            | none => rw [hp] at ha; cases ha
            | some p =>
              obtain ⟨g, f⟩ := p
              rw [hp] at ha
              simp only [Option.map_some, Option.some.injEq] at ha ⊢
              have hg : a.fam w = some g := by unfold Fams.fam; rw [hp]; rfl
              rw [hf, if_pos hg, ha]
          · rw [e3 w hw, h.view w]
            cases hp : (a.vars[w]?).join with
            | none => rfl
            | some p =>
              obtain ⟨g, f⟩ := p
              have hg : a.fam w = some g := by unfold Fams.fam; rw [hp]; rfl
              have : ¬ a.fam v = some g := by
                intro e
                have := (h.same v w (by rw [bodyAt_some.mpr hv]; simp)).mpr (by rw [e, hg])
                rw [bodyAt_some.mpr hv] at this
                exact hw (bodyAt_some.mp this.symm)
              simp only [Option.map_some, if_neg this]
        · intro w; rw [hba, loseKey_fam]; exact h.live w
        · intro w u hne
          rw [hba] at hne
          rw [hba, hba, loseKey_fam, loseKey_fam]; exact h.same w u hne
        · intro w g hg; rw [loseKey_fam] at hg; exact h.fresh w g hg
      have hes := merase_spec o k m (h.wf.bodies b m hb)
      by_cases hf : (mfind lt k m).isSome = true
      · obtain ⟨s1, c1, c2, c3, c4, c5⟩ := modify_ok h.wf hv hb (merase lt k) hes.1
        refine ⟨s1, _, ?_, c3, c4, hes.2, hview c3 c2 c5 ?_⟩
        · simp only [putErase, bodyOf_ok hv, entries_ok hb, res_bind_ok, hf, if_true, c1]
        · rw [view_some (by rw [c3]; exact hv) c4]
          congr 1
          funext j; rw [hes.2 j]; rfl
      · have hnone : mfind lt k m = none := by simpa using hf
        have hsame : ∀ j, mfind lt j m = if j = k then none else mfind lt j m := by
          intro j; by_cases e : j = k
          · rw [if_pos e, e, hnone]
          · rw [if_neg e]
        refine ⟨s, m, ?_, rfl, hb, hsame, hview rfl h.wf (fun _ _ => rfl) ?_⟩
        · simp only [putErase, bodyOf_ok hv, entries_ok hb, res_bind_ok, hf, Bool.false_eq_true, if_false]
        · rw [view_some hv hb]
          congr 1
          funext j; rw [hsame j]; rfl
    obtain ⟨s1, m1, c1, c2, c3, c4, c5⟩ := herase
    have hv1 : s1.vars[v]? = some (some b) := by rw [c2]; exact hv
    obtain ⟨s2, d1, d2⟩ := edit_full o c5 hv1 c3 (minsert lt k x) (fun f => if (f k).isSome then f else f.update k (some x)) (hins k x)
    refine ⟨s2, ?_, ?_⟩
    · simp only [exec, CM.put, c1, res_bind_ok]; exact d1
    · have hm1 : (a.loseKey v k).map v = fun j => mfind lt j m1 := c5.map_eq (view_some hv1 c3)
      have : (if ((a.loseKey v k).map v k).isSome then (a.loseKey v k).map v else ((a.loseKey v k).map v).update k (some x)) =
          (a.map v).update k (some x) := by
        rw [hm1, hmap]
        simp only [c4 k, if_true, Option.isSome_none, Bool.false_eq_true, if_false]
        funext j
        unfold FMap.update
        simp only [c4 j]
        split <;> rfl
      simp only [this] at d2
      exact d2

theorem agree_views {s : State K V} {a : Fams K V} (h : Agree lt s a) : views lt s = a.vars.map (Option.map (·.2)) := by
  refine views_ext (by rw [views_length, List.length_map, h.length]) (fun v _ => ?_)
  rw [views_get, h.view v, List.getElem?_map]
  cases a.vars[v]? with
  | none => rfl
  | some x => rfl

/-- C81. After any history of calls from the start, all variables show what the calls give with families. -/
theorem C81_history (o : StrictOrder lt) (ops : List (Op K V)) (s : State K V) (h : Runs lt State.init ops s) :
    views lt s = (ops.foldl famStep Fams.init).vars.map (Option.map (·.2)) := by
  have key : ∀ {s0 s : State K V} {ops : List (Op K V)}, Runs lt s0 ops s → ∀ a, Agree lt s0 a → Agree lt s (ops.foldl famStep a) := by
    intro s0 s ops h
    induction h with
    | nil s => intro a ha; exact ha
    | cons hl hx _ ih =>
      intro a ha
      obtain ⟨s1, h1, h2⟩ := agree_step o ha _ hl
      rw [hx] at h1
      cases h1
      exact ih _ h2
  refine agree_views (key h Fams.init ⟨init_wf, rfl, ?_, ?_, ?_, ?_⟩)
  · intro v; simp [CM.view, State.init, Fams.init]
  · intro v; simp [bodyAt, State.init, Fams.init, Fams.fam]
  · intro v w hne; simp [bodyAt, State.init] at hne
  · intro v g hg; simp [Fams.fam, Fams.init] at hg

/-- C81. And such a history never fails: every next legal call returns. -/
theorem C81_total (o : StrictOrder lt) {ops : List (Op K V)} {s : State K V} (h : Runs lt State.init ops s) (op : Op K V)
    (hl : Legal (views lt s) op) : ∃ s', exec lt s op = .ok s' ∧ Runs lt State.init (ops ++ [op]) s' := by
  obtain ⟨s', h1, -⟩ := exec_does o (runs_wf o h init_wf) op hl
  refine ⟨s', h1, ?_⟩
  have : ∀ {s0 s : State K V} {ops : List (Op K V)}, Runs lt s0 ops s → Legal (views lt s) op → exec lt s op = .ok s' → Runs lt s0 (ops ++ [op]) s' := by
    intro s0 s ops h
    induction h with
    | nil s => intro a b; exact Runs.cons a b (Runs.nil _)
    | cons hl hx _ ih => intro a b; exact Runs.cons hl hx (ih a b)
  exact this h hl h1

/-- The family of 0: 1 loses the key 1, and 2, changed before, does not. -/
def famSample : List (Op Nat Nat) := [.ofPairs [(1, 10), (2, 20)], .copy 0, .copy 0, .insert 2 3 30, .put 0 1 11]
example : (famSample.foldl famStep Fams.init).vars.map (Option.map (fun p => (p.2 1, p.2 2, p.2 3))) =
    [some (some 11, some 20, none), some (none, some 20, none), some (some 10, some 20, some 30)] := by decide
example : ∃ s, Runs (fun a b : Nat => decide (a < b)) State.init famSample s :=
  ⟨_, .cons (by trivial) rfl (.cons ⟨_, rfl⟩ rfl (.cons ⟨_, rfl⟩ rfl (.cons ⟨_, rfl⟩ rfl (.cons ⟨_, rfl⟩ rfl (.nil _)))))⟩

end Strpp.CM
