import Verif.Spec.CowMap
namespace Strpp.CM
variable {K V : Type} [DecidableEq K] {lt : K → K → Bool}

/-- entries in strictly increasing key order -/
def Sorted (lt : K → K → Bool) (m : List (K × V)) : Prop := m.Pairwise (fun a b => lt a.1 b.1 = true)

theorem mfind_none (o : StrictOrder lt) (k : K) (m : List (K × V)) (h : ∀ e ∈ m, lt k e.1 = true) : mfind lt k m = none := by
  cases m with
  | nil => rfl
  | cons e m =>
    have h1 := h e (by simp)
    have h2 : lt e.1 k = false := by
      cases h2 : lt e.1 k with
      | false => rfl
      | true => have := o.trans _ _ _ h1 h2; rw [o.irrefl] at this; cases this
    unfold mfind; simp only [h2, h1]; rfl

theorem mfind_mem (o : StrictOrder lt) (k : K) (x : V) (m : List (K × V)) (hs : Sorted lt m) :
    mfind lt k m = some x ↔ (k, x) ∈ m := by
  induction m with
  | nil => simp [mfind]
  | cons e m ih =>
    obtain ⟨k', v'⟩ := e
    have hs' := (List.pairwise_cons.mp hs)
    have ih := ih hs'.2
    unfold mfind
    by_cases h1 : lt k' k = true
    · rw [if_pos h1, ih]
      constructor
      · intro h; exact List.mem_cons_of_mem _ h
      · intro h
        rcases List.mem_cons.mp h with h | h
        · cases h; rw [o.irrefl] at h1; cases h1
        · exact h
    · rw [if_neg h1]
      by_cases h2 : lt k k' = true
      · rw [if_pos h2]
        constructor
        · nofun
        · intro h
          exfalso
          rcases List.mem_cons.mp h with h | h
          · cases h; rw [o.irrefl] at h2; cases h2
          · exact h1 (hs'.1 _ h)
      · rw [if_neg h2]
        have : k' = k := by
          rcases o.total k' k with h | h | h
          · exact absurd h h1
          · exact h
          · exact absurd h h2
        subst this
        constructor
        · intro h; cases h; simp
        · intro h
          rcases List.mem_cons.mp h with h | h
          · cases h; rfl
          · exact absurd (hs'.1 _ h) (by simp [o.irrefl])

theorem minsert_keys (k : K) (x : V) (m : List (K × V)) : ∀ e ∈ minsert lt k x m, e.1 = k ∨ e ∈ m := by
  induction m with
  | nil => intro e he; simp only [minsert, List.mem_singleton] at he; subst he; exact Or.inl rfl
  | cons a m ih =>
    obtain ⟨k', v'⟩ := a
    intro e he
    unfold minsert at he
    split at he
    · rcases List.mem_cons.mp he with h | h
      · right; simp [h]
      · rcases ih e h with h | h
        · exact Or.inl h
        · right; simp [h]
    · split at he
      · rcases List.mem_cons.mp he with h | h
        · left; rw [h]
        · exact Or.inr h
      · exact Or.inr he

theorem minsert_spec (o : StrictOrder lt) (k : K) (x : V) (m : List (K × V)) (hs : Sorted lt m) :
    Sorted lt (minsert lt k x m) ∧
    ∀ j, mfind lt j (minsert lt k x m) = if (mfind lt k m).isSome then mfind lt j m else if j = k then some x else mfind lt j m := by
  induction m with
  | nil =>
    refine ⟨by simp [minsert, Sorted], ?_⟩
    intro j
    simp only [minsert, mfind, Option.isSome_none, Bool.false_eq_true, if_false]
    by_cases h : j = k
    · subst h; simp [o.irrefl]
    · rw [if_neg h]
      rcases o.total k j with h1 | h1 | h1
      · simp [h1]
      · exact absurd h1.symm h
      · split
        · rfl
        · simp [h1]
  | cons a m ih =>
    obtain ⟨k', v'⟩ := a
    have hs' := (List.pairwise_cons.mp hs)
    obtain ⟨ih1, ih2⟩ := ih hs'.2
    by_cases h1 : lt k' k = true
    · have e1 : minsert lt k x ((k', v') :: m) = (k', v') :: minsert lt k x m := by rw [minsert]; simp [h1]
      have e2 : mfind lt k ((k', v') :: m) = mfind lt k m := by rw [mfind]; simp [h1]
      rw [e1, e2]
      constructor
      · refine List.pairwise_cons.mpr ⟨?_, ih1⟩
        intro e he
        rcases minsert_keys k x m e he with h | h
        · rw [h]; exact h1
        · exact hs'.1 e h
      · intro j
        rw [mfind, ih2 j, mfind]
        by_cases hj : lt k' j = true
        · simp only [hj, if_true]
        · simp only [hj, Bool.false_eq_true, if_false]
          have : j ≠ k := by rintro rfl; exact hj h1
          simp only [this, if_false, ite_self]
    · by_cases h2 : lt k k' = true
      · have e1 : minsert lt k x ((k', v') :: m) = (k, x) :: (k', v') :: m := by rw [minsert]; simp [h1, h2]
        have e2 : mfind lt k ((k', v') :: m) = none := by rw [mfind]; simp [h1, h2]
        rw [e1, e2]
        constructor
        · refine List.pairwise_cons.mpr ⟨?_, hs⟩
          intro e he
          rcases List.mem_cons.mp he with h | h
          · rw [h]; exact h2
          · exact o.trans _ _ _ h2 (hs'.1 e h)
        · intro j
          simp only [Option.isSome_none, Bool.false_eq_true, if_false]
          rw [mfind]
          by_cases hj : j = k
          · subst hj; simp [o.irrefl]
          · rw [if_neg hj]
            rcases o.total k j with h | h | h
            · simp [h]
            · exact absurd h.symm hj
            · have : lt k j = false := by
                cases hh : lt k j with
                | false => rfl
                | true => have := o.trans _ _ _ h hh; rw [o.irrefl] at this; cases this
              simp only [this, h, Bool.false_eq_true, if_false, if_true]
              rw [mfind_none o j]
              intro e he
              rcases List.mem_cons.mp he with h' | h'
              · rw [h']; exact o.trans _ _ _ h h2
              · exact o.trans _ _ _ (o.trans _ _ _ h h2) (hs'.1 e h')
      · have e1 : minsert lt k x ((k', v') :: m) = (k', v') :: m := by rw [minsert]; simp [h1, h2]
        have e2 : mfind lt k ((k', v') :: m) = some v' := by rw [mfind]; simp [h1, h2]
        rw [e1, e2]
        exact ⟨hs, fun j => by simp⟩

theorem merase_sub (k : K) (m : List (K × V)) : ∀ e ∈ merase lt k m, e ∈ m := by
  induction m with
  | nil => simp [merase]
  | cons a m ih =>
    intro e he
    unfold merase at he
    split at he
    · rcases List.mem_cons.mp he with h | h
      · simp [h]
      · exact List.mem_cons_of_mem _ (ih e h)
    · split at he
      · exact he
      · exact List.mem_cons_of_mem _ he

theorem merase_spec (o : StrictOrder lt) (k : K) (m : List (K × V)) (hs : Sorted lt m) :
    Sorted lt (merase lt k m) ∧ ∀ j, mfind lt j (merase lt k m) = if j = k then none else mfind lt j m := by
  induction m with
  | nil => exact ⟨by simp [merase, Sorted], fun j => by simp [merase, mfind]⟩
  | cons a m ih =>
    obtain ⟨k', v'⟩ := a
    have hs' := (List.pairwise_cons.mp hs)
    obtain ⟨ih1, ih2⟩ := ih hs'.2
    by_cases h1 : lt k' k = true
    · have e1 : merase lt k ((k', v') :: m) = (k', v') :: merase lt k m := by rw [merase]; simp [h1]
      rw [e1]
      refine ⟨List.pairwise_cons.mpr ⟨fun e he => hs'.1 e (merase_sub k m e he), ih1⟩, ?_⟩
      intro j
      rw [mfind, ih2 j, mfind]
      by_cases hj : j = k
      · subst hj; simp [h1]
      · simp only [hj, if_false]
    · by_cases h2 : lt k k' = true
      · have e1 : merase lt k ((k', v') :: m) = (k', v') :: m := by rw [merase]; simp [h1, h2]
        rw [e1]
        refine ⟨hs, fun j => ?_⟩
        by_cases hj : j = k
        · subst hj; rw [mfind]; simp [h1, h2]
        · rw [if_neg hj]
      · have e1 : merase lt k ((k', v') :: m) = m := by rw [merase]; simp [h1, h2]
        rw [e1]
        have : k' = k := by
          rcases o.total k' k with h | h | h
          · exact absurd h h1
          · exact h
          · exact absurd h h2
        subst this
        refine ⟨hs'.2, fun j => ?_⟩
        by_cases hj : j = k'
        · rw [if_pos hj, hj]; exact mfind_none o _ _ (fun e he => hs'.1 e he)
        · rw [if_neg hj, mfind]
          by_cases h3 : lt k' j = true
          · simp only [h3, if_true]
          · have h4 : lt j k' = true := by
              rcases o.total k' j with h | h | h
              · exact absurd h h3
              · exact absurd h.symm hj
              · exact h
            simp only [h3, h4, Bool.false_eq_true, if_false, if_true]
            exact mfind_none o _ _ (fun e he => o.trans _ _ _ h4 (hs'.1 e he))

theorem build_spec (o : StrictOrder lt) (es : List (K × V)) :
    Sorted lt (build lt es) ∧ ∀ j, mfind lt j (build lt es) = FMap.ofPairs es j := by
  have key : ∀ (es : List (K × V)) (m : List (K × V)), Sorted lt m →
      Sorted lt (es.foldl (fun m e => minsert lt e.1 e.2 m) m) ∧
      ∀ j, mfind lt j (es.foldl (fun m e => minsert lt e.1 e.2 m) m) =
        match mfind lt j m with
        | some x => some x
        | none => FMap.ofPairs es j := by
    intro es
    induction es with
    | nil =>
      intro m hs
      refine ⟨hs, fun j => ?_⟩
      simp only [List.foldl_nil]
      cases mfind lt j m <;> rfl
    | cons e es ih =>
      intro m hs
      obtain ⟨a, b⟩ := minsert_spec o e.1 e.2 m hs
      obtain ⟨c, d⟩ := ih _ a
      refine ⟨c, fun j => ?_⟩
      rw [List.foldl_cons, d j, b j]
      unfold FMap.ofPairs
      by_cases hj : e.1 = j
      · subst hj
        simp only [List.find?_cons, decide_true, Option.map_some, if_true]
        cases h : mfind lt e.1 m <;> simp
      · simp only [List.find?_cons, hj, decide_false, if_neg (Ne.symm hj), ite_self]
  exact key es [] (by simp [Sorted])

/-- A sorted list is determined by its lookups. -/
theorem build_sorted (o : StrictOrder lt) (m : List (K × V)) (hs : Sorted lt m) :
    ∀ j, mfind lt j (build lt m) = mfind lt j m := by
  intro j
  rw [(build_spec o m).2 j]
  unfold FMap.ofPairs
  cases hf : m.find? (fun e => e.1 = j) with
  | none =>
    rw [List.find?_eq_none] at hf
    symm
    simp only [Option.map_none]
    cases hm : mfind lt j m with
    | none => rfl
    | some x =>
      have := hf _ ((mfind_mem o j x m hs).mp hm)
      simp at this
  | some e =>
    have h1 := List.find?_some hf
    have h2 := List.mem_of_find?_eq_some hf
    simp only [decide_eq_true_eq] at h1
    symm
    simp only [Option.map_some]
    rw [mfind_mem o j _ m hs, ← h1]
    exact h2

/-! ### States -/

/-- what variable `v` shows -/
def view (lt : K → K → Bool) (s : State K V) (v : Nat) : Option (FMap K V) :=
  match s.vars[v]? with
  | some (some b) => (s.bodies[b]?).map (fun m j => mfind lt j m)
  | _ => none

def views (lt : K → K → Bool) (s : State K V) : List (Option (FMap K V)) :=
  s.vars.map (fun v => match v with
    | some b => (s.bodies[b]?).map (fun m j => mfind lt j m)
    | none => none)

structure WF (lt : K → K → Bool) (s : State K V) : Prop where
  bodies : ∀ (b : Nat) (m : List (K × V)), s.bodies[b]? = some m → Sorted lt m
  vars : ∀ (v b : Nat), s.vars[v]? = some (some b) → b < s.bodies.length

theorem views_get (s : State K V) (v : Nat) : ((views lt s)[v]?).join = view lt s v := by
  unfold views view
  rw [List.getElem?_map]
  cases s.vars[v]? with
  | none => rfl
  | some x => cases x <;> rfl

theorem views_length (s : State K V) : (views lt s).length = s.vars.length := by simp [views]

theorem exists_views {s : State K V} {v : Nat} (h : Exists (views lt s) v) :
    ∃ b m, s.vars[v]? = some (some b) ∧ s.bodies[b]? = some m := by
  obtain ⟨m, hm⟩ := h
  unfold views at hm
  rw [List.getElem?_map] at hm
  cases hv : s.vars[v]? with
  | none => rw [hv] at hm; cases hm
  | some x =>
    rw [hv] at hm
    cases x with
    | none => simp at hm
    | some b =>
      simp only [Option.map_some, Option.some.injEq, Option.map_eq_some_iff] at hm
      obtain ⟨a, ha, _⟩ := hm
      exact ⟨b, a, rfl, ha⟩

theorem view_some {s : State K V} {v b : Nat} {m : List (K × V)} (h1 : s.vars[v]? = some (some b))
    (h2 : s.bodies[b]? = some m) : view lt s v = some (fun j => mfind lt j m) := by
  unfold view; simp only [h1, h2, Option.map_some]

theorem lt_of_get {α : Type} {l : List α} {i : Nat} {x : α} (h : l[i]? = some x) : i < l.length :=
  (List.getElem?_eq_some_iff.mp h).1

/-- equality of view lists, variable by variable -/
theorem views_ext {vs ws : List (Option (FMap K V))} (h : vs.length = ws.length)
    (he : ∀ v, v < vs.length → (vs[v]?).join = (ws[v]?).join) : vs = ws := by
  apply List.ext_getElem h
  intro i h1 h2
  have := he i h1
  rw [List.getElem?_eq_getElem h1, List.getElem?_eq_getElem h2] at this
  exact this

/-- the reference count is at least two when another variable holds the body too -/
theorem refCount_two {s : State K V} {v w b : Nat} (hvw : v ≠ w) (hv : s.vars[v]? = some (some b))
    (hw : s.vars[w]? = some (some b)) : 2 ≤ refCount s b := by
  unfold refCount
  have key : ∀ (l : List (Option Nat)) (v w : Nat), v < w → l[v]? = some (some b) → l[w]? = some (some b) →
      2 ≤ l.countP (fun v => v == some b) := by
    intro l v w hlt h1 h2
    induction l generalizing v w with
    | nil => simp at h1
    | cons a l ih =>
      cases w with
      | zero => omega
      | succ w =>
        cases v with
        | zero =>
          simp only [List.getElem?_cons_zero, Option.some.injEq] at h1
          simp only [List.getElem?_cons_succ] at h2
          subst h1
          have : 0 < l.countP (fun v => v == some b) := by
            rw [List.countP_pos_iff]
            exact ⟨some b, List.mem_of_getElem? h2, by simp⟩
          rw [List.countP_cons_of_pos (by simp)]
          omega
        | succ v =>
          simp only [List.getElem?_cons_succ] at h1 h2
          have := ih v w (by omega) h1 h2
          rw [List.countP_cons]
          omega
  rcases Nat.lt_or_gt_of_ne hvw with h | h
  · exact key _ v w h hv hw
  · exact key _ w v h hw hv

end Strpp.CM
