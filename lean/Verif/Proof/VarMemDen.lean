import Verif.Proof.VarMemPush
/-! The values that Variants in memory show. -/
set_option linter.unusedSimpArgs false
set_option linter.unusedVariables false
namespace Strpp.VM

open Spec.VM Var

/-! ### `den` in terms of contents -/

theorem den_string (s : State) (n b : Nat) : den s (n + 1) (.string b) = .string (txt (cont s) b) := by
  simp [den, textOf_eq]

theorem den_none_arr (s : State) (n : Nat) (off num : Nat) : den s (n + 1) (.varArray ⟨none, off, num⟩) = .varArray [] := by
  simp [den]

theorem den_arr {s : State} {b : Nat} {mem : List Cell} {num : Nat} (h : cont s b = some (.cells mem num)) (n off k : Nat) :
    den s (n + 1) (.varArray ⟨some b, off, k⟩) = .varArray (((mem.drop off).take k).map (den s n)) := by
  obtain ⟨x, hx, hc, _⟩ := body_of_cont h
  obtain ⟨c, y⟩ := x
  simp at hc; subst hc
  simp [den, hx]

theorem den_map {s : State} {b : Nat} {es : List (Nat × Cell)} (h : cont s b = some (.table es)) (n : Nat) :
    den s (n + 1) (.strVarMap b) = .strVarMap (es.map (fun e => (txt (cont s) e.1, den s n e.2))) := by
  obtain ⟨x, hx, hc, _⟩ := body_of_cont h
  obtain ⟨c, y⟩ := x
  simp at hc; subst hc
  simp [den, hx, textOf_eq]

/-- Values depend only on the bodies that can be reached. -/
theorem den_congr {s s' : State} (P : Nat → Prop)
    (hP : ∀ i, P i → cont s' i = cont s i ∧ (∃ x, cont s i = some x) ∧ ∀ x, cont s i = some x → ∀ j ∈ x.refs, P j) :
    ∀ (n : Nat) (c : Cell), kindOk (cont s) c → (∀ i ∈ c.refs, P i) →
      (∀ b x, P b → cont s b = some x → contOk (cont s) x) → den s' n c = den s n c := by
  intro n
  induction n with
  | zero => intro c _ _ _; rfl
  | succ n ih =>
    intro c hk hc hok
    cases c with
    | none => rfl
    | integer w => rfl
    | long w => rfl
    | longLong w => rfl
    | string b =>
      rw [den_string, den_string, txt_congr (hP b (hc b (by simp [Cell.refs]))).1]
    | varArray a =>
      obtain ⟨body, off, num⟩ := a
      cases body with
      | none => rw [den_none_arr, den_none_arr]
      | some b =>
        obtain ⟨h0, mem, m, hm, hle⟩ := hk
        have hPb := hc b (by simp [Cell.refs])
        obtain ⟨e, _, hcl⟩ := hP b hPb
        rw [den_arr hm, den_arr (e.trans hm)]
        congr 1
        apply List.map_congr_left
        intro d hd
        have hdm : d ∈ mem := List.mem_of_mem_drop (List.mem_of_mem_take hd)
        exact ih d ((hok b _ hPb hm).2 d hdm) (fun i hi => hcl _ hm i (List.mem_flatMap.mpr ⟨d, hdm, hi⟩)) hok
    | strVarMap b =>
      obtain ⟨es, hm⟩ := hk
      have hPb := hc b (by simp [Cell.refs])
      obtain ⟨e, _, hcl⟩ := hP b hPb
      rw [den_map hm, den_map (e.trans hm)]
      congr 1
      apply List.map_congr_left
      intro d hd
      have hkey := hP d.1 (hcl _ hm d.1 (List.mem_flatMap.mpr ⟨d, hd, by simp⟩))
      rw [txt_congr hkey.1, ih d.2 ((hok b _ hPb hm).1 d hd).2 (fun i hi => hcl _ hm i (List.mem_flatMap.mpr ⟨d, hd, by simp [hi]⟩)) hok]

theorem dn_congr {s s' : State} {c : Cell} {x : Variant} (h : ∀ n, den s' n c = den s n c) (hd : Denotes s c x) : Denotes s' c x := by
  obtain ⟨N, hN⟩ := hd
  exact ⟨N, fun n hn => by rw [h]; exact hN n hn⟩

/-- What is still there after other bodies have gone or changed shows the same. -/
theorem dn_kept {s s' : State} {T T' : List Nat} {L L' : Nat → Nat} (h : Inv s T L) (h' : Inv s' T' L') {b : Nat}
    (hk : ∀ i x, i ≠ b → cont s' i = some x → cont s i = some x) (hno : NoIn s' b) {c : Cell} {x : Variant}
    (hkc : kindOk (cont s) c) (hl : ∀ i ∈ c.refs, i ≠ b ∧ ∃ y, cont s' i = some y) (hd : Denotes s c x) : Denotes s' c x := by
  refine dn_congr (fun n => den_congr (fun i => i ≠ b ∧ ∃ y, cont s' i = some y) ?_ n c hkc hl ?_) hd
  · rintro i ⟨hi, y, hy⟩
    have hs := hk i y hi hy
    refine ⟨by rw [hs, hy], ⟨y, hs⟩, fun z hz j hj => ?_⟩
    rw [hs] at hz; cases hz
    refine ⟨by intro e; subst e; exact hno i y hy hj, h'.live_body hy hj⟩
  · intro i y _ hy
    exact h.bkind i y hy

/-- ... with no body changed -/
theorem dn_kept' {s s' : State} {T T' : List Nat} {L L' : Nat → Nat} (h : Inv s T L) (h' : Inv s' T' L')
    (hk : ∀ i x, cont s' i = some x → cont s i = some x) {c : Cell} {x : Variant}
    (hkc : kindOk (cont s) c) (hl : ∀ i ∈ c.refs, ∃ y, cont s' i = some y) (hd : Denotes s c x) : Denotes s' c x := by
  refine dn_congr (fun n => den_congr (fun i => ∃ y, cont s' i = some y) ?_ n c hkc hl ?_) hd
  · rintro i ⟨y, hy⟩
    have hs := hk i y hy
    refine ⟨by rw [hs, hy], ⟨y, hs⟩, fun z hz j hj => ?_⟩
    rw [hs] at hz; cases hz
    exact h'.live_body hy hj
  · intro i y _ hy
    exact h.bkind i y hy

/-! ### Characterisations -/

theorem dn_unique {s : State} {c : Cell} {x y : Variant} (h : Denotes s c x) (h' : Denotes s c y) : x = y := by
  obtain ⟨N, hN⟩ := h
  obtain ⟨M, hM⟩ := h'
  rw [← hN (max N M) (by omega), ← hM (max N M) (by omega)]

theorem denotes_of_succ {s : State} {c : Cell} {x : Variant} (h : ∀ n, den s (n + 1) c = x) : Denotes s c x :=
  ⟨1, fun n hn => by obtain ⟨k, rfl⟩ : ∃ k, n = k + 1 := ⟨n - 1, by omega⟩; exact h k⟩

theorem denotes_string (s : State) (b : Nat) : Denotes s (.string b) (.string (txt (cont s) b)) :=
  denotes_of_succ (fun n => den_string s n b)

theorem denotes_arr_none (s : State) (off num : Nat) : Denotes s (.varArray ⟨none, off, num⟩) (.varArray []) :=
  denotes_of_succ (fun n => den_none_arr s n off num)

theorem uniform {s : State} {cs : List Cell} {xs : List Variant} (h : List.Forall₂ (Denotes s) cs xs) :
    ∃ N, ∀ n, N ≤ n → cs.map (den s n) = xs := by
  induction h with
  | nil => exact ⟨0, fun _ _ => rfl⟩
  | cons hd _ ih =>
    obtain ⟨N, hN⟩ := hd
    obtain ⟨M, hM⟩ := ih
    exact ⟨max N M, fun n hn => by rw [List.map_cons, hN n (by omega), hM n (by omega)]⟩

theorem denotes_arr {s : State} {b : Nat} {mem : List Cell} {num k : Nat} (h : cont s b = some (.cells mem num)) {xs : List Variant}
    (hx : List.Forall₂ (Denotes s) (mem.take k) xs) : Denotes s (.varArray ⟨some b, 0, k⟩) (.varArray xs) := by
  obtain ⟨N, hN⟩ := uniform hx
  refine ⟨N + 1, fun n hn => ?_⟩
  obtain ⟨m, rfl⟩ : ∃ m, n = m + 1 := ⟨n - 1, by omega⟩
  rw [den_arr h, List.drop_zero, hN m (by omega)]

theorem forall_of_eventually {s : State} {cs : List Cell} {xs : List Variant} {N : Nat} (h : ∀ n, N ≤ n → cs.map (den s n) = xs) :
    List.Forall₂ (Denotes s) cs xs := by
  induction cs generalizing xs with
  | nil =>
    have := h N (Nat.le_refl _)
    simp at this; subst this; exact .nil
  | cons c cs ih =>
    cases xs with
    | nil => have := h N (Nat.le_refl _); simp at this
    | cons x xs =>
      refine .cons ⟨N, fun n hn => ?_⟩ (ih fun n hn => ?_)
      · have := h n hn; simp at this; exact this.1
      · have := h n hn; simp at this; exact this.2

theorem denotes_arr_inv {s : State} {b : Nat} {mem : List Cell} {num k : Nat} (h : cont s b = some (.cells mem num)) {x : Variant}
    (hx : Denotes s (.varArray ⟨some b, 0, k⟩) x) : ∃ xs, x = .varArray xs ∧ List.Forall₂ (Denotes s) (mem.take k) xs := by
  obtain ⟨N, hN⟩ := hx
  have h1 := hN (N + 1) (by omega)
  rw [den_arr h, List.drop_zero] at h1
  refine ⟨_, h1.symm, forall_of_eventually (N := N) fun n hn => ?_⟩
  have h2 := hN (n + 1) (by omega)
  rw [den_arr h, List.drop_zero, ← h1] at h2
  simpa using h2

theorem denotes_elems {s : State} {T : List Nat} {L : Nat → Nat} (h : Inv s T L) {a : Arr.Slice} (hk : kindOk (cont s) (.varArray a)) {x : Variant}
    (hx : Denotes s (.varArray a) x) : ∃ xs, x = .varArray xs ∧ List.Forall₂ (Denotes s) (elems s a) xs := by
  obtain ⟨body, off, num⟩ := a
  cases body with
  | none => exact ⟨[], dn_unique hx (denotes_arr_none s off num), .nil⟩
  | some b =>
    obtain ⟨h0, mem, m, hm, hle⟩ := hk
    simp at h0; subst h0
    have e : elems s ⟨some b, 0, num⟩ = mem.take num := by unfold elems; simp only [hm]
    rw [e]
    exact denotes_arr_inv hm hx

/-- an entry and its value -/
def EntryDen (s : State) (e : Nat × Cell) (m : List UCS4 × Variant) : Prop := txt (cont s) e.1 = m.1 ∧ Denotes s e.2 m.2

theorem denotes_map {s : State} {b : Nat} {es : List (Nat × Cell)} (h : cont s b = some (.table es)) {ms : List (List UCS4 × Variant)}
    (hx : List.Forall₂ (EntryDen s) es ms) : Denotes s (.strVarMap b) (.strVarMap ms) := by
  have : ∃ N, ∀ n, N ≤ n → es.map (fun e => (txt (cont s) e.1, den s n e.2)) = ms := by
    clear h
    induction hx with
    | nil => exact ⟨0, fun _ _ => rfl⟩
    | @cons e m es ms hd _ ih =>
      obtain ⟨hkey, N, hN⟩ := hd
      obtain ⟨M, hM⟩ := ih
      exact ⟨max N M, fun n hn => by rw [List.map_cons, hN n (by omega), hM n (by omega), hkey]⟩
  obtain ⟨N, hN⟩ := this
  refine ⟨N + 1, fun n hn => ?_⟩
  obtain ⟨m, rfl⟩ : ∃ m, n = m + 1 := ⟨n - 1, by omega⟩
  rw [den_map h, hN m (by omega)]

theorem denotes_map_inv {s : State} {b : Nat} {es : List (Nat × Cell)} (h : cont s b = some (.table es)) {x : Variant}
    (hx : Denotes s (.strVarMap b) x) : ∃ ms, x = .strVarMap ms ∧ List.Forall₂ (EntryDen s) es ms := by
  obtain ⟨N, hN⟩ := hx
  have h1 := hN (N + 1) (by omega)
  rw [den_map h] at h1
  refine ⟨_, h1.symm, ?_⟩
  have key : ∀ n, N ≤ n → es.map (fun e => (txt (cont s) e.1, den s n e.2)) = es.map (fun e => (txt (cont s) e.1, den s N e.2)) := by
    intro n hn
    have h2 := hN (n + 1) (by omega)
    rw [den_map h, ← h1] at h2
    simpa using h2
  clear h1 hN h
  induction es with
  | nil => exact .nil
  | cons e es ih =>
    refine .cons ⟨rfl, N, fun n hn => ?_⟩ (ih fun n hn => ?_)
    · have := key n hn; simp at this; exact this.1
    · have := key n hn; simp only [List.map_cons, List.cons.injEq] at this; exact this.2

/-! ### All variables -/

/-- what a variable shows -/
theorem shows_get {s : State} {σ : Vals} (h : Shows s σ) {v : Nat} {x : Variant} (hv : value σ v = some x) :
    ∃ c, s.vars[v]? = some (some c) ∧ Denotes s c x := by
  have hx : σ[v]? = some (some x) := by
    unfold value at hv
    split at hv
    · rename_i y hy; cases hv; exact hy
    · cases hv
  have := h.2 v
  rw [hx] at this
  split at this
  · rename_i c y hc hy; cases hy; exact ⟨c, hc, this⟩
  · rename_i hy; cases hy
  · rename_i hy; cases hy
  · exact this.elim

theorem shows_intro {s : State} {σ : Vals} (hl : s.vars.length = σ.length)
    (h : ∀ (v : Nat) c, s.vars[v]? = some (some c) → ∃ x, σ[v]? = some (some x) ∧ Denotes s c x)
    (h' : ∀ v : Nat, s.vars[v]? = some none → σ[v]? = some none) : Shows s σ := by
  refine ⟨hl, fun v => ?_⟩
  cases hv : s.vars[v]? with
  | none =>
    have : σ[v]? = none := by rw [List.getElem?_eq_none_iff] at hv ⊢; omega
    rw [this]; trivial
  | some o =>
    cases o with
    | none => rw [h' v hv]; trivial
    | some c =>
      obtain ⟨x, hx, hd⟩ := h v c hv
      rw [hx]; exact hd

theorem shows_some {s : State} {σ : Vals} (h : Shows s σ) {v : Nat} {c : Cell} (hv : s.vars[v]? = some (some c)) :
    ∃ x, σ[v]? = some (some x) ∧ Denotes s c x := by
  have := h.2 v
  rw [hv] at this
  split at this
  · rename_i c' y hc hy; cases hc; exact ⟨y, hy, this⟩
  · rename_i hc hy; cases hc
  · rename_i hc hy; cases hc
  · exact this.elim

theorem shows_gone {s : State} {σ : Vals} (h : Shows s σ) {v : Nat} (hv : s.vars[v]? = some none) : σ[v]? = some none := by
  have := h.2 v
  rw [hv] at this
  split at this
  · rename_i c' y hc hy; cases hc
  · rename_i hc hy; exact hy
  · rename_i hc hy; cases hc
  · exact this.elim

/-- One variable changes, no body changes (some may have gone). -/
theorem shows_set {s s' : State} {T T' : List Nat} {L L' : Nat → Nat} (h : Inv s T L) (h' : Inv s' T' L') {σ : Vals} (hs : Shows s σ)
    {v : Nat} {o : Option Cell} {y : Option Variant} (hv : s'.vars = s.vars.set v o)
    (hk : ∀ i x, cont s' i = some x → cont s i = some x)
    (ho : match o, y with | some c, some x => Denotes s' c x | none, none => True | _, _ => False) : Shows s' (σ.set v y) := by
  refine shows_intro (by rw [hv]; simp [hs.1]) ?_ ?_
  · intro w c hw
    have hw0 := hw
    rw [hv, List.getElem?_set] at hw
    split at hw
    · rename_i e; subst e
      split at hw
      · rename_i hlt
        simp at hw; subst hw
        cases y with
        | none => exact ho.elim
        | some x => exact ⟨x, by rw [List.getElem?_set]; simp; rw [← hs.1]; exact hlt, ho⟩
      · cases hw
    · rename_i e
      obtain ⟨x, hx, hd⟩ := shows_some hs hw
      refine ⟨x, by rw [List.getElem?_set]; simp [e, hx], dn_kept' h h' hk (h.vkind w c hw) (fun i hi => ?_) hd⟩
      exact h'.live_var hw0 hi
  · intro w hw
    rw [hv, List.getElem?_set] at hw
    split at hw
    · rename_i e; subst e
      split at hw
      · rename_i hlt
        simp at hw; subst hw
        cases y with
        | none => rw [List.getElem?_set]; simp; rw [← hs.1]; exact hlt
        | some x => exact ho.elim
      · cases hw
    · rename_i e
      rw [List.getElem?_set]; simp [e]; exact shows_gone hs hw

/-- One variable changes, and its body `b`, which no other variable and no body refers to. -/
theorem shows_own {s s' : State} {T T' : List Nat} {L L' : Nat → Nat} (h : Inv s T L) (h' : Inv s' T' L') {σ : Vals} (hs : Shows s σ)
    {v b : Nat} {c' : Cell} {y : Variant} (hv : s'.vars = s.vars.set v (some c'))
    (hk : ∀ i x, i ≠ b → cont s' i = some x → cont s i = some x) (hno : NoIn s' b)
    (hnv : ∀ (w : Nat) c, w ≠ v → s.vars[w]? = some (some c) → b ∉ c.refs)
    (ho : Denotes s' c' y) : Shows s' (σ.set v (some y)) := by
  refine shows_intro (by rw [hv]; simp [hs.1]) ?_ ?_
  · intro w c hw
    have hw0 := hw
    rw [hv, List.getElem?_set] at hw
    split at hw
    · rename_i e; subst e
      split at hw
      · rename_i hlt
        simp at hw; subst hw
        exact ⟨y, by rw [List.getElem?_set]; simp; rw [← hs.1]; exact hlt, ho⟩
      · cases hw
    · rename_i e
      obtain ⟨x, hx, hd⟩ := shows_some hs hw
      refine ⟨x, by rw [List.getElem?_set]; simp [e, hx], dn_kept h h' hk hno (h.vkind w c hw) (fun i hi => ⟨?_, h'.live_var hw0 hi⟩) hd⟩
      intro e'; subst e'; exact hnv w c (Ne.symm e) hw hi
  · intro w hw
    rw [hv, List.getElem?_set] at hw
    split at hw
    · rename_i e; subst e
      split at hw
      · simp at hw
      · cases hw
    · rename_i e
      rw [List.getElem?_set]; simp [e]; exact shows_gone hs hw

/-- A new variable; no body that was there has changed. -/
theorem shows_new {s s' : State} {T T' : List Nat} {L L' : Nat → Nat} (h : Inv s T L) (h' : Inv s' T' L') {σ : Vals} (hs : Shows s σ)
    {c : Cell} {y : Variant} (hv : s'.vars = s.vars ++ [some c]) {b : Nat}
    (hk : ∀ i x, i ≠ b → cont s' i = some x → cont s i = some x) (hno : NoIn s' b)
    (hnv : ∀ (w : Nat) c, s.vars[w]? = some (some c) → b ∉ c.refs)
    (ho : Denotes s' c y) : Shows s' (σ ++ [some y]) := by
  refine shows_intro (by rw [hv]; simp [hs.1]) ?_ ?_
  · intro w c' hw
    have hw0 := hw
    rw [hv, List.getElem?_append] at hw
    split at hw
    · rename_i hlt
      obtain ⟨x, hx, hd⟩ := shows_some hs hw
      refine ⟨x, by rw [List.getElem?_append, if_pos (by rw [← hs.1]; exact hlt)]; exact hx,
        dn_kept h h' hk hno (h.vkind w c' hw) (fun i hi => ⟨?_, h'.live_var hw0 hi⟩) hd⟩
      intro e'; subst e'; exact hnv w c' hw hi
    · rename_i hge
      have e0 : w - s.vars.length = 0 := by
        by_contra hne
        obtain ⟨k, hk⟩ : ∃ k, w - s.vars.length = k + 1 := ⟨w - s.vars.length - 1, by omega⟩
        rw [hk] at hw; simp at hw
      rw [e0] at hw; simp at hw; subst hw
      refine ⟨y, ?_, ho⟩
      rw [List.getElem?_append, if_neg (by rw [← hs.1]; exact hge), ← hs.1, e0]; rfl
  · intro w hw
    rw [hv, List.getElem?_append] at hw
    split at hw
    · rename_i hlt
      rw [List.getElem?_append, if_pos (by rw [← hs.1]; exact hlt)]; exact shows_gone hs hw
    · rename_i hge
      by_cases e0 : w - s.vars.length = 0
      · rw [e0] at hw; simp at hw
      · obtain ⟨k, hk⟩ : ∃ k, w - s.vars.length = k + 1 := ⟨w - s.vars.length - 1, by omega⟩
        rw [hk] at hw; simp at hw

end Strpp.VM
