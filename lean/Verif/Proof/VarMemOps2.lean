import Verif.Proof.VarMemOps
/-! One call at a time: maps and coercion. -/
set_option linter.unusedSimpArgs false
set_option linter.unusedVariables false
namespace Strpp.VM

open Spec.VM Var

/-- a table and the value it shows, keys read through `f`, values through `D` -/
def Table (f : Nat → List UCS4) (D : Cell → Variant → Prop) (es : List (Nat × Cell)) (ms : List (List UCS4 × Variant)) : Prop :=
  List.Forall₂ (fun d m => f d.1 = m.1 ∧ D d.2 m.2) es ms

theorem table_filter {f : Nat → List UCS4} {D : Cell → Variant → Prop} {es : List (Nat × Cell)} {ms : List (List UCS4 × Variant)}
    (h : Table f D es ms) (p : List UCS4 → Bool) : Table f D (es.filter (fun d => p (f d.1))) (ms.filter (fun m => p m.1)) := by
  induction h with
  | nil => exact .nil
  | cons hd ht ih =>
    rw [List.filter_cons, List.filter_cons, hd.1]
    split
    · exact .cons hd ih
    · exact ih

theorem table_any {f : Nat → List UCS4} {D : Cell → Variant → Prop} {es : List (Nat × Cell)} {ms : List (List UCS4 × Variant)}
    (h : Table f D es ms) (p : List UCS4 → Bool) : es.any (fun d => p (f d.1)) = ms.any (fun m => p m.1) := by
  induction h with
  | nil => rfl
  | cons hd ht ih => rw [List.any_cons, List.any_cons, hd.1, ih]

theorem table_find {f : Nat → List UCS4} {D : Cell → Variant → Prop} {es : List (Nat × Cell)} {ms : List (List UCS4 × Variant)}
    (h : Table f D es ms) (p : List UCS4 → Bool) :
    match es.find? (fun d => p (f d.1)), ms.find? (fun m => p m.1) with
    | some d, some m => f d.1 = m.1 ∧ D d.2 m.2
    | none, none => True
    | _, _ => False := by
  induction h with
  | nil => trivial
  | cons hd ht ih =>
    rw [List.find?_cons, List.find?_cons, hd.1]
    cases p _ with
    | true => exact hd
    | false => exact ih

theorem table_insert {f : Nat → List UCS4} {D : Cell → Variant → Prop} {es : List (Nat × Cell)} {ms : List (List UCS4 × Variant)}
    (h : Table f D es ms) {e : Nat × Cell} {t : List UCS4} {x : Variant} (ht : f e.1 = t) (hx : D e.2 x) :
    Table f D (inserted f e es) (mapInsert t x ms) := by
  unfold inserted mapInsert
  subst ht
  have ha := table_any h (fun t => decide (t = f e.1))
  rw [ha]
  split
  · exact h
  · have h1 := table_filter h (fun t => ltText t (f e.1))
    have h2 := table_filter h (fun t => ltText (f e.1) t)
    simp only [ltText_eq] at h1 h2 ⊢
    exact forall₂_append h1 (.cons ⟨rfl, hx⟩ h2)

theorem sub_inserted {f : Nat → List UCS4} {e : Nat × Cell} {es : List (Nat × Cell)} {d : Nat × Cell} (hd : d ∈ es) : d ∈ inserted f e es := by
  unfold inserted
  split
  · exact hd
  · rename_i ha
    rw [List.mem_append, List.mem_cons, List.mem_filter, List.mem_filter]
    by_cases h1 : ltText (f d.1) (f e.1) = true
    · exact .inl ⟨hd, h1⟩
    · by_cases h2 : ltText (f e.1) (f d.1) = true
      · exact .inr (.inr ⟨hd, h2⟩)
      · exfalso; apply ha
        rw [List.any_eq_true]
        exact ⟨d, hd, by simp; exact lt_total (by simpa using h1) (by simpa using h2)⟩

/-- the entries of a map's body do not refer to it, and exist -/
theorem own_entry {s : State} {T : List Nat} {L : Nat → Nat} (h : Inv s T L) {b : Nat} {es : List (Nat × Cell)}
    (hb : cont s b = some (.table es)) (hno : NoIn s b) {e : Nat × Cell} (he : e ∈ es) :
    ∀ j ∈ entryRefs e, j ≠ b ∧ ∃ y, cont s j = some y := by
  intro j hj
  have hin : j ∈ (Content.table es).refs := List.mem_flatMap.mpr ⟨e, he, hj⟩
  exact ⟨fun e => by subst e; exact hno _ _ hb hin, h.live_body hb hin⟩

theorem entry_kept {s s' : State} {T T' : List Nat} {L L' : Nat → Nat} (h : Inv s T L) (h' : Inv s' T' L') {b : Nat}
    (hk : ∀ i x, i ≠ b → cont s' i = some x → cont s i = some x) (hno : NoIn s' b) {e : Nat × Cell} {m : List UCS4 × Variant}
    (hke : kindOk (cont s) e.2) (hl : ∀ j ∈ entryRefs e, j ≠ b ∧ ∃ y, cont s' j = some y) (hd : EntryDen s e m) : EntryDen s' e m := by
  refine ⟨?_, dn_kept h h' hk hno hke (fun j hj => hl j (by simp [entryRefs, hj])) hd.2⟩
  obtain ⟨hne, y, hy⟩ := hl e.1 (by simp [entryRefs])
  rw [← hd.1]
  exact txt_congr (by rw [hy, hk _ y hne hy])

theorem insert_does {s : State} {L : Nat → Nat} (h : Inv s [] L) {σ : Vals} (hs : Shows s σ) {m k v kb : Nat} {e : Cell}
    {ms : List (List UCS4 × Variant)} {x : Variant} (hmk : m ≠ k) (hmv : m ≠ v) (hm : value σ m = some (.strVarMap ms))
    (hk : s.vars[k]? = some (some (.string kb))) (he : s.vars[v]? = some (some e)) (hd : Denotes s e x) :
    Does (insert s m (kb, e)) L (σ.set m (some (.strVarMap (mapInsert (txt (cont s) kb) x ms)))) := by
  obtain ⟨c, hc, hdc⟩ := shows_get hs hm
  obtain ⟨b0, rfl⟩ := is_map (h.vkind m c hc) hdc
  obtain ⟨es, hes⟩ := h.vkind m _ hc
  obtain ⟨ms', hms, hf⟩ := denotes_map_inv hes hdc
  cases hms
  have hlive : ∀ j ∈ entryRefs (kb, e), ∃ x, cont s j = some x := by
    intro j hj
    rcases List.mem_cons.mp hj with rfl | hj
    · exact h.live_var hk (by simp [Cell.refs])
    · exact h.live_var he hj
  obtain ⟨s1, h1, i1, c1⟩ := addRefs_inv h (entryRefs (kb, e)) hlive
  have f1 : cont s1 = cont s := funext c1.same
  obtain ⟨s2, b, h2, i2, o2, v2, k2, nv2, _, tb⟩ := unshareMap_inv i1 (v := m) (b0 := b0) (es := es) (by rw [c1.vars]; exact hc) (by rw [f1]; exact hes)
  have hbe : b ∉ entryRefs (kb, e) := by
    intro hin
    have := List.count_pos_iff.mpr hin
    rw [List.count_append] at tb; omega
  have hk2 : s2.vars[k]? = some (some (.string kb)) := by rw [v2, List.getElem?_set, c1.vars]; simp [hmk, hk]
  have he2 : s2.vars[v]? = some (some e) := by rw [v2, List.getElem?_set, c1.vars]; simp [hmv, he]
  obtain ⟨s3, h3, i3, n3, b3, e3, v3, _⟩ := insertEntry_inv i2 o2.cont (e := (kb, e)) ⟨i2.vkind k _ hk2, i2.vkind v _ he2⟩ (by
    intro j hj
    rcases List.mem_cons.mp hj with rfl | hj
    · exact i2.live_var hk2 (by simp [Cell.refs])
    · exact i2.live_var he2 hj) o2.noIn hbe
  obtain ⟨s4, h4, i4, k4⟩ := release_inv (entryRefs (kb, e)) i3
  have hv4 : s4.vars = s.vars.set m (some (.strVarMap b)) := by rw [k4.vars, v3, v2, c1.vars]
  have hkeep : ∀ i y, i ≠ b → cont s4 i = some y → cont s i = some y := by
    intro i y hi hy
    have q1 := k4.same i y hy
    rw [e3 i hi] at q1
    have q2 := k2 i y hi q1
    rw [f1] at q2; exact q2
  have n4 : NoIn s4 b := k4.noIn n3
  have hlt := (List.getElem?_eq_some_iff.mp hc).1
  obtain ⟨y4, hy4⟩ := i4.live_var (v := m) (c := .strVarMap b) (by rw [hv4]; simp [List.getElem?_set, hlt]) (b := b) (by simp [Cell.refs])
  have b4 : cont s4 b = some (.table (inserted (txt (cont s2)) (kb, e) es)) := by rw [k4.eq hy4]; exact b3
  have ht2 : ∀ j, j ≠ b → (∃ y, cont s2 j = some y) → txt (cont s2) j = txt (cont s) j := by
    intro j hj ⟨y, hy⟩
    have := k2 j y hj hy
    rw [f1] at this
    exact txt_congr (by rw [this, hy])
  refine ⟨s4, ?_, i4, ?_⟩
  · show (addRefs s (entryRefs (kb, e)) >>= fun s => _) = _
    rw [h1, res_bind_ok]
    show (unshareMap s1 m >>= fun s => _) = _
    rw [h2, res_bind_ok]
    show (getMap s2 m >>= fun b => _) = _
    rw [getMap_of o2.var, res_bind_ok]
    show (insertEntry s2 b (kb, e) >>= fun s => _) = _
    rw [h3]; exact h4
  · refine shows_own h i4 hs hv4 hkeep n4 (fun w c hw hwc => nv2 w c hw (by rw [c1.vars]; exact hwc)) ?_
    refine denotes_map b4 ?_
    have hent : ∀ d ∈ inserted (txt (cont s2)) (kb, e) es, ∀ j ∈ entryRefs d, j ≠ b ∧ ∃ y, cont s4 j = some y :=
      fun d hd' => own_entry i4 b4 n4 hd'
    have hbk := h.bkind b0 _ hes
    have htab : Table (txt (cont s2)) (Denotes s4) es ms := by
      refine forall₂_mem hf ?_
      intro d md hd' hdm
      have hl4 := hent d (sub_inserted hd')
      refine ⟨?_, dn_kept h i4 hkeep n4 (hbk.1 d hd').2 (fun j hj => hl4 j (by simp [entryRefs, hj])) hdm.2⟩
      obtain ⟨g1, g2⟩ := own_entry i2 o2.cont o2.noIn hd' d.1 (by simp [entryRefs])
      rw [ht2 d.1 g1 g2]; exact hdm.1
    have hkb : txt (cont s2) kb = txt (cont s) kb :=
      ht2 kb (fun e => hbe (by simp [entryRefs, e])) (i2.live_var hk2 (by simp [Cell.refs]))
    have hde : Denotes s4 e x := by
      refine dn_kept h i4 hkeep n4 (h.vkind v e he) (fun j hj => ⟨?_, ?_⟩) hd
      · intro q; subst q; exact hbe (by simp [entryRefs, hj])
      · exact i4.live_var (v := v) (c := e) (by rw [hv4, List.getElem?_set]; simp [hmv, he]) hj
    refine forall₂_mem (table_insert htab (e := (kb, e)) hkb hde) ?_
    intro d md hd' hdm
    refine ⟨?_, hdm.2⟩
    obtain ⟨g1, y, g2⟩ := hent d hd' d.1 (by simp [entryRefs])
    rw [← hdm.1]
    refine txt_congr ?_
    have := k4.same _ y g2
    rw [e3 _ g1] at this
    rw [g2, this]

/-! ### Erasure -/

theorem merase_count {f : Nat → List UCS4} (g : Nat × Cell → List Nat) (t : List UCS4) (es : List (Nat × Cell)) (hs : SortedBy f es)
    {d : Nat × Cell} (hf : es.find? (fun e => decide (f e.1 = t)) = some d) (j : Nat) :
    (g d).count j + ((es.filter (fun e => decide (f e.1 ≠ t))).flatMap g).count j = (es.flatMap g).count j := by
  induction es with
  | nil => simp at hf
  | cons e es ih =>
    have hp := List.pairwise_cons.mp hs
    rw [List.find?_cons] at hf
    by_cases q : f e.1 = t
    · simp [q] at hf; subst hf
      have : es.filter (fun e => decide (f e.1 ≠ t)) = es := by
        apply List.filter_eq_self.mpr
        intro a ha
        have := lt_ne (hp.1 a ha)
        simp; rw [← q]; exact fun h => this h.symm
      rw [List.filter_cons, this]; simp [q, List.count_append]
    · simp [q] at hf
      have := ih hp.2 (by simpa using hf)
      rw [List.filter_cons]; simp [q, List.count_append] at this ⊢; omega

theorem findEntry_eq (s : State) (k : Nat) (es : List (Nat × Cell)) :
    findEntry s k es = es.find? (fun e => decide (txt (cont s) e.1 = txt (cont s) k)) := by
  unfold findEntry
  congr 1
  funext e
  rw [ltKey_eq]
  by_cases q : txt (cont s) e.1 = txt (cont s) k
  · simp [q, lt_irrefl]
  · simp only [q, decide_false]
    by_contra hne
    simp at hne
    exact q (lt_total hne.1 hne.2)

theorem erase_does {s : State} {L : Nat → Nat} (h : Inv s [] L) {σ : Vals} (hs : Shows s σ) {m k kb : Nat}
    {ms : List (List UCS4 × Variant)} (hm : value σ m = some (.strVarMap ms)) (hk : s.vars[k]? = some (some (.string kb))) :
    Does (erase s m kb) L (σ.set m (some (.strVarMap (mapErase (txt (cont s) kb) ms)))) := by
  obtain ⟨c, hc, hdc⟩ := shows_get hs hm
  obtain ⟨b0, rfl⟩ := is_map (h.vkind m c hc) hdc
  have hmk : m ≠ k := by intro e; subst e; rw [hc] at hk; cases hk
  obtain ⟨es, hes⟩ := h.vkind m _ hc
  obtain ⟨ms', hms, hf⟩ := denotes_map_inv hes hdc
  cases hms
  have hbk := h.bkind b0 _ hes
  obtain ⟨s2, b, h2, i2, o2, v2, k2, nv2, _, tb⟩ := unshareMap_inv h hc hes
  have hk2 : s2.vars[k]? = some (some (.string kb)) := by rw [v2, List.getElem?_set]; simp [hmk, hk]
  have hkb : kb ≠ b := fun e => nv2 k _ (Ne.symm hmk) hk (by simp [Cell.refs, e])
  have ht2 : ∀ j, j ≠ b → (∃ y, cont s2 j = some y) → txt (cont s2) j = txt (cont s) j := by
    intro j hj ⟨y, hy⟩
    exact txt_congr (by rw [k2 j y hj hy, hy])
  have hkt : txt (cont s2) kb = txt (cont s) kb := ht2 kb hkb (i2.live_var hk2 (by simp [Cell.refs]))
  have hso : SortedBy (txt (cont s2)) es := (i2.bkind b _ o2.cont).2
  have htab2 : List.Forall₂ (EntryDen s2) es ms := by
    refine forall₂_mem hf ?_
    intro d md hd' hdm
    exact entry_kept h i2 k2 o2.noIn (hbk.1 d hd').2 (own_entry i2 o2.cont o2.noIn hd') hdm
  have hstart : erase s m kb = (match findEntry s2 kb es with
      | none => .ok s2
      | some e => do
        let s ← setTable s2 b (CM.merase (ltKey s2) kb es)
        release s (entryRefs e)) := by
    show (unshareMap s m >>= fun s => _) = _
    rw [h2, res_bind_ok]
    show (getMap s2 m >>= fun b => _) = _
    rw [getMap_of o2.var, res_bind_ok]
    show (getTable s2 b >>= fun b => _) = _
    rw [getTable_of o2.cont]; rfl
  rw [hstart, findEntry_eq, hkt]
  have hme : CM.merase (ltKey s2) kb es = es.filter (fun e => decide (txt (cont s2) e.1 ≠ txt (cont s) kb)) := by
    rw [ltKey_eq, merase_eq (f := txt (cont s2)) kb es hso, hkt]
  have hfilt : List.Forall₂ (EntryDen s2) (es.filter (fun e => decide (txt (cont s2) e.1 ≠ txt (cont s) kb))) (mapErase (txt (cont s) kb) ms) := by
    have := table_filter (D := Denotes s2) (f := txt (cont s2)) htab2 (fun t => decide (t ≠ txt (cont s) kb))
    unfold mapErase
    exact this
  cases hq : es.find? (fun e => decide (txt (cont s2) e.1 = txt (cont s) kb)) with
  | none =>
    refine ⟨s2, rfl, i2, ?_⟩
    refine shows_own h i2 hs v2 k2 o2.noIn nv2 ?_
    refine denotes_map o2.cont ?_
    have : es.filter (fun e => decide (txt (cont s2) e.1 ≠ txt (cont s) kb)) = es := by
      apply List.filter_eq_self.mpr
      intro a ha
      have := List.find?_eq_none.mp hq a ha
      simpa using this
    rw [this] at hfilt; exact hfilt
  | some e =>
    have hin : e ∈ es := List.mem_of_find?_eq_some hq
    have hsub : ∀ d ∈ CM.merase (ltKey s2) kb es, d ∈ es := by rw [hme]; intro d hd'; exact (List.mem_filter.mp hd').1
    obtain ⟨s3, h3, i3, n3, b3, e3, v3, _⟩ := setTable_inv i2 (T' := entryRefs e ++ []) o2.cont (CM.merase (ltKey s2) kb es)
      (fun d hd' => (i2.bkind b _ o2.cont).1 d (hsub d hd')) (by rw [hme]; exact hso.filter _) o2.noIn
      (fun d hd' => noIn_table o2.noIn o2.cont d (hsub d hd')) (by
        intro j
        have := merase_count (f := txt (cont s2)) entryRefs (txt (cont s) kb) es hso hq j
        rw [hme, List.append_nil, List.count_nil]; omega)
    obtain ⟨s4, h4, i4, k4⟩ := release_inv (entryRefs e) i3
    have hv4 : s4.vars = s.vars.set m (some (.strVarMap b)) := by rw [k4.vars, v3, v2]
    have hkeep : ∀ i y, i ≠ b → cont s4 i = some y → cont s2 i = some y := by
      intro i y hi hy
      have q1 := k4.same i y hy
      rw [e3 i hi] at q1; exact q1
    have n4 : NoIn s4 b := k4.noIn n3
    have hlt := (List.getElem?_eq_some_iff.mp hc).1
    obtain ⟨y4, hy4⟩ := i4.live_var (v := m) (c := .strVarMap b) (by rw [hv4]; simp [List.getElem?_set, hlt]) (b := b) (by simp [Cell.refs])
    have b4 : cont s4 b = some (.table (CM.merase (ltKey s2) kb es)) := by rw [k4.eq hy4]; exact b3
    refine ⟨s4, ?_, i4, ?_⟩
    · show (setTable s2 b (CM.merase (ltKey s2) kb es) >>= fun s => _) = _
      rw [h3]; exact h4
    · refine shows_own h i4 hs hv4 (fun i y hi hy => k2 i y hi (hkeep i y hi hy)) n4 nv2 ?_
      refine denotes_map b4 ?_
      rw [hme] at b4 ⊢
      refine forall₂_mem hfilt ?_
      intro d md hd' hdm
      exact entry_kept i2 i4 hkeep n4 ((i2.bkind b _ o2.cont).1 d (List.mem_filter.mp hd').1).2 (own_entry i4 b4 n4 hd') hdm

theorem lookup_does {s : State} {L : Nat → Nat} (h : Inv s [] L) {σ : Vals} (hs : Shows s σ) {m kb : Nat}
    {ms : List (List UCS4 × Variant)} (hm : value σ m = some (.strVarMap ms)) :
    Does (lookup s m kb) L (σ ++ [some (mapLookup (txt (cont s) kb) ms)]) := by
  obtain ⟨c, hc, hdc⟩ := shows_get hs hm
  obtain ⟨b, rfl⟩ := is_map (h.vkind m c hc) hdc
  obtain ⟨es, hes⟩ := h.vkind m _ hc
  obtain ⟨ms', hms, hf⟩ := denotes_map_inv hes hdc
  cases hms
  have hbk := h.bkind b _ hes
  have hstart : lookup s m kb = (match CM.mfind (ltKey s) kb es with
      | none => .ok (newVar s .none)
      | some c => do
        let s ← addRefs s c.refs
        .ok (newVar s c)) := by
    show (getMap s m >>= fun b => _) = _
    rw [getMap_of hc, res_bind_ok]
    show (getTable s b >>= fun b => _) = _
    rw [getTable_of hes]; rfl
  rw [hstart, ltKey_eq, mfind_eq (f := txt (cont s)) kb es hbk.2]
  have ht := table_find (D := Denotes s) (f := txt (cont s)) hf (fun t => decide (t = txt (cont s) kb))
  unfold mapLookup
  cases hq : es.find? (fun e => decide (txt (cont s) e.1 = txt (cont s) kb)) with
  | none =>
    rw [hq] at ht
    split at ht
    · rename_i q _; cases q
    · rename_i _ q
      rw [q]
      exact plain_new h hs rfl trivial (denotes_of_succ fun n => rfl)
    · exact ht.elim
  | some e =>
    rw [hq] at ht
    split at ht
    · rename_i d md q1 q2
      cases q1
      rw [q2]
      have hin : e ∈ es := List.mem_of_find?_eq_some hq
      obtain ⟨s1, h1, _, i1, w1⟩ := copyNew h hs (hbk.1 e hin).2 (fun j hj => h.live_body hes (List.mem_flatMap.mpr ⟨e, hin, by simp [hj]⟩)) ht.2
      refine ⟨_, ?_, i1, w1⟩
      show (addRefs s e.2.refs >>= fun s => _) = _
      rw [h1]; rfl
    · rename_i q _; cases q
    · exact ht.elim

end Strpp.VM
