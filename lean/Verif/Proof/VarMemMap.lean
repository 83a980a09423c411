import Verif.Proof.VarMemDen
/-! Maps from texts to Variants. -/
set_option linter.unusedSimpArgs false
set_option linter.unusedVariables false
namespace Strpp.VM

open Spec.VM Var

/-! ### The order of texts -/

theorem ltText_iff (a b : List UCS4) : ltText a b = true ↔ TextLt a b := by
  unfold TextLt
  induction a generalizing b with
  | nil => cases b <;> simp [ltText]
  | cons x a ih =>
    cases b with
    | nil => simp [ltText]
    | cons y b =>
      rw [ltText, List.map_cons, List.map_cons, List.cons_lt_cons_iff]
      by_cases h1 : x.toNat < y.toNat
      · simp [h1]
      · by_cases h2 : y.toNat < x.toNat
        · simp [h1, h2]; omega
        · have : x.toNat = y.toNat := by omega
          rw [if_neg h1, if_neg h2, ih]; simp [this]

theorem ltText_eq (a b : List UCS4) : ltText a b = decide (TextLt a b) := by
  by_cases h : TextLt a b
  · rw [decide_eq_true h]; exact (ltText_iff a b).mpr h
  · rw [decide_eq_false h]
    cases h' : ltText a b with
    | false => rfl
    | true => exact absurd ((ltText_iff a b).mp h') h

theorem lt_irrefl (a : List UCS4) : ltText a a = false := by
  induction a with
  | nil => rfl
  | cons x a ih => simp [ltText, ih]

theorem lt_trans : ∀ {a b c : List UCS4}, ltText a b = true → ltText b c = true → ltText a c = true := by
  intro a b c h1 h2
  rw [ltText_iff] at *
  exact List.lt_trans h1 h2

theorem lt_total : ∀ {a b : List UCS4}, ltText a b = false → ltText b a = false → a = b := by
  intro a
  induction a with
  | nil => intro b h1 h2; cases b with
    | nil => rfl
    | cons y b => simp [ltText] at h1
  | cons x a ih =>
    intro b h1 h2
    cases b with
    | nil => simp [ltText] at h2
    | cons y b =>
      rw [ltText] at h1 h2
      by_cases e1 : x.toNat < y.toNat
      · simp [e1] at h1
      · by_cases e2 : y.toNat < x.toNat
        · simp [e2] at h2
        · rw [if_neg e1, if_neg e2] at h1
          rw [if_neg e2, if_neg e1] at h2
          rw [ih h1 h2, show x = y from BitVec.eq_of_toNat_eq (by omega)]

theorem lt_asymm {a b : List UCS4} (h : ltText a b = true) : ltText b a = false := by
  cases h' : ltText b a with
  | false => rfl
  | true => have := lt_trans h h'; rw [lt_irrefl] at this; cases this

theorem lt_ne {a b : List UCS4} (h : ltText a b = true) : a ≠ b := by
  intro e; subst e; rw [lt_irrefl] at h; cases h

/-! ### std::map on keys compared by their texts -/

section
variable {V : Type} (f : Nat → List UCS4)

/-- sorted by text -/
def SortedBy (m : List (Nat × V)) : Prop := m.Pairwise (fun e e' => ltText (f e.1) (f e'.1) = true)

variable {f}

theorem filter_none {m : List (Nat × V)} {p : Nat × V → Bool} (h : ∀ e ∈ m, p e = false) : m.filter p = [] := by
  rw [List.filter_eq_nil_iff]; intro e he; simp [h e he]

theorem filter_all {m : List (Nat × V)} {p : Nat × V → Bool} (h : ∀ e ∈ m, p e = true) : m.filter p = m := by
  rw [List.filter_eq_self]; exact h

theorem mfind_eq (k : Nat) (m : List (Nat × V)) (hs : SortedBy f m) :
    CM.mfind (fun a b => ltText (f a) (f b)) k m = (m.find? (fun e => decide (f e.1 = f k))).map (·.2) := by
  induction m with
  | nil => rfl
  | cons e m ih =>
    obtain ⟨k', v⟩ := e
    obtain ⟨h1, h2⟩ := List.pairwise_cons.mp hs
    rw [CM.mfind]
    by_cases hl : ltText (f k') (f k) = true
    · rw [if_pos hl, ih h2, List.find?_cons, decide_eq_false (lt_ne hl)]
    · rw [if_neg hl]
      by_cases hg : ltText (f k) (f k') = true
      · rw [if_pos hg, List.find?_cons, decide_eq_false (Ne.symm (lt_ne hg))]
        have : m.find? (fun e => decide (f e.1 = f k)) = none := by
          rw [List.find?_eq_none]
          intro e he
          have := lt_trans hg (h1 e he)
          simp [Ne.symm (lt_ne this)]
        rw [this]; rfl
      · rw [if_neg hg, List.find?_cons, decide_eq_true (lt_total (by simpa using hl) (by simpa using hg))]; rfl

theorem minsert_eq (k : Nat) (x : V) (m : List (Nat × V)) (hs : SortedBy f m) :
    CM.minsert (fun a b => ltText (f a) (f b)) k x m =
      if m.any (fun e => decide (f e.1 = f k)) then m
      else m.filter (fun e => ltText (f e.1) (f k)) ++ (k, x) :: m.filter (fun e => ltText (f k) (f e.1)) := by
  induction m with
  | nil => rfl
  | cons e m ih =>
    obtain ⟨k', v⟩ := e
    obtain ⟨h1, h2⟩ := List.pairwise_cons.mp hs
    rw [CM.minsert]
    by_cases hl : ltText (f k') (f k) = true
    · rw [if_pos hl, ih h2, List.any_cons, decide_eq_false (lt_ne hl), Bool.false_or]
      by_cases ha : m.any (fun e => decide (f e.1 = f k)) = true
      · rw [if_pos ha, if_pos ha]
      · rw [if_neg ha, if_neg ha]
        simp [List.filter_cons, hl, lt_asymm hl]
    · rw [if_neg hl]
      by_cases hg : ltText (f k) (f k') = true
      · rw [if_pos hg]
        have hany : ((k', v) :: m).any (fun e => decide (f e.1 = f k)) = false := by
          rw [List.any_eq_false]
          intro e he
          rcases List.mem_cons.mp he with rfl | he
          · simp [Ne.symm (lt_ne hg)]
          · simp [Ne.symm (lt_ne (lt_trans hg (h1 e he)))]
        rw [hany, if_neg (by simp), filter_none, filter_all]
        · rfl
        · intro e he
          rcases List.mem_cons.mp he with rfl | he
          · exact hg
          · exact lt_trans hg (h1 e he)
        · intro e he
          rcases List.mem_cons.mp he with rfl | he
          · exact lt_asymm hg
          · exact lt_asymm (lt_trans hg (h1 e he))
      · rw [if_neg hg]
        have : f k' = f k := lt_total (by simpa using hl) (by simpa using hg)
        simp [this]

theorem merase_eq (k : Nat) (m : List (Nat × V)) (hs : SortedBy f m) :
    CM.merase (fun a b => ltText (f a) (f b)) k m = m.filter (fun e => decide (f e.1 ≠ f k)) := by
  induction m with
  | nil => rfl
  | cons e m ih =>
    obtain ⟨k', v⟩ := e
    obtain ⟨h1, h2⟩ := List.pairwise_cons.mp hs
    rw [CM.merase]
    by_cases hl : ltText (f k') (f k) = true
    · rw [if_pos hl, ih h2, List.filter_cons, if_pos (by simp [lt_ne hl])]
    · rw [if_neg hl]
      by_cases hg : ltText (f k) (f k') = true
      · rw [if_pos hg, filter_all]
        intro e he
        rcases List.mem_cons.mp he with rfl | he
        · simp [Ne.symm (lt_ne hg)]
        · simp [Ne.symm (lt_ne (lt_trans hg (h1 e he)))]
      · rw [if_neg hg]
        have e0 : f k' = f k := lt_total (by simpa using hl) (by simpa using hg)
        rw [List.filter_cons, if_neg (by simp [e0]), filter_all]
        intro e he
        have := h1 e he
        simp only [e0] at this
        simp [Ne.symm (lt_ne this)]

theorem minsert_sorted (k : Nat) (x : V) (m : List (Nat × V)) (hs : SortedBy f m) :
    SortedBy f (CM.minsert (fun a b => ltText (f a) (f b)) k x m) := by
  rw [minsert_eq k x m hs]
  split
  · exact hs
  · unfold SortedBy
    rw [List.pairwise_append]
    refine ⟨hs.filter _, ?_, ?_⟩
    · rw [List.pairwise_cons]
      refine ⟨fun e he => ?_, hs.filter _⟩
      exact (List.mem_filter.mp he).2
    · intro e he e' he'
      have h1 : ltText (f e.1) (f k) = true := (List.mem_filter.mp he).2
      rcases List.mem_cons.mp he' with rfl | he'
      · exact h1
      · exact lt_trans h1 (List.mem_filter.mp he').2

theorem minsert_mem (k : Nat) (x : V) (m : List (Nat × V)) {lt : Nat → Nat → Bool} : ∀ e ∈ CM.minsert lt k x m, e = (k, x) ∨ e ∈ m := by
  induction m with
  | nil => intro e he; simp [CM.minsert] at he; exact .inl he
  | cons e m ih =>
    obtain ⟨k', v⟩ := e
    intro e he
    rw [CM.minsert] at he
    split at he
    · rcases List.mem_cons.mp he with rfl | he
      · exact .inr (by simp)
      · rcases ih e he with h | h
        · exact .inl h
        · exact .inr (by simp [h])
    · split at he
      · rcases List.mem_cons.mp he with rfl | he
        · exact .inl rfl
        · exact .inr he
      · exact .inr he

/-- the number of references in the new entries -/
theorem minsert_count (k : Nat) (x : V) (m : List (Nat × V)) {lt : Nat → Nat → Bool} (g : Nat × V → List Nat)
    (h : CM.mfind lt k m = none) (j : Nat) : ((CM.minsert lt k x m).flatMap g).count j = (g (k, x)).count j + (m.flatMap g).count j := by
  induction m with
  | nil => simp [CM.minsert]
  | cons e m ih =>
    obtain ⟨k', v⟩ := e
    rw [CM.mfind] at h
    rw [CM.minsert]
    split at h
    · rename_i hl
      rw [if_pos hl]
      simp [List.count_append, ih h]; omega
    · rename_i hl
      rw [if_neg hl]
      split at h
      · rename_i hg
        rw [if_pos hg]; simp [List.count_append]
      · cases h

end

/-! ### Tables in memory -/

theorem kindOk_table {k k' : Nat → Option Content} {b : Nat} {es es' : List (Nat × Cell)}
    (hne : ∀ i, i ≠ b → k' i = k i) (hb : k b = some (.table es)) (hb' : k' b = some (.table es'))
    {c : Cell} (hk : kindOk k c) : kindOk k' c := by
  cases c with
  | string i =>
    obtain ⟨t, ht⟩ := hk
    have : i ≠ b := by intro e; subst e; rw [hb] at ht; cases ht
    exact ⟨t, by rw [hne i this]; exact ht⟩
  | strVarMap i =>
    by_cases e : i = b
    · subst e; exact ⟨es', hb'⟩
    · obtain ⟨t, ht⟩ := hk
      exact ⟨t, by rw [hne i e]; exact ht⟩
  | varArray a =>
    obtain ⟨body, off, n⟩ := a
    cases body with
    | none => exact hk
    | some i =>
      obtain ⟨h0, m, n', hm, hle⟩ := hk
      have : i ≠ b := by intro e; subst e; rw [hb] at hm; cases hm
      exact ⟨h0, m, n', by rw [hne i this]; exact hm, hle⟩
  | _ => trivial

theorem txt_table {k k' : Nat → Option Content} {b : Nat} {es es' : List (Nat × Cell)}
    (hne : ∀ i, i ≠ b → k' i = k i) (hb : k b = some (.table es)) (hb' : k' b = some (.table es')) : txt k' = txt k := by
  funext i
  by_cases e : i = b
  · subst e; unfold txt; rw [hb, hb']
  · exact txt_congr (hne i e)

theorem contOk_table {k k' : Nat → Option Content} {b : Nat} {es es' : List (Nat × Cell)}
    (hne : ∀ i, i ≠ b → k' i = k i) (hb : k b = some (.table es)) (hb' : k' b = some (.table es'))
    {x : Content} (hk : contOk k x) : contOk k' x := by
  cases x with
  | text t => trivial
  | cells m n => exact ⟨hk.1, fun c hc => kindOk_table hne hb hb' (hk.2 c hc)⟩
  | table fs =>
    refine ⟨fun e he => ⟨kindOk_table hne hb hb' (hk.1 e he).1, kindOk_table hne hb hb' (hk.1 e he).2⟩, ?_⟩
    rw [txt_table hne hb hb']; exact hk.2

theorem getTable_of {s : State} {b : Nat} {es : List (Nat × Cell)} (h : cont s b = some (.table es)) : getTable s b = .ok es := by
  obtain ⟨x, hx, hc, _⟩ := body_of_cont h
  show (getBody s b >>= fun x => _) = _
  rw [getBody_of hx, res_bind_ok, hc]

theorem setTable_inv {s : State} {T T' : List Nat} {L : Nat → Nat} (h : Inv s T L) {b : Nat} {es : List (Nat × Cell)}
    (hb : cont s b = some (.table es)) (es' : List (Nat × Cell))
    (hk : ∀ e ∈ es', kindOk (cont s) (.string e.1) ∧ kindOk (cont s) e.2) (hso : SortedBy (txt (cont s)) es')
    (hno : NoIn s b) (hmb : ∀ e ∈ es', b ∉ entryRefs e)
    (hT : ∀ j, T'.count j + (es'.flatMap entryRefs).count j = T.count j + (es.flatMap entryRefs).count j) :
    ∃ s', setTable s b es' = .ok s' ∧ Inv s' T' L ∧ NoIn s' b ∧ cont s' b = some (.table es') ∧
      (∀ i, i ≠ b → cont s' i = cont s i) ∧ s'.vars = s.vars ∧ s'.bodies.length = s.bodies.length := by
  obtain ⟨x, hx, hc, _⟩ := body_of_cont hb
  have hcont := cont_setBody hx { x with content := .table es' }
  have hb' : cont (setBody s b { x with content := .table es' }) b = some (.table es') := by rw [hcont]; simp
  have hne : ∀ i, i ≠ b → cont (setBody s b { x with content := .table es' }) i = cont s i := by
    intro i hi; rw [hcont]; simp [hi]
  have hmono := fun c hk => kindOk_table (c := c) hne hb hb' hk
  obtain ⟨i1, n1⟩ := setContent_inv h hx (.table es') hmono (fun z hz => contOk_table hne hb hb' hz)
    ⟨fun e he => ⟨hmono _ (hk e he).1, hmono _ (hk e he).2⟩, by rw [txt_table hne hb hb']; exact hso⟩ hno
    (by
      intro hin
      obtain ⟨c, hcm, hcb⟩ := List.mem_flatMap.mp hin
      exact hmb c hcm hcb)
    (T' := T') (by rw [hc]; exact hT)
  refine ⟨_, ?_, i1, n1, hb', hne, rfl, length_setBody _ _ _⟩
  show (getBody s b >>= fun x => _) = _
  rw [getBody_of hx]; rfl

theorem noIn_table {s : State} {b : Nat} (hno : NoIn s b) {es : List (Nat × Cell)} {i : Nat} (hb : cont s i = some (.table es)) :
    ∀ e ∈ es, b ∉ entryRefs e :=
  fun e he hin => hno i _ hb (List.mem_flatMap.mpr ⟨e, he, hin⟩)

theorem ltKey_eq (s : State) : ltKey s = fun a b => ltText (txt (cont s) a) (txt (cont s) b) := by
  funext a b; unfold ltKey; rw [textOf_eq, textOf_eq]

/-- The entries after an insertion -/
def inserted (f : Nat → List UCS4) (e : Nat × Cell) (es : List (Nat × Cell)) : List (Nat × Cell) :=
  if es.any (fun d => decide (f d.1 = f e.1)) then es
  else es.filter (fun d => ltText (f d.1) (f e.1)) ++ e :: es.filter (fun d => ltText (f e.1) (f d.1))

theorem insertEntry_inv {s : State} {T : List Nat} {L : Nat → Nat} (h : Inv s T L) {b : Nat} {es : List (Nat × Cell)}
    (hb : cont s b = some (.table es)) {e : Nat × Cell} (hk : kindOk (cont s) (.string e.1) ∧ kindOk (cont s) e.2)
    (hl : ∀ j ∈ entryRefs e, ∃ x, cont s j = some x) (hno : NoIn s b) (heb : b ∉ entryRefs e) :
    ∃ s', insertEntry s b e = .ok s' ∧ Inv s' T L ∧ NoIn s' b ∧ cont s' b = some (.table (inserted (txt (cont s)) e es)) ∧
      (∀ i, i ≠ b → cont s' i = cont s i) ∧ s'.vars = s.vars ∧ s'.bodies.length = s.bodies.length := by
  have hbk := h.bkind b _ hb
  have hso : SortedBy (txt (cont s)) es := hbk.2
  have hstart : insertEntry s b e = (match CM.mfind (ltKey s) e.1 es with
      | some _ => .ok s
      | none => do
        let s ← addRefs s (entryRefs e)
        setTable s b (CM.minsert (ltKey s) e.1 e.2 es)) := by
    show (getTable s b >>= fun es => _) = _
    rw [getTable_of hb]; rfl
  rw [hstart]
  have hfind := mfind_eq (f := txt (cont s)) e.1 es hso
  have hins := minsert_eq (f := txt (cont s)) e.1 e.2 es hso
  rw [← ltKey_eq] at hfind hins
  cases hf : CM.mfind (ltKey s) e.1 es with
  | some c =>
    have hany : es.any (fun d => decide (txt (cont s) d.1 = txt (cont s) e.1)) = true := by
      rw [hf] at hfind
      cases hq : es.find? (fun d => decide (txt (cont s) d.1 = txt (cont s) e.1)) with
      | none => rw [hq] at hfind; cases hfind
      | some d =>
        rw [List.any_eq_true]
        refine ⟨d, List.mem_of_find?_eq_some hq, ?_⟩
        have hq' := List.find?_some (p := fun d : Nat × Cell => decide (txt (cont s) d.1 = txt (cont s) e.1)) hq
        exact hq'
    refine ⟨s, rfl, h, hno, ?_, fun _ _ => rfl, rfl, rfl⟩
    unfold inserted; rw [if_pos hany]; exact hb
  | none =>
    obtain ⟨s1, h1, i1, c1⟩ := addRefs_inv h (entryRefs e) hl
    have f1 : cont s1 = cont s := funext c1.same
    have hsor := minsert_sorted (f := txt (cont s)) e.1 e.2 es hso
    rw [← ltKey_eq] at hsor
    obtain ⟨s2, h2, i2, n2, b2, e2, v2, l2⟩ := setTable_inv i1 (b := b) (es := es) (by rw [f1]; exact hb) (CM.minsert (ltKey s) e.1 e.2 es)
      (by
        intro d hd
        rw [f1]
        rcases minsert_mem _ _ _ d hd with rfl | hd
        · exact hk
        · exact hbk.1 d hd)
      (by rw [f1]; exact hsor)
      (by intro j x hx; rw [f1] at hx; exact hno j x hx)
      (by
        intro d hd
        rcases minsert_mem _ _ _ d hd with rfl | hd
        · exact heb
        · exact noIn_table hno hb d hd)
      (T' := T)
      (by
        intro j
        rw [minsert_count _ _ _ _ hf, List.count_append]
        have : entryRefs (e.1, e.2) = entryRefs e := rfl
        rw [this]; omega)
    refine ⟨s2, ?_, i2, n2, ?_, ?_, v2.trans c1.vars, l2.trans c1.length⟩
    · show (addRefs s (entryRefs e) >>= fun s => setTable s b (CM.minsert (ltKey s) e.1 e.2 es)) = _
      rw [h1, res_bind_ok]
      have : ltKey s1 = ltKey s := by rw [ltKey_eq, ltKey_eq, f1]
      rw [this]; exact h2
    · rw [b2, hins]; rfl
    · intro i hi; rw [e2 i hi, f1]

theorem insertEntries_inv {L : Nat → Nat} {T : List Nat} {b : Nat} (es : List (Nat × Cell)) :
    ∀ {s : State} (h : Inv s T L) {done : List (Nat × Cell)}, cont s b = some (.table done) → SortedBy (txt (cont s)) (done ++ es) →
      (∀ e ∈ es, kindOk (cont s) (.string e.1) ∧ kindOk (cont s) e.2 ∧ b ∉ entryRefs e ∧ ∀ j ∈ entryRefs e, ∃ x, cont s j = some x) →
      NoIn s b →
    ∃ s', insertEntries s b es = .ok s' ∧ Inv s' T L ∧ NoIn s' b ∧ cont s' b = some (.table (done ++ es)) ∧
      (∀ i, i ≠ b → cont s' i = cont s i) ∧ s'.vars = s.vars ∧ s'.bodies.length = s.bodies.length := by
  induction es with
  | nil => intro s h done hb _ _ hno; exact ⟨s, rfl, h, hno, by simpa using hb, fun _ _ => rfl, rfl, rfl⟩
  | cons e es ih =>
    intro s h done hb hso hes hno
    obtain ⟨hk1, hk2, heb, hl⟩ := hes e (by simp)
    obtain ⟨s1, h1, i1, n1, b1, e1, v1, l1⟩ := insertEntry_inv h hb ⟨hk1, hk2⟩ hl hno heb
    have hlt : ∀ d ∈ done, ltText (txt (cont s) d.1) (txt (cont s) e.1) = true := by
      intro d hd
      exact (List.pairwise_append.mp hso).2.2 d hd e (by simp)
    have hins : inserted (txt (cont s)) e done = done ++ [e] := by
      unfold inserted
      have hany : done.any (fun d => decide (txt (cont s) d.1 = txt (cont s) e.1)) = false := by
        rw [List.any_eq_false]; intro d hd; simp [lt_ne (hlt d hd)]
      rw [hany, if_neg (by simp), filter_all hlt, filter_none (fun d hd => lt_asymm (hlt d hd))]
    rw [hins] at b1
    have ht : txt (cont s1) = txt (cont s) := txt_table e1 hb b1
    obtain ⟨s2, h2, i2, n2, b2, e2, v2, l2⟩ := ih i1 b1 (by rw [ht]; simpa using hso) (by
      intro d hd
      obtain ⟨g1, g2, g3, g4⟩ := hes d (by simp [hd])
      refine ⟨kindOk_table e1 hb b1 g1, kindOk_table e1 hb b1 g2, g3, fun j hj => ?_⟩
      obtain ⟨x, hx⟩ := g4 j hj
      exact ⟨x, by rw [e1 j (by intro e; subst e; exact g3 hj)]; exact hx⟩) n1
    refine ⟨s2, ?_, i2, n2, by simpa using b2, fun i hi => by rw [e2 i hi, e1 i hi], v2.trans v1, l2.trans l1⟩
    show (insertEntry s b e >>= fun s => insertEntries s b es) = _
    rw [h1]; exact h2

/-- variable `v` has a map's body of its own -/
structure OwnedMap (s : State) (v b : Nat) (es : List (Nat × Cell)) : Prop where
  var : s.vars[v]? = some (some (.strVarMap b))
  cont : VM.cont s b = some (.table es)
  noIn : NoIn s b
  cnt : VM.cnt s b = 1

theorem getMap_of {s : State} {v b : Nat} (h : s.vars[v]? = some (some (.strVarMap b))) : getMap s v = .ok b := by
  show (getVar s v >>= fun c => _) = _
  rw [getVar_of h]; rfl

theorem unshareMap_inv {s : State} {T : List Nat} {L : Nat → Nat} (h : Inv s T L) {v b0 : Nat} {es : List (Nat × Cell)}
    (hv : s.vars[v]? = some (some (.strVarMap b0))) (hm : cont s b0 = some (.table es)) :
    ∃ s' b, unshareMap s v = .ok s' ∧ Inv s' T L ∧ OwnedMap s' v b es ∧
      s'.vars = s.vars.set v (some (.strVarMap b)) ∧ (∀ i x, i ≠ b → cont s' i = some x → cont s i = some x) ∧
      (∀ (w : Nat) c, w ≠ v → s.vars[w]? = some (some c) → b ∉ c.refs) ∧ txt (cont s) b = [] ∧ T.count b = 0 := by
  have hlt := (List.getElem?_eq_some_iff.mp hv).1
  obtain ⟨x, hx, _, hxc⟩ := body_of_cont hm
  have hstart : unshareMap s v = (if x.count ≤ 1 then .ok s
      else do
        let s' ← insertEntries (newBody s (.table [])) s.bodies.length es
        release (setVar s' v (.strVarMap s.bodies.length)) [b0]) := by
    show (getMap s v >>= fun b => _) = _
    rw [getMap_of hv, res_bind_ok]
    show (getBody s b0 >>= fun x => _) = _
    rw [getBody_of hx, res_bind_ok]
    split
    · rfl
    · show (getTable s b0 >>= fun es => _) = _
      rw [getTable_of hm]; rfl
  rw [hstart]
  have hbk := h.bkind b0 _ hm
  by_cases hc : x.count ≤ 1
  · rw [if_pos hc]
    have hcb := h.cnt b0
    have hvo := vocc_pos hv (b := b0) (by simp [Cell.refs])
    refine ⟨s, b0, rfl, h, ⟨hv, hm, ?_, by omega⟩, ?_, fun i x _ hx => hx, ?_, ?_, by omega⟩
    · intro i y hi hin
      have := bocc_pos hi hin
      omega
    · apply List.ext_getElem?
      intro i
      rw [List.getElem?_set]
      split
      · rename_i e; subst e; simp [hlt]; rw [List.getElem?_eq_getElem hlt] at hv; simpa using hv
      · rfl
    · intro w c hw hwv hin
      have h2 := vocc_set hv none b0
      have h3 : 0 < vocc { s with vars := s.vars.set v none } b0 :=
        vocc_pos (s := { s with vars := s.vars.set v none }) (v := w) (c := c)
          (by show (s.vars.set v none)[w]? = _; rw [List.getElem?_set]; simp [Ne.symm hw, hwv]) hin
      simp [varRefs, Cell.refs] at h2
      omega
    · unfold txt; rw [hm]
  · rw [if_neg hc]
    obtain ⟨i1, n1, b1, e1⟩ := newBody_inv h (.table []) rfl ⟨by simp, List.Pairwise.nil⟩
    have hold : ∀ i x, cont s i = some x → i ≠ s.bodies.length := fun i x hx e => by rw [e, cont_fresh] at hx; cases hx
    have ht : txt (cont (newBody s (.table []))) = txt (cont s) := by
      funext i
      by_cases e : i = s.bodies.length
      · subst e; unfold txt; rw [b1, cont_fresh]
      · exact txt_congr (e1 i e)
    obtain ⟨s2, h2, i2, n2, b2, e2, v2, l2⟩ := insertEntries_inv es i1 b1 (by rw [ht, List.nil_append]; exact hbk.2) (by
      intro e he
      have hlive : ∀ j ∈ entryRefs e, ∃ x, cont s j = some x := fun j hj => h.live_body hm (List.mem_flatMap.mpr ⟨e, he, hj⟩)
      have hne : ∀ j ∈ entryRefs e, j ≠ s.bodies.length := fun j hj => by obtain ⟨y, hy⟩ := hlive j hj; exact hold j y hy
      refine ⟨kindOk_congr (fun j hj => e1 j (hne j ?_)) (hbk.1 e he).1, kindOk_congr (fun j hj => e1 j (hne j ?_)) (hbk.1 e he).2,
        fun hin => hne _ hin rfl, fun j hj => ?_⟩
      · simp [Cell.refs] at hj; subst hj; simp [entryRefs]
      · simp [entryRefs, hj]
      · obtain ⟨y, hy⟩ := hlive j hj
        exact ⟨y, by rw [e1 j (hne j hj)]; exact hy⟩) n1
    simp at b2
    have hv2 : s2.vars[v]? = some (some (.strVarMap b0)) := by rw [v2]; exact hv
    have i3 := setVar_inv i2 hv2 (.strVarMap s.bodies.length) ⟨es, b2⟩ (T' := [b0] ++ T) (by
      intro j
      have e1 : (Cell.strVarMap s.bodies.length).refs = [s.bodies.length] := rfl
      have e2 : (Cell.strVarMap b0).refs = [b0] := rfl
      rw [e1, e2, List.count_append, List.count_cons (l := T), List.count_cons (l := []) (b := s.bodies.length)]; simp; omega)
    obtain ⟨s4, h4, i4, k4⟩ := release_inv [b0] i3
    have hvars : s4.vars = s.vars.set v (some (.strVarMap s.bodies.length)) := by
      rw [k4.vars]; show s2.vars.set v _ = _; rw [v2]; rfl
    have hv4 : s4.vars[v]? = some (some (.strVarMap s.bodies.length)) := by
      rw [hvars]; simp [List.getElem?_set, hlt]
    obtain ⟨x4, hx4⟩ := i4.live_var hv4 (b := s.bodies.length) (by simp [Cell.refs])
    have b4 : cont s4 s.bodies.length = some (.table es) := by rw [k4.eq hx4]; exact b2
    have n4 : NoIn s4 s.bodies.length := k4.noIn n2
    obtain ⟨f1, f2, f3, f4⟩ := h.fresh
    have hvo4 : vocc s4 s.bodies.length = 1 := by
      have e1 : vocc s4 s.bodies.length = vocc { s with vars := s.vars.set v (some (.strVarMap s.bodies.length)) } s.bodies.length := by
        unfold vocc; rw [hvars]
      have e2 := vocc_set hv (some (.strVarMap s.bodies.length)) s.bodies.length
      have hb0 : b0 ≠ s.bodies.length := hold b0 _ hm
      have e3 : (varRefs (some (Cell.strVarMap b0))).count s.bodies.length = 0 := List.count_eq_zero.mpr (by
        simp [varRefs, Cell.refs, Ne.symm hb0])
      have e4 : (varRefs (some (Cell.strVarMap s.bodies.length))).count s.bodies.length = 1 := by simp [varRefs, Cell.refs]
      omega
    refine ⟨s4, s.bodies.length, ?_, i4, ⟨hv4, b4, n4, ?_⟩, hvars, ?_, ?_, ?_, f3⟩
    · show (insertEntries (newBody s (.table [])) s.bodies.length es >>= fun s' => _) = _
      rw [h2, res_bind_ok]; exact h4
    · have := i4.cnt s.bodies.length
      rw [hvo4, bocc_zero n4, f3, f4] at this
      exact this
    · intro i x hi hx
      have := k4.same i x hx
      have e : cont (setVar s2 v (.strVarMap s.bodies.length)) i = cont s2 i := rfl
      rw [e, e2 i hi, e1 i hi] at this
      exact this
    · intro w c hw hwc hin
      obtain ⟨x, hx⟩ := h.live_var hwc hin
      rw [cont_fresh] at hx; cases hx
    · unfold txt; rw [cont_fresh]

end Strpp.VM
