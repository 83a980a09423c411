import Verif.Proof.VarMem
/-! Arrays of Variants: assignment of an element, growth, insertion. -/
set_option linter.unusedSimpArgs false
set_option linter.unusedVariables false
namespace Strpp.VM

theorem le_sum {l : List Nat} {a : Nat} (h : a ∈ l) : a ≤ l.sum := by
  induction l with
  | nil => simp at h
  | cons b l ih =>
    simp only [List.sum_cons]
    rcases List.mem_cons.mp h with rfl | h
    · omega
    · have := ih h; omega

/-- no body refers to `b` -/
def NoIn (s : State) (b : Nat) : Prop := ∀ i x, cont s i = some x → b ∉ x.refs

theorem bocc_zero {s : State} {b : Nat} (h : NoIn s b) : bocc s b = 0 := by
  by_contra hne
  obtain ⟨i, o, hi, hb⟩ := mem_of_count_flatMap bodyRefs s.bodies b (by unfold bocc at hne; omega)
  cases o with
  | none => simp [bodyRefs] at hb
  | some x => exact h i _ (cont_of_body hi) hb

/-- only body `b` may have changed, others may have gone -/
structure KeptBut (b : Nat) (s s' : State) : Prop where
  same : ∀ i x, i ≠ b → cont s' i = some x → cont s i = some x
  vars : s'.vars = s.vars

theorem KeptBut.refl (b : Nat) (s : State) : KeptBut b s s := ⟨fun _ _ _ h => h, rfl⟩
theorem KeptBut.trans {b : Nat} {s s' s'' : State} (h : KeptBut b s s') (h' : KeptBut b s' s'') : KeptBut b s s'' :=
  ⟨fun i x hi hx => h.same i x hi (h'.same i x hi hx), h'.vars.trans h.vars⟩
theorem Kept.but {b : Nat} {s s' : State} (h : Kept s s') : KeptBut b s s' := ⟨fun i x _ hx => h.same i x hx, h.vars⟩
theorem KeptBut.eq {b : Nat} {s s' : State} (h : KeptBut b s s') {i : Nat} (hi : i ≠ b) {x : Content} (hx : cont s' i = some x) :
    cont s' i = cont s i := by rw [hx, h.same i x hi hx]

theorem Kept.noIn {s s' : State} (h : Kept s s') {b : Nat} (hn : NoIn s b) : NoIn s' b := fun i x hx => hn i x (h.same i x hx)

theorem KeptBut.kind {b : Nat} {s s' : State} (h : KeptBut b s s') {c : Cell} (hb : b ∉ c.refs)
    (hl : ∀ i ∈ c.refs, ∃ x, cont s' i = some x) (hk : kindOk (cont s) c) : kindOk (cont s') c :=
  kindOk_congr (fun i hi => by
    obtain ⟨x, hx⟩ := hl i hi
    exact h.eq (by intro e; subst e; exact hb hi) hx) hk

theorem vocc_vars {s s' : State} (h : s'.vars = s.vars) (b : Nat) : vocc s' b = vocc s b := by unfold vocc; rw [h]

/-! ### Changing a body's content -/

theorem setContent_inv {s : State} {T T' : List Nat} {L : Nat → Nat} (h : Inv s T L) {b : Nat} {x : Body}
    (hx : s.bodies[b]? = some (some x)) (y : Content)
    (hv : ∀ c, kindOk (cont s) c → kindOk (cont (setBody s b { x with content := y })) c)
    (hc : ∀ z, contOk (cont s) z → contOk (cont (setBody s b { x with content := y })) z)
    (hy : contOk (cont (setBody s b { x with content := y })) y)
    (hno : NoIn s b) (hyb : b ∉ y.refs) (hT : ∀ j, T'.count j + y.refs.count j = T.count j + x.content.refs.count j) :
    Inv (setBody s b { x with content := y }) T' L ∧ NoIn (setBody s b { x with content := y }) b := by
  have hcont := cont_setBody hx { x with content := y }
  refine ⟨⟨?_, ?_, ?_, ?_, ?_, fun i hi => hv (.string i) (h.lostText i hi)⟩, ?_⟩
  · intro i
    rw [cnt_setBody hx]
    have h1 := bocc_setBody hx { x with content := y } i
    have h2 := h.cnt i
    have h3 : vocc (setBody s b { x with content := y }) i = vocc s i := rfl
    have h4 := hT i
    rw [h3]
    simp only [] at h1
    by_cases e : i = b
    · subst e; rw [cnt_of_body hx] at h2; simp; omega
    · simp [e]; omega
  · intro i z hi
    rw [cnt_setBody hx]
    split
    · have := h.pos b _ (cont_of_body hx); rw [cnt_of_body hx] at this; exact this
    · rename_i e; rw [hcont] at hi; simp [e] at hi; exact h.pos i z hi
  · intro v c hv'; exact hv c (h.vkind v c hv')
  · intro i z hi
    have hi' := hi
    rw [hcont] at hi'
    split at hi'
    · cases hi'; exact hy
    · exact hc z (h.bkind i z hi')
  · obtain ⟨r, hr⟩ := h.rank
    refine ⟨fun i => if i = b then 1 + (y.refs.map r).sum else r i, ?_⟩
    intro i z hi b' hb'
    rw [hcont] at hi
    split at hi
    · rename_i e
      cases hi
      have hb'' : b' ≠ b := by intro e; subst e; exact hyb hb'
      simp [e, hb'']
      have : r b' ≤ (y.refs.map r).sum := le_sum (List.mem_map_of_mem hb')
      omega
    · rename_i e
      have hb'' : b' ≠ b := by intro e; subst e; exact hno i z hi hb'
      simp [e, hb'']
      exact hr i z hi b' hb'
  · intro i z hi
    rw [hcont] at hi
    split at hi
    · cases hi; exact hyb
    · exact hno i z hi

theorem getCells_of {s : State} {b : Nat} {mem : List Cell} {num : Nat} (h : cont s b = some (.cells mem num)) :
    getCells s b = .ok (mem, num) := by
  obtain ⟨x, hx, hc, _⟩ := body_of_cont h
  show (getBody s b >>= fun x => _) = _
  rw [getBody_of hx, res_bind_ok, hc]

/-- other elements, in a body no other body refers to -/
theorem setCells_inv {s : State} {T T' : List Nat} {L : Nat → Nat} (h : Inv s T L) {b : Nat} {mem : List Cell} {num : Nat}
    (hb : cont s b = some (.cells mem num)) (mem' : List Cell) (num' : Nat) (hn : num ≤ num') (hn' : num' ≤ mem'.length)
    (hk : ∀ c ∈ mem', kindOk (cont s) c) (hno : NoIn s b) (hmb : ∀ c ∈ mem', b ∉ c.refs)
    (hT : ∀ j, T'.count j + (mem'.flatMap Cell.refs).count j = T.count j + (mem.flatMap Cell.refs).count j) :
    ∃ s', setCells s b mem' num' = .ok s' ∧ Inv s' T' L ∧ NoIn s' b ∧ cont s' b = some (.cells mem' num') ∧
      (∀ i, i ≠ b → cont s' i = cont s i) ∧ s'.vars = s.vars ∧ s'.bodies.length = s.bodies.length := by
  obtain ⟨x, hx, hc, _⟩ := body_of_cont hb
  have hcont := cont_setBody hx { x with content := .cells mem' num' }
  have hb' : cont (setBody s b { x with content := .cells mem' num' }) b = some (.cells mem' num') := by rw [hcont]; simp
  have hne : ∀ i, i ≠ b → cont (setBody s b { x with content := .cells mem' num' }) i = cont s i := by
    intro i hi; rw [hcont]; simp [hi]
  have hmono := fun c hk => kindOk_mono (c := c) hne hb hb' hn hk
  obtain ⟨i1, n1⟩ := setContent_inv h hx (.cells mem' num') hmono (fun z hz => contOk_mono hne hb hb' hn hz)
    ⟨hn', fun c hc => hmono c (hk c hc)⟩ hno
    (by
      intro hin
      obtain ⟨c, hcm, hcb⟩ := List.mem_flatMap.mp hin
      exact hmb c hcm hcb)
    (T' := T') (by rw [hc]; exact hT)
  refine ⟨_, ?_, i1, n1, hb', hne, rfl, length_setBody _ _ _⟩
  show (getBody s b >>= fun x => _) = _
  rw [getBody_of hx]; rfl

theorem noIn_cells {s : State} {b : Nat} (hno : NoIn s b) {mem : List Cell} {num : Nat} {i : Nat} (hb : cont s i = some (.cells mem num)) :
    ∀ c ∈ mem, b ∉ c.refs :=
  fun c hc hin => hno i _ hb (List.mem_flatMap.mpr ⟨c, hc, hin⟩)

theorem setElem_inv {s : State} {T T' : List Nat} {L : Nat → Nat} (h : Inv s T L) {b i : Nat} {mem : List Cell} {num : Nat}
    {old c : Cell} (hb : cont s b = some (.cells mem num)) (hi : mem[i]? = some old) (hk : kindOk (cont s) c) (hno : NoIn s b)
    (hcb : b ∉ c.refs) (hT : ∀ j, T'.count j + c.refs.count j = T.count j + old.refs.count j) :
    ∃ s', setPlace s (.elem b i) c = .ok s' ∧ Inv s' T' L ∧ NoIn s' b ∧ cont s' b = some (.cells (mem.set i c) num) ∧
      (∀ i, i ≠ b → cont s' i = cont s i) ∧ s'.vars = s.vars := by
  have hlt := (List.getElem?_eq_some_iff.mp hi).1
  have hbk := h.bkind b _ hb
  obtain ⟨s', h1, i1, n1, c1, e1, v1, _⟩ := setCells_inv h hb (mem.set i c) num (Nat.le_refl _) (by simpa using hbk.1)
    (by
      intro d hd
      rcases List.mem_or_eq_of_mem_set hd with hd | rfl
      · exact hbk.2 d hd
      · exact hk) hno
    (by
      intro d hd
      rcases List.mem_or_eq_of_mem_set hd with hd | rfl
      · exact noIn_cells hno hb d hd
      · exact hcb)
    (T' := T')
    (by
      intro j
      have h1 := count_flatMap_set Cell.refs mem i c old hi j
      have h2 := hT j
      omega)
  refine ⟨s', ?_, i1, n1, c1, e1, v1⟩
  show (getCells s b >>= fun r => _) = _
  rw [getCells_of hb, res_bind_ok]
  show (Arr.wr mem i c >>= fun m => setCells s b m num) = _
  unfold Arr.wr
  rw [if_pos hlt]; exact h1

theorem assign_elem {s : State} {T : List Nat} {L : Nat → Nat} (h : Inv s T L) {b i : Nat} {mem : List Cell} {num : Nat}
    {c : Cell} (hb : cont s b = some (.cells mem num)) (hi : i < mem.length) (hk : kindOk (cont s) c)
    (hl : ∀ j ∈ c.refs, ∃ x, cont s j = some x) (hno : NoIn s b) (hcb : b ∉ c.refs) (hroot : 0 < vocc s b + T.count b) :
    ∃ s', assign s (.elem b i) c = .ok s' ∧ Inv s' T L ∧ NoIn s' b ∧ cont s' b = some (.cells (mem.set i c) num) ∧
      KeptBut b s s' := by
  obtain ⟨s1, h1, i1, c1⟩ := addRefs_inv h c.refs hl
  have f1 : cont s1 = cont s := funext c1.same
  obtain ⟨old, hold⟩ : ∃ old, mem[i]? = some old := ⟨_, List.getElem?_eq_getElem hi⟩
  have n1 : NoIn s1 b := by intro j x hx; rw [f1] at hx; exact hno j x hx
  obtain ⟨s2, h2, i2, n2, b2, e2, v2⟩ := setElem_inv i1 (T' := old.refs ++ (c.refs ++ T)) (by rw [f1]; exact hb) hold (c := .none)
    trivial n1 (by simp [Cell.refs]) (by intro j; simp [List.count_append, Cell.refs]; omega)
  obtain ⟨s3, h3, i3, k3⟩ := release_inv old.refs i2
  have hr3 : 0 < vocc s3 b + (c.refs ++ T).count b := by
    rw [vocc_vars (k3.vars.trans (v2.trans c1.vars)), List.count_append]; omega
  obtain ⟨x3, hx3⟩ := i3.live (b := b) (by omega)
  have b3 : cont s3 b = some (.cells (mem.set i .none) num) := by rw [k3.eq hx3]; exact b2
  have n3 := k3.noIn n2
  obtain ⟨s4, h4, i4, c4⟩ := addRefs_inv i3 c.refs (fun j hj => i3.live (b := j) (by
    have : 0 < c.refs.count j := List.count_pos_iff.mpr hj
    rw [List.count_append]; omega))
  have f4 : cont s4 = cont s3 := funext c4.same
  have keep13 : KeptBut b s s3 := by
    refine ⟨fun j x hj hx => ?_, k3.vars.trans (v2.trans c1.vars)⟩
    have := k3.same j x hx
    rw [e2 j hj, f1] at this; exact this
  have hk3 : kindOk (cont s3) c := keep13.kind hcb (fun j hj => i3.live (b := j) (by
    have : 0 < c.refs.count j := List.count_pos_iff.mpr hj
    rw [List.count_append]; omega)) hk
  obtain ⟨s5, h5, i5, n5, b5, e5, v5⟩ := setElem_inv i4 (T' := c.refs ++ T) (i := i) (by rw [f4]; exact b3)
    (old := .none) (by simp [List.getElem?_set, hi]) (c := c) (by rw [f4]; exact hk3)
    (by intro j x hx; rw [f4] at hx; exact n3 j x hx) hcb (by intro j; simp [List.count_append, Cell.refs]; omega)
  obtain ⟨s6, h6, i6, k6⟩ := release_inv c.refs i5
  have hvars : s6.vars = s.vars := k6.vars.trans (v5.trans (c4.vars.trans keep13.vars))
  obtain ⟨x6, hx6⟩ := i6.live (b := b) (by rw [vocc_vars hvars]; omega)
  refine ⟨s6, ?_, i6, k6.noIn n5, ?_, ⟨fun j x hj hx => ?_, hvars⟩⟩
  · have hg : getPlace s1 (.elem b i) = .ok old := by
      show (getCells s1 b >>= fun r => rd r.1 i) = _
      rw [getCells_of (by rw [f1]; exact hb)]
      exact rd_eq_ok.mpr hold
    show (addRefs s c.refs >>= fun s => _) = _
    rw [h1, res_bind_ok]; simp only [hg, res_bind_ok, h2, h3, h4, h5, h6]
  · rw [k6.eq hx6, b5, List.set_set]
  · have := k6.same j x hx
    rw [e5 j hj, f4] at this
    exact keep13.same j x hj this

/-! ### What stays -/

/-- held by a variable or a temporary -/
def Root (s : State) (T : List Nat) (i : Nat) : Prop := 0 < vocc s i + T.count i

/-- held by a root, or by a body other than `b` that is one -/
def Backed (s : State) (T : List Nat) (b i : Nat) : Prop :=
  Root s T i ∨ ∃ b2 x, b2 ≠ b ∧ Root s T b2 ∧ cont s b2 = some x ∧ i ∈ x.refs

theorem Backed.live {s : State} {T : List Nat} {L : Nat → Nat} (h : Inv s T L) {b i : Nat} (hb : Backed s T b i) :
    ∃ x, cont s i = some x := by
  rcases hb with hr | ⟨b2, x, _, _, hx, hi⟩
  · exact h.live (by unfold Root at hr; omega)
  · exact h.live_body hx hi

theorem Backed.kept {s s' : State} {T : List Nat} {L : Nat → Nat} (h' : Inv s' T L) {b : Nat} (hk : KeptBut b s s') {i : Nat}
    (hb : Backed s T b i) : Backed s' T b i := by
  rcases hb with hr | ⟨b2, x, hne, hr, hx, hi⟩
  · exact .inl (by unfold Root at hr ⊢; rw [vocc_vars hk.vars]; exact hr)
  · have hr' : Root s' T b2 := by unfold Root at hr ⊢; rw [vocc_vars hk.vars]; exact hr
    obtain ⟨y, hy⟩ := h'.live (b := b2) (by unfold Root at hr'; omega)
    exact .inr ⟨b2, x, hne, hr', by rw [hk.eq hne hy]; exact hx, hi⟩

/-- Writing `cs` over `mem` from `pos` on -/
def over (mem : List Cell) (pos : Nat) : List Cell → List Cell
  | [] => mem
  | c :: cs => over (mem.set pos c) (pos + 1) cs

theorem over_length (mem : List Cell) (cs : List Cell) (pos : Nat) : (over mem pos cs).length = mem.length := by
  induction cs generalizing mem pos with
  | nil => rfl
  | cons c cs ih => simp [over, ih]

theorem over_eq (mem : List Cell) (cs : List Cell) (pos : Nat) (h : pos + cs.length ≤ mem.length) :
    over mem pos cs = mem.take pos ++ cs ++ mem.drop (pos + cs.length) := by
  induction cs generalizing mem pos with
  | nil => simp [over]
  | cons c cs ih =>
    simp at h
    rw [over, ih _ _ (by simp; omega)]
    have h1 : (mem.set pos c).take (pos + 1) = mem.take pos ++ [c] := by
      rw [List.set_eq_take_append_cons_drop, if_pos (by omega)]
      have : (mem.take pos).length = pos := by simp; omega
      rw [List.take_append, this, List.take_of_length_le (by omega)]
      simp
    rw [h1, List.drop_set_of_lt (by omega)]
    simp [List.append_assoc, Nat.add_assoc, Nat.add_comm 1]

theorem fill_inv {L : Nat → Nat} {T : List Nat} {b : Nat} {num : Nat} (cs : List Cell) :
    ∀ {s : State} (h : Inv s T L) {pos : Nat} {mem : List Cell}, cont s b = some (.cells mem num) → pos + cs.length ≤ mem.length →
      (∀ c ∈ cs, kindOk (cont s) c ∧ b ∉ c.refs ∧ ∀ j ∈ c.refs, Backed s T b j) → NoIn s b → 0 < vocc s b + T.count b →
    ∃ s', fill s b pos cs = .ok s' ∧ Inv s' T L ∧ NoIn s' b ∧ cont s' b = some (.cells (over mem pos cs) num) ∧ KeptBut b s s' := by
  induction cs with
  | nil => intro s h pos mem hb hp hcs hno hr; exact ⟨s, rfl, h, hno, hb, KeptBut.refl b s⟩
  | cons c cs ih =>
    intro s h pos mem hb hp hcs hno hr
    simp at hp
    obtain ⟨hk, hcb, hba⟩ := hcs c (by simp)
    obtain ⟨s1, h1, i1, n1, b1, k1⟩ := assign_elem (i := pos) h hb (by omega) hk (fun j hj => (hba j hj).live h) hno hcb hr
    obtain ⟨s2, h2, i2, n2, b2, k2⟩ := ih i1 (pos := pos + 1) b1 (by simp; omega) (by
      intro d hd
      obtain ⟨hk', hdb, hba'⟩ := hcs d (by simp [hd])
      refine ⟨k1.kind hdb (fun j hj => ((hba' j hj).kept i1 k1).live i1) hk', hdb, fun j hj => (hba' j hj).kept i1 k1⟩)
      n1 (by rw [vocc_vars k1.vars]; exact hr)
    refine ⟨s2, ?_, i2, n2, b2, k1.trans k2⟩
    show (assign s (.elem b pos) c >>= fun s => fill s b (pos + 1) cs) = _
    rw [h1]; exact h2

theorem grow_ge (a m : Nat) : m ≤ grow a m := by
  unfold grow
  have : m - 1 ≤ (m - 1) ||| 7 := Nat.left_le_or
  simp only []
  split <;> split <;> omega

theorem refs_replicate_none (n : Nat) : (List.replicate n Cell.none).flatMap Cell.refs = [] := by
  induction n with
  | zero => rfl
  | succ n ih => simp [List.replicate_succ, Cell.refs, ih]

theorem resize_inv {s : State} {T : List Nat} {L : Nat → Nat} (h : Inv s T L) {b : Nat} {mem : List Cell} {num : Nat}
    (hb : cont s b = some (.cells mem num)) (minimum : Nat) (hno : NoIn s b) (hroot : 0 < vocc s b + T.count b) :
    ∃ s' mem', resize s b minimum = .ok s' ∧ Inv s' T L ∧ NoIn s' b ∧ cont s' b = some (.cells mem' num) ∧
      mem'.take num = mem.take num ∧ minimum ≤ mem'.length ∧ KeptBut b s s' := by
  have hbk := h.bkind b _ hb
  have hstart : resize s b minimum = (if minimum ≤ mem.length then .ok s else do
      let kept := mem.take num
      let s ← addRefs s (kept.flatMap Cell.refs)
      let s ← setCells s b (kept ++ List.replicate (grow mem.length minimum - kept.length) .none) num
      release s (mem.flatMap Cell.refs)) := by
    show (getCells s b >>= fun r => _) = _
    rw [getCells_of hb]; rfl
  rw [hstart]
  by_cases hle : minimum ≤ mem.length
  · rw [if_pos hle]
    exact ⟨s, mem, rfl, h, hno, hb, rfl, hle, KeptBut.refl b s⟩
  · rw [if_neg hle]
    have hlen : (mem.take num).length = num := by have := hbk.1; simp; omega
    have hg := grow_ge mem.length minimum
    obtain ⟨s1, h1, i1, c1⟩ := addRefs_inv h ((mem.take num).flatMap Cell.refs) (by
      intro j hj
      obtain ⟨c, hc, hcj⟩ := List.mem_flatMap.mp hj
      exact h.live_body hb (List.mem_flatMap.mpr ⟨c, List.mem_of_mem_take hc, hcj⟩))
    have f1 : cont s1 = cont s := funext c1.same
    obtain ⟨s2, h2, i2, n2, b2, e2, v2, l2⟩ := setCells_inv i1 (b := b) (mem := mem) (num := num) (by rw [f1]; exact hb)
      (mem.take num ++ List.replicate (grow mem.length minimum - (mem.take num).length) .none) num (Nat.le_refl _)
      (by rw [List.length_append, hlen]; omega)
      (by
        intro c hc
        rw [f1]
        rcases List.mem_append.mp hc with hc | hc
        · exact hbk.2 c (List.mem_of_mem_take hc)
        · rw [List.eq_of_mem_replicate hc]; trivial)
      (by intro j x hx; rw [f1] at hx; exact hno j x hx)
      (by
        intro c hc
        rcases List.mem_append.mp hc with hc | hc
        · exact noIn_cells hno hb c (List.mem_of_mem_take hc)
        · rw [List.eq_of_mem_replicate hc]; simp [Cell.refs])
      (T' := mem.flatMap Cell.refs ++ T)
      (by
        intro j
        rw [List.flatMap_append, refs_replicate_none]
        simp [List.count_append]; omega)
    obtain ⟨s3, h3, i3, k3⟩ := release_inv (mem.flatMap Cell.refs) i2
    have hvars : s3.vars = s.vars := k3.vars.trans (v2.trans c1.vars)
    obtain ⟨x3, hx3⟩ := i3.live (b := b) (by rw [vocc_vars hvars]; omega)
    refine ⟨s3, _, ?_, i3, k3.noIn n2, by rw [k3.eq hx3]; exact b2, ?_, ?_, ⟨fun j x hj hx => ?_, hvars⟩⟩
    · show (addRefs s _ >>= fun s => _) = _
      rw [h1, res_bind_ok]
      show (setCells s1 b _ num >>= fun s => _) = _
      rw [h2, res_bind_ok]; exact h3
    · exact List.take_left' hlen
    · have := hbk.1; rw [List.length_append, hlen, List.length_replicate]; omega
    · have := k3.same j x hx
      rw [e2 j hj, f1] at this; exact this

/-! ### New bodies -/

theorem cont_newBody (s : State) (y : Content) (i : Nat) :
    cont (newBody s y) i = if i = s.bodies.length then some y else cont s i := by
  unfold cont newBody
  by_cases e : i = s.bodies.length
  · subst e; simp
  · simp only [e, if_false]
    by_cases hlt : i < s.bodies.length
    · rw [List.getElem?_append_left hlt]
    · rw [List.getElem?_append_right (by omega), List.getElem?_eq_none (by omega : s.bodies.length ≤ i)]
      have : ∃ k, i - s.bodies.length = k + 1 := ⟨i - s.bodies.length - 1, by omega⟩
      obtain ⟨k, hk⟩ := this
      rw [hk]; simp

theorem cnt_newBody (s : State) (y : Content) (i : Nat) :
    cnt (newBody s y) i = if i = s.bodies.length then 1 else cnt s i := by
  unfold cnt newBody
  by_cases e : i = s.bodies.length
  · subst e; simp
  · simp only [e, if_false]
    by_cases hlt : i < s.bodies.length
    · rw [List.getElem?_append_left hlt]
    · rw [List.getElem?_append_right (by omega), List.getElem?_eq_none (by omega : s.bodies.length ≤ i)]
      have : ∃ k, i - s.bodies.length = k + 1 := ⟨i - s.bodies.length - 1, by omega⟩
      obtain ⟨k, hk⟩ := this
      rw [hk]; simp

/-- the next body does not exist yet -/
theorem cont_fresh (s : State) : cont s s.bodies.length = none := by
  unfold cont; rw [List.getElem?_eq_none (Nat.le_refl _)]

theorem Inv.fresh {s : State} {T : List Nat} {L : Nat → Nat} (h : Inv s T L) :
    vocc s s.bodies.length = 0 ∧ bocc s s.bodies.length = 0 ∧ T.count s.bodies.length = 0 ∧ L s.bodies.length = 0 := by
  have := h.cnt s.bodies.length
  have h0 : VM.cnt s s.bodies.length = 0 := by unfold VM.cnt; rw [List.getElem?_eq_none (Nat.le_refl _)]
  omega

theorem newBody_inv {s : State} {T : List Nat} {L : Nat → Nat} (h : Inv s T L) (y : Content) (hy : y.refs = [])
    (hk : contOk (cont s) y) :
    Inv (newBody s y) (s.bodies.length :: T) L ∧ NoIn (newBody s y) s.bodies.length ∧
      cont (newBody s y) s.bodies.length = some y ∧ (∀ i, i ≠ s.bodies.length → cont (newBody s y) i = cont s i) := by
  have hcont := cont_newBody s y
  obtain ⟨f1, f2, f3, f4⟩ := h.fresh
  have hne : ∀ i, i ≠ s.bodies.length → cont (newBody s y) i = cont s i := by intro i hi; rw [hcont]; simp [hi]
  have hb : ∀ i, bocc (newBody s y) i = bocc s i := by
    intro i; unfold bocc newBody; simp [bodyRefs, hy]
  have hlive : ∀ i x, cont s i = some x → i ≠ s.bodies.length := fun i x hx e => by
    rw [e, cont_fresh] at hx; cases hx
  have hno : ∀ i x, cont s i = some x → s.bodies.length ∉ x.refs := by
    intro i x hx hin
    have := bocc_pos hx hin
    omega
  refine ⟨⟨?_, ?_, ?_, ?_, ?_, fun i hi => (h.lostText i hi).imp fun t ht => by rw [hne i (hlive i _ ht)]; exact ht⟩, ?_, by rw [hcont]; simp, hne⟩
  · intro i
    have hv : vocc (newBody s y) i = vocc s i := rfl
    rw [cnt_newBody, hb, hv, List.count_cons]
    have := h.cnt i
    by_cases e : i = s.bodies.length
    · subst e; simp [f1, f2, f3, f4]
    · have hf : (s.bodies.length == i) = false := by simp [Ne.symm e]
      simp [e, hf]; omega
  · intro i x hi
    rw [cnt_newBody]; split
    · omega
    · rename_i e; rw [hne i e] at hi; exact h.pos i x hi
  · intro v c hv
    refine kindOk_congr (fun i hi => hne i ?_) (h.vkind v c hv)
    obtain ⟨x, hx⟩ := h.live_var hv hi
    exact hlive i x hx
  · intro i x hi
    rw [hcont] at hi
    split at hi
    · cases hi
      exact contOk_congr (by intro j hj; rw [hy] at hj; simp at hj) hk
    · refine contOk_congr (fun j hj => hne j ?_) (h.bkind i x hi)
      obtain ⟨z, hz⟩ := h.live_body hi hj
      exact hlive j z hz
  · obtain ⟨r, hr⟩ := h.rank
    refine ⟨r, fun i x hi b' hb' => ?_⟩
    rw [hcont] at hi
    split at hi
    · cases hi; rw [hy] at hb'; simp at hb'
    · exact hr i x hi b' hb'
  · intro i x hi
    rw [hcont] at hi
    split at hi
    · cases hi; rw [hy]; simp
    · exact hno i x hi

/-- A new array's body, with copies of the data -/
theorem newArray_inv {s : State} {T : List Nat} {L : Nat → Nat} (h : Inv s T L) (data : List Cell) (allocate : Nat)
    (hd : ∀ c ∈ data, kindOk (cont s) c ∧ ∀ j ∈ c.refs, Backed s T s.bodies.length j) :
    ∃ s' mem, newArray s data allocate = .ok s' ∧ Inv s' (s.bodies.length :: T) L ∧ NoIn s' s.bodies.length ∧
      cont s' s.bodies.length = some (.cells mem data.length) ∧ mem.take data.length = data ∧
      (allocate ≤ mem.length) ∧ KeptBut s.bodies.length s s' := by
  obtain ⟨i1, n1, b1, e1⟩ := newBody_inv h (.cells [] 0) rfl ⟨by simp, by simp⟩
  have k1 : KeptBut s.bodies.length s (newBody s (.cells [] 0)) := ⟨fun i x hi hx => by rw [← e1 i hi]; exact hx, rfl⟩
  have hroot : ∀ s' : State, 0 < vocc s' s.bodies.length + (s.bodies.length :: T).count s.bodies.length := by
    intro s'; simp; omega
  obtain ⟨s2, mem2, h2, i2, n2, b2, t2, l2, k2⟩ := resize_inv i1 b1 (if allocate < data.length then data.length else allocate) n1 (hroot _)
  have hlen2 : data.length ≤ mem2.length := by
    refine Nat.le_trans ?_ l2
    split <;> omega
  have k12 := k1.trans k2
  have hdata : ∀ c ∈ data, kindOk (cont s2) c ∧ s.bodies.length ∉ c.refs ∧ ∀ j ∈ c.refs, Backed s2 (s.bodies.length :: T) s.bodies.length j := by
    intro c hc
    obtain ⟨hk, hb⟩ := hd c hc
    have hcb : s.bodies.length ∉ c.refs := by
      intro hin
      obtain ⟨x, hx⟩ := (hb _ hin).live h
      rw [cont_fresh] at hx; cases hx
    have hback : ∀ j ∈ c.refs, Backed s2 (s.bodies.length :: T) s.bodies.length j := by
      intro j hj
      refine Backed.kept i2 k12 ?_
      rcases hb j hj with hr | ⟨bb, x, hne, hr, hx, hin⟩
      · exact .inl (by unfold Root at hr ⊢; rw [List.count_cons]; omega)
      · exact .inr ⟨bb, x, hne, by unfold Root at hr ⊢; rw [List.count_cons]; omega, hx, hin⟩
    exact ⟨k12.kind hcb (fun j hj => (hback j hj).live i2) hk, hcb, hback⟩
  obtain ⟨s3, h3, i3, n3, b3, k3⟩ := fill_inv data i2 (pos := 0) b2 (by omega) hdata n2 (hroot _)
  have hov : over mem2 0 data = data ++ mem2.drop data.length := by rw [over_eq _ _ _ (by omega)]; simp
  have hk3 := i3.bkind _ _ b3
  obtain ⟨s4, h4, i4, n4, b4, e4, v4, _⟩ := setCells_inv i3 b3 (over mem2 0 data) data.length (by omega)
    (by rw [over_length]; omega) (fun c hc => hk3.2 c hc) n3 (noIn_cells n3 b3) (T' := s.bodies.length :: T) (fun j => rfl)
  refine ⟨s4, _, ?_, i4, n4, b4, ?_, ?_, ?_⟩
  · show (resize (newBody s (.cells [] 0)) s.bodies.length _ >>= fun s' => _) = _
    rw [h2, res_bind_ok]
    show (fill s2 s.bodies.length 0 data >>= fun s' => _) = _
    rw [h3, res_bind_ok]
    show (getCells s3 s.bodies.length >>= fun r => _) = _
    rw [getCells_of b3, res_bind_ok]; exact h4
  · rw [hov]; simp
  · rw [over_length]; refine Nat.le_trans ?_ l2; split <;> omega
  · refine (k12.trans k3).trans ⟨fun i x hi hx => by rw [← e4 i hi]; exact hx, v4⟩

end Strpp.VM
