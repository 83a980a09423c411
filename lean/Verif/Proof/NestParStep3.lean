import Verif.Proof.NestParStep2
/-! The steps that store and delete: C88. -/
set_option linter.unusedSectionVars false
set_option linter.unusedVariables false
set_option linter.unusedSimpArgs false
namespace Strpp.NestPar
open Spec

theorem fits_all {bs : List Body} : ∀ {cs : List Cell}, (∀ c ∈ cs, ∃ n, (valueAt bs n c).isSome) → ∃ n, ∀ c ∈ cs, (valueAt bs n c).isSome := by
  intro cs
  induction cs with
  | nil => intro _; exact ⟨0, fun c hc => by cases hc⟩
  | cons c cs ih =>
    intro h
    obtain ⟨n, hn⟩ := h c (by simp)
    obtain ⟨m, hm⟩ := ih (fun c hc => h c (by simp [hc]))
    refine ⟨n + m, fun c' hc' => ?_⟩
    rcases List.mem_cons.1 hc' with rfl | hc'
    · obtain ⟨x, hx⟩ := Option.isSome_iff_exists.1 hn
      rw [valueAt_mono n hx (by omega)]; rfl
    · obtain ⟨x, hx⟩ := Option.isSome_iff_exists.1 (hm c' hc')
      rw [valueAt_mono m hx (by omega)]; rfl

/-- a Variant whose reference is to a body that exists has a value -/
theorem Inv.cell_fits {bs vs js} (h : Inv bs vs js) {c : Cell} (hc : ∀ o, c = .ref o → Alive bs o) : ∃ n, (valueAt bs n c).isSome := by
  cases c with
  | num m => exact ⟨0, rfl⟩
  | ref o => exact h.fit o (hc o rfl)

theorem valueAt_ref {bs : List Body} {o n : Nat} {b : Body} (h : bs[o]? = some b) (hl : b.live = true) :
    valueAt bs (n + 1) (.ref o) = (b.kids.mapM (valueAt bs n)).map (.obj b.text) := by
  simp only [valueAt, h, hl, if_true]

theorem step_swap {bs vs v r t rest} {l : Loc} {c : Cell} (h : Inv bs vs (⟨v, r, .swap l c :: t⟩ :: rest)) :
    ∃ bs' vs' more, step bs vs (.swap l c) = .ok (bs', vs', more) ∧ Inv bs' vs' (⟨v, r, more ++ t⟩ :: rest) := by
  have hj := h.jobs _ (List.mem_cons_self ..)
  have hg := hj.good
  simp only at hg
  have hzt : ∀ (old : Cell) (q : Nat), Act.del q ∈ relOf old ++ t ∨ Act.adopt q ∈ relOf old ++ t → Tot bs vs (⟨v, r, .swap l c :: t⟩ :: rest) q = 0 := by
    intro old q h1
    refine h.zero _ (List.mem_cons_self ..) q (h1.imp (fun h => ?_) (fun h => ?_))
    · rcases List.mem_append.1 h with h | h
      · exact absurd rfl ((relOf_feeds h).2.1 q)
      · exact List.mem_cons_of_mem _ h
    · rcases List.mem_append.1 h with h | h
      · exact absurd rfl ((relOf_feeds h).2.2 q)
      · exact List.mem_cons_of_mem _ h
  have hz2 : ∀ (old : Cell) (q : Nat), Act.del q ∈ Act.swap l c :: t ∨ Act.adopt q ∈ Act.swap l c :: t → Act.del q ∈ relOf old ++ t ∨ Act.adopt q ∈ relOf old ++ t := by
    intro old q h1
    rcases h1 with h1 | h1 <;> rcases List.mem_cons.1 h1 with e | h1
    · cases e
    · exact Or.inl (List.mem_append_right _ h1)
    · cases e
    · exact Or.inr (List.mem_append_right _ h1)
  have hO : ∀ (old : Cell) p, Owns (relOf old ++ t) p → Owns t p := by
    intro old p hp
    rcases owns_append.1 hp with hp | hp
    · exact absurd hp relOf_own
    · exact hp
  have hF : ∀ (old : Cell), ∀ x ∈ relOf old ++ t, ∀ o ∈ x.feeds, ¬ Owns (relOf old ++ t) o := by
    intro old x hx o ho hown
    rcases List.mem_append.1 hx with hx | hx
    · rw [(relOf_feeds hx).1] at ho; cases ho
    · exact hj.feed x (List.mem_cons_of_mem _ hx) o ho (hO old o hown).cons
  cases l with
  | var x =>
    obtain ⟨rfl, old, hv⟩ := hg.1
    have hlt := (List.getElem?_eq_some_iff.1 hv).1
    refine ⟨bs, vs.set x (some c), relOf old, ?_, ?_⟩
    · simp only [step, get, hv]; rw [res_bind_ok]; rfl
    have hset : ∀ u, u ≠ x → (vs.set x (some c))[u]? = vs[u]? := fun u hu => List.getElem?_set_ne (fun e => hu e.symm)
    have hself : (vs.set x (some c))[x]? = some (some c) := by rw [List.getElem?_set_self hlt]
    have hcur : curOf (vs.set x (some c)) x = some c := by unfold curOf; rw [hself]; rfl
    refine h.update Nowhere (fun _ => 0) (fun _ h => absurd h id) (fun _ _ => rfl) hset ?_ ?_ ?_ (fun p hp => Or.inl (hO _ p hp).cons) ?_ ?_ ?_ (fun _ h => h) (fun q hq => absurd rfl hq) (fun q _ hq => absurd rfl hq) (fun q hq _ _ => hz2 old q hq) (fun q hq => by have := hzt old q hq; omega) h.fit
    · intro q b' o hq hk
      exact Or.inl (fun hn => hn q b' hq hk)
    · intro o ho
      rw [Holds, hself] at ho
      cases ho
      exact Or.inr ⟨.swap (.var x) (.ref o), by simp, by simp [Act.nodes, Cell.nodes]⟩
    · refine ⟨?_, hj.nr, ?_, hF old⟩
      · simp only
        rw [hcur]
        refine Good.rel ?_ old
        refine Good.frame hg.2.2 (fun p k _ h => h) ?_ ?_ (by simp)
        · rintro w hw ⟨c', hc'⟩
          by_cases hwx : w = x
          · subst hwx; exact ⟨c, hself⟩
          · exact ⟨c', by rw [hset w hwx]; exact hc'⟩
        · intro w hw
          exact hset w (fun e => hj.nr (e ▸ hw))
      · intro p hp
        obtain ⟨h1, h2, h3⟩ := hj.own p (hO _ p hp).cons
        refine ⟨h1, fun u hu => ?_, h3⟩
        apply Classical.byContradiction
        intro hne
        rw [Holds, hset u hne] at hu
        exact hne (h2 u hu)
    · intro p hp
      rcases mentions_append.1 hp with ⟨y, h1, h2⟩ | hp
      · have := relOf_nodes h1 h2
        subst this
        exact Or.inr (Or.inl ⟨x, Or.inr rfl, hv⟩)
      · exact Or.inl hp.cons
    · intro q
      have := V_putV (some c) hv q
      rw [this, W_append, W_relOf, W_cons]
      simp only [Act.w, cntV]
      omega
    · intro q b' hq
      exact ⟨b', hq, by omega, Or.inl rfl⟩
  | kid p k =>
    obtain ⟨⟨b, hb, hk⟩, -⟩ := hg.1
    have hownp : Owns (.swap (.kid p k) c :: t) p := ⟨_, List.mem_cons_self .., rfl⟩
    obtain ⟨⟨b0, hb0, hl⟩, hp2, hp3⟩ := hj.own p hownp
    rw [hb] at hb0; cases hb0
    have hcp : ∀ q, Owns (.swap (.kid p k) c :: t) q → c ≠ .ref q := by
      rintro q hq rfl
      exact hj.feed (.swap (.kid p k) (.ref q)) (by simp) q (by simp [Act.feeds, Cell.nodes]) hq
    have hal : ∀ o, c = .ref o → Alive bs o := by
      rintro o rfl
      refine h.alive ?_
      have h1 := (h.tot_ge o).2.2 _ (List.mem_cons_self ..)
      simp only [W_cons, Act.w, cnt_self] at h1
      have := hg.2.2.nonneg o
      omega
    refine ⟨putB bs (.kid p k) c, vs, relOf b.kids[k], ?_, ?_⟩
    · simp only [step, get]
      rw [body_ok hb hl, res_bind_ok, List.getElem?_eq_getElem hk]
      rfl
    have hself : (putB bs (.kid p k) c)[p]? = some { b with kids := b.kids.set k c } := by rw [putB_get, if_pos rfl, hb]; rfl
    have hother : ∀ q, q ≠ p → (putB bs (.kid p k) c)[q]? = bs[q]? := fun q hq => by rw [putB_get, if_neg (fun e => hq e.symm)]
    have hsame : Same (· = p) bs (putB bs (.kid p k) c) := fun q hq => by rw [hother q hq]
    have hav : Avoids (· = p) bs := by
      intro q b' _ hq p' hp' hm
      subst hp'
      exact hp3 q b' hq hm
    have hkid : ∀ (q : Nat) (b' : Body) (o : Nat), (putB bs (.kid p k) c)[q]? = some b' → Cell.ref o ∈ b'.kids → ¬ NotKid bs o ∨ c = .ref o := by
      intro q b' o hq hm
      by_cases hqp : q = p
      · subst hqp
        rw [hself] at hq
        cases hq
        rcases List.mem_or_eq_of_mem_set hm with h1 | h1
        · exact Or.inl (fun hn => hn _ b hb h1)
        · exact Or.inr h1.symm
      · rw [hother q hqp] at hq
        exact Or.inl (fun hn => hn q b' hq hm)
    have halive : ∀ q, Alive bs q → Alive (putB bs (.kid p k) c) q := by
      rintro q ⟨b', h1, h2⟩
      by_cases hqp : q = p
      · subst hqp; rw [hb] at h1; cases h1; exact ⟨_, hself, h2⟩
      · exact ⟨b', by rw [hother q hqp]; exact h1, h2⟩
    refine h.update (· = p) (fun _ => 0) (fun q hq => by subst hq; exact hownp) hsame (fun _ _ => rfl) ?_ (fun _ h => Or.inl h) ?_ (fun q hq => Or.inl (hO _ q hq).cons) ?_ ?_ ?_ ?_ (fun q hq => absurd rfl hq) (fun q _ hq => absurd rfl hq) (fun q hq _ _ => hz2 _ q hq) (fun q hq => by have := hzt _ q hq; omega) ?_
    · intro q b' o hq hm
      rcases hkid q b' o hq hm with h1 | rfl
      · exact Or.inl h1
      · exact Or.inr ⟨.swap (.kid p k) (.ref o), by simp, by simp [Act.nodes, Cell.nodes]⟩
    · refine ⟨?_, hj.nr, ?_, hF _⟩
      · simp only
        refine Good.rel ?_ _
        refine Good.frame hg.2.2 ?_ (fun _ _ h => h) (fun _ _ => rfl) (by simp)
        rintro q k' - ⟨b', h1, h2⟩
        by_cases hqp : q = p
        · subst hqp; rw [hb] at h1; cases h1
          exact ⟨_, hself, by simpa using h2⟩
        · exact ⟨b', by rw [hother q hqp]; exact h1, h2⟩
      · intro q hq
        obtain ⟨h1, h2, h3⟩ := hj.own q (hO _ q hq).cons
        refine ⟨halive q h1, h2, ?_⟩
        intro q' b' hq' hm
        rcases hkid q' b' q hq' hm with h4 | h4
        · exact h4 h3
        · exact hcp q (hO _ q hq).cons h4
    · intro q hq
      rcases mentions_append.1 hq with ⟨y, h1, h2⟩ | hp
      · have := relOf_nodes h1 h2
        exact Or.inr (Or.inr (fun hn => hn p b hb (by rw [← this]; exact List.getElem_mem hk)))
      · exact Or.inl hp.cons
    · intro q
      have := K_putB (c := c) hb (List.getElem?_eq_getElem hk) q
      rw [this, W_append, W_relOf, W_cons]
      simp only [Act.w]
      omega
    · intro q b' hq
      by_cases hqp : q = p
      · subst hqp
        rw [hself] at hq
        cases hq
        exact ⟨b, hb, by simp only; omega, Or.inl rfl⟩
      · rw [hother q hqp] at hq
        exact ⟨b', hq, by omega, Or.inl rfl⟩
    · intro q hq
      by_cases hqp : q = p
      · subst hqp; rw [hself] at hq; cases hq
      · rw [hother q hqp] at hq; exact hq
    · intro o ho
      by_cases hop : o = p
      · subst hop
        have h1 : ∀ c' ∈ b.kids.set k c, ∃ n, (valueAt (putB bs (.kid o k) c) n c').isSome := by
          intro c' hc'
          have hne : ∀ p, p = o → c' ≠ .ref p := by
            rintro p rfl rfl
            rcases List.mem_or_eq_of_mem_set hc' with h2 | h2
            · exact hp3 p b hb h2
            · exact hcp p hownp h2.symm
          have : ∃ n, (valueAt bs n c').isSome := by
            rcases List.mem_or_eq_of_mem_set hc' with h2 | h2
            · exact h.cell_fits (fun o' ho' => h.alive_kid hb (ho' ▸ h2))
            · subst h2; exact h.cell_fits hal
          obtain ⟨n, hn⟩ := this
          exact ⟨n, by rw [← valueAt_frame hsame hav n hne]; exact hn⟩
        obtain ⟨n, hn⟩ := fits_all h1
        refine ⟨n + 1, ?_⟩
        rw [valueAt_ref hself (by exact hl), Option.isSome_map]
        exact mapM_isSome hn
      · obtain ⟨b', h1, h2⟩ := ho
        rw [hother o hop] at h1
        obtain ⟨n, hn⟩ := h.fit o ⟨b', h1, h2⟩
        exact ⟨n, by rw [← valueAt_frame hsame hav n (by rintro q rfl e; cases e; exact hop rfl)]; exact hn⟩

theorem step_del {bs vs v r t rest} {o : Nat} (h : Inv bs vs (⟨v, r, .del o :: t⟩ :: rest)) :
    ∃ bs' vs' more, step bs vs (.del o) = .ok (bs', vs', more) ∧ Inv bs' vs' (⟨v, r, more ++ t⟩ :: rest) := by
  have hj := h.jobs _ (List.mem_cons_self ..)
  have hg := hj.good
  simp only at hg
  have hmt : ¬ Mentions t o := hg.1
  have howno : Owns (.del o :: t) o := ⟨_, List.mem_cons_self .., rfl⟩
  obtain ⟨⟨b, hb, hl⟩, -, hnk⟩ := hj.own o howno
  have hT0 := h.zero _ (List.mem_cons_self ..) o (Or.inl (List.mem_cons_self ..))
  have hlt := (List.getElem?_eq_some_iff.1 hb).1
  refine ⟨bs.set o { b with live := false, kids := [] }, vs, b.kids.flatMap relOf, ?_, ?_⟩
  · simp only [step]; rw [body_ok hb hl, res_bind_ok]
  have hself : (bs.set o { b with live := false, kids := [] })[o]? = some { b with live := false, kids := [] } := List.getElem?_set_self hlt
  have hother : ∀ q, q ≠ o → (bs.set o { b with live := false, kids := [] })[q]? = bs[q]? := fun q hq => List.getElem?_set_ne (fun e => hq e.symm)
  generalize hbs' : bs.set o { b with live := false, kids := [] } = bs' at hself hother ⊢
  have hsame : Same (· = o) bs bs' := fun q hq => by rw [hother q hq]
  have hav : Avoids (· = o) bs := by
    intro q b' _ hq p' hp' hm
    subst hp'
    exact hnk q b' hq hm
  have hO : ∀ p, Owns (b.kids.flatMap relOf ++ t) p → Owns t p := by
    intro p hp
    rcases owns_append.1 hp with hp | hp
    · exact absurd hp rels_own
    · exact hp
  have hkid : ∀ (q : Nat) (b' : Body) (o' : Nat), bs'[q]? = some b' → Cell.ref o' ∈ b'.kids → ¬ NotKid bs o' := by
    intro q b' o' hq hm hn
    by_cases hqo : q = o
    · subst hqo; rw [hself] at hq; cases hq; cases hm
    · rw [hother q hqo] at hq; exact hn q b' hq hm
  have hin : ∀ x ∈ b.kids.flatMap relOf, x.feeds = [] ∧ (∀ q, x ≠ .del q) ∧ ∀ q, x ≠ .adopt q := by
    intro x hx
    obtain ⟨c, _, h3⟩ := List.mem_flatMap.1 hx
    exact relOf_feeds h3
  refine h.update (· = o) (fun _ => 0) (fun q hq => by subst hq; exact howno) hsame (fun _ _ => rfl) (fun q b' o' h1 h2 => Or.inl (hkid q b' o' h1 h2)) (fun _ h => Or.inl h) ?_ (fun p hp => Or.inl (hO p hp).cons) ?_ ?_ ?_ ?_ (fun q hq => absurd rfl hq) (fun q _ hq => absurd rfl hq) ?_ ?_ ?_
  · refine ⟨?_, hj.nr, ?_, ?_⟩
    · simp only
      refine Good.rels ?_ _
      refine Good.frame hg.2.2 ?_ (fun _ _ h => h) (fun _ _ => rfl) (by simp)
      intro p k hp
      exact hsame.kidOk (by rintro rfl; exact hmt hp)
    · intro p hp
      have hp' := hO p hp
      obtain ⟨h1, h2, h3⟩ := hj.own p hp'.cons
      exact ⟨hsame.alive (by rintro rfl; exact hmt hp'.mentions) h1, h2, fun q b' hq hm => hkid q b' p hq hm h3⟩
    · intro x hx o' ho' hown
      rcases List.mem_append.1 hx with hx | hx
      · rw [(hin x hx).1] at ho'; cases ho'
      · exact hj.feed x (List.mem_cons_of_mem _ hx) o' ho' (hO _ hown).cons
  · intro p hp
    rcases mentions_append.1 hp with ⟨y, h1, h2⟩ | hp
    · obtain ⟨c, h3, h4⟩ := List.mem_flatMap.1 h1
      have := relOf_nodes h4 h2
      subst this
      exact Or.inr (Or.inr (fun hn => hn o b hb h3))
    · exact Or.inl hp.cons
  · intro q
    have := K_set (b' := { b with live := false, kids := [] }) hb q
    rw [hbs'] at this
    rw [this, W_append, W_flatMap_relOf, W_cons]
    simp only [Act.w, Kl, List.map_nil, List.sum_nil]
    omega
  · intro q b' hq
    by_cases hqo : q = o
    · subst hqo
      rw [hself] at hq; cases hq
      exact ⟨b, hb, by simp only; omega, Or.inr ⟨rfl, rfl, hT0⟩⟩
    · rw [hother q hqo] at hq
      exact ⟨b', hq, by omega, Or.inl rfl⟩
  · intro q hq
    by_cases hqo : q = o
    · subst hqo; rw [hself] at hq; cases hq
    · rw [hother q hqo] at hq; exact hq
  · intro q h1 hal _
    have hqo : q ≠ o := by
      rintro rfl
      obtain ⟨b', h2, h3⟩ := hal
      rw [hself] at h2; cases h2; cases h3
    rcases h1 with h1 | h1 <;> rcases List.mem_cons.1 h1 with e | h1
    · cases e; exact absurd rfl hqo
    · exact Or.inl (List.mem_append_right _ h1)
    · cases e
    · exact Or.inr (List.mem_append_right _ h1)
  · intro q h1
    have := h.zero _ (List.mem_cons_self ..) q (h1.imp (fun h => ?_) (fun h => ?_))
    · omega
    · rcases List.mem_append.1 h with h | h
      · exact absurd rfl ((hin _ h).2.1 q)
      · exact List.mem_cons_of_mem _ h
    · rcases List.mem_append.1 h with h | h
      · exact absurd rfl ((hin _ h).2.2 q)
      · exact List.mem_cons_of_mem _ h
  · intro q hq
    have hqo : q ≠ o := by
      rintro rfl
      obtain ⟨b', h2, h3⟩ := hq
      rw [hself] at h2; cases h2; cases h3
    obtain ⟨n, hn⟩ := h.fit q (hsame.symm.alive hqo hq)
    exact ⟨n, by rw [← valueAt_frame hsame hav n (by rintro p rfl e; cases e; exact hqo rfl)]; exact hn⟩

/-- every step -/
theorem step_inv {bs vs v r a t rest} (h : Inv bs vs (⟨v, r, a :: t⟩ :: rest)) :
    ∃ bs' vs' more, step bs vs a = .ok (bs', vs', more) ∧ Inv bs' vs' (⟨v, r, more ++ t⟩ :: rest) := by
  cases a with
  | inc o => exact step_inc h (Or.inl rfl)
  | adopt o => exact step_inc h (Or.inr rfl)
  | chk o => exact step_chk h
  | swap l c => exact step_swap h
  | copyTo s l => exact step_copy h (Or.inl rfl)
  | asg s l => exact step_copy h (Or.inr rfl)
  | relA o => exact step_relA h
  | relD o => exact step_relD h
  | del o => exact step_del h

/-- a call that has done everything returns -/
theorem Inv.return {bs vs v r rest} (h : Inv bs vs (⟨v, r, []⟩ :: rest)) : Inv bs vs rest := by
  have hT : ∀ q, Tot bs vs (⟨v, r, []⟩ :: rest) q = Tot bs vs rest q := by
    intro q; unfold Tot; rw [JW_cons]; simp only [W_nil]; omega
  refine ⟨fun j hj => h.jobs j (List.mem_cons_of_mem _ hj), (List.pairwise_cons.1 h.sep).2, ?_, ?_, ?_, ?_, ?_, h.fit⟩
  · intro o ho; rw [← hT]; exact h.none o ho
  · intro o b ho; rw [← hT]; exact h.count o b ho
  · intro o b ho hl; rw [← hT]; exact h.dead o b ho hl
  · intro o b ho hl ht
    rw [← hT] at ht
    obtain ⟨j, h1, h2⟩ := h.lost o b ho hl ht
    rcases List.mem_cons.1 h1 with rfl | h1
    · rcases h2 with h2 | h2 <;> cases h2
    · exact ⟨j, h1, h2⟩
  · intro j hj p hp; rw [← hT]; exact h.zero j (List.mem_cons_of_mem _ hj) p hp

end Strpp.NestPar
