import Verif.Proof.NestParStep
/-! The steps that copy, store and delete: C88. -/
set_option linter.unusedSectionVars false
set_option linter.unusedVariables false
set_option linter.unusedSimpArgs false
namespace Strpp.NestPar
open Spec

theorem Good.rel {bs vs v rs hd cur} {t : List Act} (h : Good bs vs v rs false cur t) (c : Cell) : Good bs vs v rs hd cur (relOf c ++ t) := by
  cases c with
  | num n => exact h.head
  | ref o =>
    refine ⟨trivial, fun q => ?_, h⟩
    have h1 := h.nonneg q
    have h2 := cnt_nonneg (.ref o) q
    show 0 ≤ W (.relA o :: t) q
    rw [W_cons]; simp only [Act.w]; omega

theorem Good.rels {bs vs v rs hd cur} {t : List Act} (h : Good bs vs v rs false cur t) : ∀ (cs : List Cell), Good bs vs v rs hd cur (cs.flatMap relOf ++ t) := by
  intro cs
  induction cs generalizing hd with
  | nil => exact h.head
  | cons c cs ih =>
    rw [List.flatMap_cons, List.append_assoc]
    exact Good.rel (ih (hd := false)) c

theorem relOf_own {c : Cell} {p : Nat} : ¬ Owns (relOf c) p := by
  rintro ⟨x, h1, h2⟩
  cases c with
  | num n => cases h1
  | ref o => simp [relOf] at h1; subst h1; cases h2

theorem rels_own {cs : List Cell} {p : Nat} : ¬ Owns (cs.flatMap relOf) p := by
  rintro ⟨x, h1, h2⟩
  obtain ⟨c, _, h3⟩ := List.mem_flatMap.1 h1
  exact relOf_own ⟨x, h3, h2⟩

theorem relOf_feeds {c : Cell} {x : Act} (h : x ∈ relOf c) : x.feeds = [] ∧ (∀ q, x ≠ .del q) ∧ ∀ q, x ≠ .adopt q := by
  cases c with
  | num n => cases h
  | ref o => simp [relOf] at h; subst h; exact ⟨rfl, (by intro q; simp), by intro q; simp⟩

theorem addRef_feeds {c : Cell} {x : Act} (h : x ∈ addRef c) : x.feeds = [] ∧ x.own = none ∧ (∀ q, x ≠ .del q) ∧ ∀ q, x ≠ .adopt q := by
  cases c with
  | num n => cases h
  | ref o => simp [addRef] at h; rcases h with rfl | rfl <;> exact ⟨rfl, rfl, (by intro q; simp), by intro q; simp⟩

theorem addRef_nodes {c : Cell} {x : Act} (h : x ∈ addRef c) {p : Nat} (hp : p ∈ x.nodes) : c = .ref p := by
  cases c with
  | num n => cases h
  | ref o => simp [addRef] at h; rcases h with rfl | rfl <;> simp [Act.nodes] at hp <;> rw [hp]

theorem relOf_nodes {c : Cell} {x : Act} (h : x ∈ relOf c) {p : Nat} (hp : p ∈ x.nodes) : c = .ref p := by
  cases c with
  | num n => cases h
  | ref o => simp [relOf] at h; subst h; simp [Act.nodes] at hp; rw [hp]

theorem Cell.nodes_eq {c : Cell} {p : Nat} (h : p ∈ c.nodes) : c = .ref p := by
  cases c with
  | num n => cases h
  | ref o => simp [Cell.nodes] at h; rw [h]

theorem DstOk.mono {bs vs v cur} {t t' : List Act} {l : Loc} (h : DstOk bs vs v cur t l) (ht : ∀ x ∈ t, x ∈ t') : DstOk bs vs v cur t' l := by
  cases l with
  | var x => exact h
  | kid p k => exact ⟨h.1, h.2.imp_left (ht _)⟩

/-- after the copy constructor has read what it copies -/
theorem Good.copied {bs vs v rs cur} {s l : Loc} {t : List Act} {c : Cell} (ht : Good bs vs v rs false (next cur (.copyTo s l)) t)
    (hd : DstOk bs vs v cur t l) (hl : ∀ x, l = .var x → t = []) (hc : ∀ o, c = .ref o → Rooted bs vs v rs o) :
    Good bs vs v rs true cur (addRef c ++ [.swap l c] ++ t) := by
  have hg : Good bs vs v rs false (next cur (.swap l c)) t := by
    cases l with
    | var x => rw [hl x rfl]; trivial
    | kid p k => exact ht
  have hn := ht.nonneg
  cases c with
  | num n =>
    refine ⟨hd, fun q => ?_, hg⟩
    have := hn q
    show 0 ≤ W (.swap l (.num n) :: t) q
    simp only [W_cons, Act.w, cnt_num]; omega
  | ref o =>
    have h2 : ∀ q, W (.swap l (.ref o) :: t) q = cnt (.ref o) q + W t q := fun q => by simp only [W_cons, Act.w]
    have h3 : ∀ q, 0 ≤ cnt (.ref o) q := cnt_nonneg _
    have h4 := hn o
    refine ⟨Or.inr ⟨rfl, ?_, hc o rfl⟩, fun q => ?_, ?_, fun q => ?_, hd, fun q => ?_, hg⟩
    · show 1 ≤ W (.chk o :: .swap l (.ref o) :: t) o
      rw [W_cons, h2, cnt_self]; simp only [Act.w]; omega
    · show 0 ≤ W (.inc o :: .chk o :: .swap l (.ref o) :: t) q
      have := h3 q; have := hn q
      rw [W_cons, W_cons, h2]; simp only [Act.w]; omega
    · show 1 ≤ W (.swap l (.ref o) :: t) o
      rw [h2, cnt_self]; omega
    · show 0 ≤ W (.chk o :: .swap l (.ref o) :: t) q
      have := h3 q; have := hn q
      rw [W_cons, h2]; simp only [Act.w]; omega
    · show 0 ≤ W (.swap l (.ref o) :: t) q
      have := h3 q; have := hn q
      rw [h2]; omega

/-- after the assignment has read what it copies -/
theorem Good.assigned {bs vs v rs cur} {s l : Loc} {t : List Act} {c : Cell} (ht : Good bs vs v rs false (next cur (.asg s l)) t)
    (hd : DstOk bs vs v cur t l) (hl : ∀ x, l = .var x → t = []) (hc : ∀ o, c = .ref o → Rooted bs vs v rs o) :
    Good bs vs v rs true cur (addRef c ++ [.swap l (.num 0)] ++ addRef c ++ [.swap l c] ++ relOf c ++ t) := by
  have hg : ∀ c', Good bs vs v rs false (next (next cur (.swap l c')) (.swap l c)) (relOf c ++ t) := by
    intro c'
    refine Good.rel ?_ c
    cases l with
    | var x => rw [hl x rfl]; trivial
    | kid p k => exact ht
  have hdv : ∀ (c' : Cell) (t' : List Act), (∀ x ∈ t, x ∈ t') → DstOk bs vs v (next cur (.swap l c')) t' l := by
    intro c' t' h
    cases l with
    | var x => exact hd
    | kid p k => exact hd.mono h
  have hn := ht.nonneg
  cases c with
  | num n =>
    have h1 : ∀ q, W (.swap l (.num n) :: t) q = W t q := fun q => by simp only [W_cons, Act.w, cnt_num]; omega
    refine ⟨hd.mono (by intro x hx; simp [hx]), fun q => ?_, hdv _ _ (by intro x hx; simp [relOf, hx]), fun q => ?_, hg (.num 0)⟩
    · have := hn q
      show 0 ≤ W (.swap l (.num 0) :: .swap l (.num n) :: t) q
      rw [W_cons, h1]; simp only [Act.w, cnt_num]; omega
    · have := hn q
      show 0 ≤ W (.swap l (.num n) :: t) q
      rw [h1]; omega
  | ref o =>
    have h3 : ∀ q, 0 ≤ cnt (.ref o) q := cnt_nonneg _
    have h4 := hn o
    have w1 : ∀ q, W (.swap l (.ref o) :: .relA o :: t) q = 2 * cnt (.ref o) q + W t q := fun q => by simp only [W_cons, Act.w]; omega
    have w2 : ∀ q, W (.chk o :: .swap l (.ref o) :: .relA o :: t) q = 2 * cnt (.ref o) q + W t q := fun q => by rw [W_cons, w1]; simp only [Act.w]; omega
    have w3 : ∀ q, W (.inc o :: .chk o :: .swap l (.ref o) :: .relA o :: t) q = cnt (.ref o) q + W t q := fun q => by rw [W_cons, w2]; simp only [Act.w]; omega
    have w4 : ∀ q, W (.swap l (.num 0) :: .inc o :: .chk o :: .swap l (.ref o) :: .relA o :: t) q = cnt (.ref o) q + W t q := fun q => by rw [W_cons, w3]; simp only [Act.w, cnt_num]; omega
    have w5 : ∀ q, W (.chk o :: .swap l (.num 0) :: .inc o :: .chk o :: .swap l (.ref o) :: .relA o :: t) q = cnt (.ref o) q + W t q := fun q => by rw [W_cons, w4]; simp only [Act.w]; omega
    have w6 : ∀ q, W (.inc o :: .chk o :: .swap l (.num 0) :: .inc o :: .chk o :: .swap l (.ref o) :: .relA o :: t) q = W t q := fun q => by rw [W_cons, w5]; simp only [Act.w]; omega
    refine ⟨Or.inr ⟨rfl, ?_, hc o rfl⟩, fun q => ?_, ?_, fun q => ?_, hd.mono (by intro x hx; simp [hx]), fun q => ?_, Or.inl ?_, fun q => ?_, ?_, fun q => ?_, hdv (.num 0) _ (by intro x hx; simp [relOf, hx]), fun q => ?_, hg (.num 0)⟩
    · refine Int.le_trans ?_ (Int.le_of_eq (w5 o).symm); rw [cnt_self]; omega
    · exact Int.le_trans (hn q) (Int.le_of_eq (w6 q).symm)
    · refine Int.le_trans ?_ (Int.le_of_eq (w4 o).symm); rw [cnt_self]; omega
    · have := h3 q; have := hn q; refine Int.le_trans ?_ (Int.le_of_eq (w5 q).symm); omega
    · have := h3 q; have := hn q; refine Int.le_trans ?_ (Int.le_of_eq (w4 q).symm); omega
    · refine Int.le_trans ?_ (Int.le_of_eq (w2 o).symm); rw [cnt_self]; omega
    · have := h3 q; have := hn q; refine Int.le_trans ?_ (Int.le_of_eq (w3 q).symm); omega
    · refine Int.le_trans ?_ (Int.le_of_eq (w1 o).symm); rw [cnt_self]; omega
    · have := h3 q; have := hn q; refine Int.le_trans ?_ (Int.le_of_eq (w2 q).symm); omega
    · have := h3 q; have := hn q; refine Int.le_trans ?_ (Int.le_of_eq (w1 q).symm); omega

/-- the Variant that a call is about to copy -/
theorem Inv.source {bs vs v r a t rest} (h : Inv bs vs (⟨v, r, a :: t⟩ :: rest)) {l s : Loc} (hs : SrcOk bs vs v r (curOf vs v) l s) :
    ∃ c, get bs vs s = .ok c ∧ ∀ o, c = .ref o → Rooted bs vs v r o ∧ ((∃ u, (u ∈ r ∨ u = v) ∧ Holds vs u o) ∨ ¬ NotKid bs o) ∧
      ((∃ p k, l = .kid p k) → ¬ Owns (a :: t) o) := by
  have hj := h.jobs _ (List.mem_cons_self ..)
  cases s with
  | var w =>
    obtain ⟨h1, c, h2⟩ := hs
    refine ⟨c, by simp only [get, h2], ?_⟩
    rintro o rfl
    have h3 : w ∈ r ∨ w = v := h1.imp_right (fun h => h.1)
    refine ⟨⟨w, h3, Or.inl h2⟩, Or.inl ⟨w, h3, h2⟩, ?_⟩
    rintro ⟨p, k, rfl⟩ ho
    have h4 := (hj.own o ho).2.1 w h2
    simp only at h4
    subst h4
    rcases h1 with h1 | ⟨_, h1⟩
    · exact hj.nr h1
    · cases h1
  | kid p k =>
    obtain ⟨⟨b, hb, hk⟩, h2⟩ := hs
    obtain ⟨w, h3, h4⟩ : ∃ w, (w ∈ r ∨ w = v) ∧ Holds vs w p := by
      rcases h2 with ⟨w, h3, h4⟩ | h3
      · exact ⟨w, Or.inl h3, h4⟩
      · exact ⟨v, Or.inr rfl, curOf_holds h3⟩
    obtain ⟨b', hb', hl⟩ := h.alive_held h4
    rw [hb] at hb'; cases hb'
    refine ⟨b.kids[k], ?_, ?_⟩
    · simp only [get]
      rw [body_ok hb hl, res_bind_ok, List.getElem?_eq_getElem hk]
    · intro o ho
      have hm : Cell.ref o ∈ b.kids := by rw [← ho]; exact List.getElem_mem hk
      have hn : ¬ NotKid bs o := fun hn => hn p b hb hm
      exact ⟨⟨w, h3, Or.inr ⟨p, b, h4, hb, hm⟩⟩, Or.inr hn, fun _ ho => hn (hj.own o ho).2.2⟩

theorem step_copy {bs vs v r a t rest} {s l : Loc} (h : Inv bs vs (⟨v, r, a :: t⟩ :: rest)) (ha : a = .copyTo s l ∨ a = .asg s l) :
    ∃ bs' vs' more, step bs vs a = .ok (bs', vs', more) ∧ Inv bs' vs' (⟨v, r, more ++ t⟩ :: rest) := by
  have hj := h.jobs _ (List.mem_cons_self ..)
  have hg := hj.good
  simp only at hg
  have hga : SrcOk bs vs v r (curOf vs v) l s ∧ DstOk bs vs v (curOf vs v) t l ∧ ∀ x, l = .var x → t = [] := by
    rcases ha with rfl | rfl <;> exact hg.1
  obtain ⟨c, hc, hco⟩ := h.source hga.1
  have hown : ∀ p k, l = .kid p k → Owns (a :: t) p := by
    rintro p k rfl
    exact ⟨a, by simp, by rcases ha with rfl | rfl <;> rfl⟩
  have hcom : ∀ more, step bs vs a = .ok (bs, vs, more) → (∀ x ∈ more, x ∈ addRef c ∨ x ∈ relOf c ∨ x = .swap l (.num 0) ∨ x = .swap l c) →
      (∀ q, W more q = 0) → Good bs vs v r true (curOf vs v) (more ++ t) → 
      ∃ bs' vs' more, step bs vs a = .ok (bs', vs', more) ∧ Inv bs' vs' (⟨v, r, more ++ t⟩ :: rest) := by
    intro more hstep hmem hW hG
    refine ⟨bs, vs, more, hstep, ?_⟩
    have hO : ∀ p, Owns (more ++ t) p → Owns (a :: t) p := by
      intro p hp
      rcases owns_append.1 hp with ⟨x, h1, h2⟩ | hp
      · have hsw : ∀ c', Act.own (.swap l c') = some p → Owns (a :: t) p := by
          intro c' h3
          cases l with
          | var x => cases h3
          | kid p' k => simp only [Act.own, Option.some.injEq] at h3; subst h3; exact hown _ k rfl
        rcases hmem x h1 with h3 | h3 | rfl | rfl
        · rw [(addRef_feeds h3).2.1] at h2; cases h2
        · exact absurd ⟨x, h3, h2⟩ relOf_own
        · exact hsw _ h2
        · exact hsw _ h2
      · exact hp.cons
    have hnz : ∀ q x, x ∈ more → x ≠ .del q ∧ x ≠ .adopt q := by
      intro q x hx
      rcases hmem x hx with h3 | h3 | rfl | rfl
      · exact ⟨(addRef_feeds h3).2.2.1 q, (addRef_feeds h3).2.2.2 q⟩
      · exact ⟨(relOf_feeds h3).2.1 q, (relOf_feeds h3).2.2 q⟩
      · exact ⟨(by simp), by simp⟩
      · exact ⟨(by simp), by simp⟩
    refine h.quiet (fun _ => 0) (fun _ _ => rfl) hG (fun p hp => Or.inl (hO p hp)) ?_ ?_ (fun _ => rfl) ?_ ?_ ?_ ?_ ?_ ?_
    · intro x hx o' ho' hown'
      rcases List.mem_append.1 hx with hx | hx
      · rcases hmem x hx with h3 | h3 | rfl | rfl
        · rw [(addRef_feeds h3).1] at ho'; cases ho'
        · rw [(relOf_feeds h3).1] at ho'; cases ho'
        · cases l <;> simp [Act.feeds, Cell.nodes] at ho'
        · cases l with
          | var x => simp [Act.feeds] at ho'
          | kid p k =>
            simp only [Act.feeds] at ho'
            exact (hco o' (Cell.nodes_eq ho')).2.2 ⟨p, k, rfl⟩ (hO _ hown')
      · exact hj.feed x (List.mem_cons_of_mem _ hx) o' ho' (hO _ hown')
    · intro p hp
      rcases mentions_append.1 hp with ⟨x, h1, h2⟩ | hp
      · have hlo : p ∈ l.nodes → Mentions (a :: t) p := fun hl => ⟨a, by simp, by rcases ha with rfl | rfl <;> simp [Act.nodes, hl]⟩
        rcases hmem x h1 with h3 | h3 | rfl | rfl
        · exact Or.inr (hco p (addRef_nodes h3 h2)).2.1
        · exact Or.inr (hco p (relOf_nodes h3 h2)).2.1
        · simp [Act.nodes, Cell.nodes] at h2; exact Or.inl (hlo h2)
        · simp only [Act.nodes, List.mem_append] at h2
          rcases h2 with h2 | h2
          · exact Or.inl (hlo h2)
          · exact Or.inr (hco p (Cell.nodes_eq h2)).2.1
      · exact Or.inl hp.cons
    · intro q
      rw [W_append, hW, W_cons]
      rcases ha with rfl | rfl <;> simp only [Act.w] <;> omega
    · intro q b' hq; exact ⟨b', hq, by omega⟩
    · intro q hq; exact absurd rfl hq
    · intro q _ hq; exact absurd rfl hq
    · intro q h1 _
      rcases h1 with h1 | h1 <;> rcases List.mem_cons.1 h1 with e | h1
      · rcases ha with rfl | rfl <;> cases e
      · exact Or.inl (List.mem_append_right _ h1)
      · rcases ha with rfl | rfl <;> cases e
      · exact Or.inr (List.mem_append_right _ h1)
    · intro q h1
      have := h.zero _ (List.mem_cons_self ..) q (h1.imp (fun h => ?_) (fun h => ?_))
      · omega
      · rcases List.mem_append.1 h with h | h
        · exact absurd rfl (hnz q _ h).1
        · exact List.mem_cons_of_mem _ h
      · rcases List.mem_append.1 h with h | h
        · exact absurd rfl (hnz q _ h).2
        · exact List.mem_cons_of_mem _ h
  rcases ha with rfl | rfl
  · refine hcom (addRef c ++ [.swap l c]) ?_ ?_ ?_ (hg.2.2.copied hga.2.1 hga.2.2 (fun o ho => (hco o ho).1))
    · simp only [step]; rw [hc, res_bind_ok]
    · intro x hx
      simp at hx
      rcases hx with hx | hx
      · exact Or.inl hx
      · exact Or.inr (Or.inr (Or.inr hx))
    · intro q
      rw [W_append, W_addRef]
      simp only [W_cons, W_nil, Act.w]; omega
  · refine hcom (addRef c ++ [.swap l (.num 0)] ++ addRef c ++ [.swap l c] ++ relOf c) ?_ ?_ ?_ (hg.2.2.assigned hga.2.1 hga.2.2 (fun o ho => (hco o ho).1))
    · simp only [step]; rw [hc, res_bind_ok]
    · intro x hx
      simp at hx
      rcases hx with hx | hx | hx | hx | hx
      · exact Or.inl hx
      · exact Or.inr (Or.inr (Or.inl hx))
      · exact Or.inl hx
      · exact Or.inr (Or.inr (Or.inr hx))
      · exact Or.inr (Or.inl hx)
    · intro q
      simp only [W_append, W_addRef, W_relOf, W_cons, W_nil, Act.w, cnt_num]; omega

end Strpp.NestPar
