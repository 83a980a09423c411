import Verif.Proof.NestParTick
/-! Each kind of step: C88. -/
set_option linter.unusedSectionVars false
set_option linter.unusedVariables false
set_option linter.unusedSimpArgs false
namespace Strpp.NestPar
open Spec

theorem body_ok {bs : List Body} {o : Nat} {b : Body} (h : bs[o]? = some b) (hl : b.live = true) : body bs o = .ok b := by
  unfold body; rw [h]; simp [hl]

theorem Act.feeds_nodes {a : Act} {o : Nat} (h : o ∈ a.feeds) : o ∈ a.nodes := by
  cases a with
  | swap l c => cases l with | var _ => simp [Act.feeds] at h | kid q k => simp [Act.feeds] at h; simp [Act.nodes, h]
  | copyTo s l => simp [Act.feeds] at h; simp [Act.nodes, h]
  | asg s l => simp [Act.feeds] at h; simp [Act.nodes, h]
  | _ => simp [Act.feeds] at h

section
variable {bs : List Body} {o : Nat} {b : Body} (hb : bs[o]? = some b) (n : Int)
include hb

theorem setCount_get (q : Nat) : (bs.set o { b with count := n })[q]? = if o = q then some { b with count := n } else bs[q]? := by
  rw [List.getElem?_set]
  have := (List.getElem?_eq_some_iff.1 hb).1
  by_cases h : o = q
  · rw [if_pos h, if_pos h, if_pos this]
  · rw [if_neg h, if_neg h]

theorem setCount_same : Same Nowhere bs (bs.set o { b with count := n }) := by
  intro q _
  rw [setCount_get hb]
  by_cases h : o = q
  · subst h; rw [if_pos rfl, hb]; rfl
  · rw [if_neg h]

theorem setCount_K (q : Nat) : K (bs.set o { b with count := n }) q = K bs q := by
  rw [K_set hb]; simp only; omega

theorem setCount_count {d : Int} (hn : n = b.count + d) (q : Nat) (b' : Body) (hq : (bs.set o { b with count := n })[q]? = some b') :
    ∃ b0, bs[q]? = some b0 ∧ b'.count = b0.count + d * cnt (.ref o) q := by
  rw [setCount_get hb] at hq
  by_cases h : o = q
  · subst h
    rw [if_pos rfl] at hq
    cases hq
    exact ⟨b, hb, by rw [cnt_self]; simp only; omega⟩
  · rw [if_neg h] at hq
    exact ⟨b', hq, by rw [cnt_ne (by simp [h])]; omega⟩
end

theorem cnt_ref_ne_zero {o q : Nat} (h : cnt (.ref o) q ≠ 0) : q = o := by
  apply Classical.byContradiction
  intro hn
  exact h (cnt_ne (by simp only [ne_eq, Cell.ref.injEq]; exact fun e => hn e.symm))

theorem step_inc {bs vs v r a t rest} {o : Nat} (h : Inv bs vs (⟨v, r, a :: t⟩ :: rest)) (ha : a = .inc o ∨ a = .adopt o) :
    ∃ bs' vs' more, step bs vs a = .ok (bs', vs', more) ∧ Inv bs' vs' (⟨v, r, more ++ t⟩ :: rest) := by
  have hj := h.jobs _ (List.mem_cons_self ..)
  have hg := hj.good
  simp only at hg
  have hw : ∀ q, a.w q = - cnt (.ref o) q := by rcases ha with rfl | rfl <;> intro q <;> rfl
  have htot := fun q => (h.tot_ge q).2.2 _ (List.mem_cons_self ..)
  have hge : ∀ q, 0 ≤ Tot bs vs (⟨v, r, a :: t⟩ :: rest) q := fun q => Int.le_trans (V_nonneg vs q) (h.tot_ge q).1
  have hpos : a = .inc o → 1 ≤ Tot bs vs (⟨v, r, a :: t⟩ :: rest) o := by
    rintro rfl
    rcases hg.1 with h1 | ⟨_, _, w, _, h1 | ⟨p, b, _, h2, h3⟩⟩
    · have := htot o
      simp only [W_cons, Act.w, cnt_self] at this
      omega
    · exact Int.le_trans (V_pos h1) (h.tot_ge o).1
    · exact Int.le_trans (K_pos h2 h3) (h.tot_ge o).2.1
  have hal : Alive bs o := by
    rcases ha with ha | rfl
    · exact h.alive (hpos ha)
    · exact (hj.own o ⟨Act.adopt o, by simp, rfl⟩).1
  obtain ⟨b, hb, hl⟩ := hal
  refine ⟨bs.set o { b with count := b.count + 1 }, vs, [], ?_, ?_⟩
  · rcases ha with rfl | rfl <;> simp only [step] <;> rw [body_ok hb hl, res_bind_ok]
  have hnext : next (curOf vs v) a = curOf vs v := by rcases ha with rfl | rfl <;> rfl
  have hm : Mentions (a :: t) o := ⟨a, by simp, by rcases ha with rfl | rfl <;> simp [Act.nodes]⟩
  refine h.quiet (fun q => 1 * cnt (.ref o) q) (setCount_same hb _) ?_ (fun p hp => Or.inl hp.cons) ?_ (fun p hp => Or.inl hp.cons) (setCount_K hb _) ?_ (setCount_count hb _ rfl) ?_ ?_ ?_ ?_
  · have := hg.2.2
    rw [hnext] at this
    exact this.head
  · intro x hx o' ho' hown
    exact hj.feed x (List.mem_cons_of_mem _ hx) o' ho' (Owns.cons hown)
  · intro q
    rw [W_cons, hw]; simp only [List.nil_append]; omega
  · intro q hq
    have := cnt_ref_ne_zero (o := o) (q := q) (by omega)
    subst this
    exact ⟨⟨b, hb, hl⟩, hm⟩
  · intro q h1 h2
    have := hge q
    have := cnt_nonneg (.ref o) q
    omega
  · intro q h1 h2
    have hne : q ≠ o := by rintro rfl; rw [cnt_self] at h2; omega
    rcases h1 with h1 | h1
    · rcases List.mem_cons.1 h1 with e | h1
      · rcases ha with rfl | rfl <;> cases e
      · exact Or.inl h1
    · rcases List.mem_cons.1 h1 with e | h1
      · rcases ha with rfl | rfl
        · cases e
        · cases e; exact absurd rfl hne
      · exact Or.inr h1
  · intro q h1
    have h2 := h.zero _ (List.mem_cons_self ..) q (h1.imp (List.mem_cons_of_mem _) (List.mem_cons_of_mem _))
    have hne : q ≠ o := by
      rintro rfl
      rcases ha with e | rfl
      · have := hpos e; omega
      · rcases h1 with h1 | h1
        · exact hg.1.2 h1
        · exact hg.1.1 h1
    rw [cnt_ne (by simp only [ne_eq, Cell.ref.injEq]; exact fun e => hne e.symm)]
    omega

theorem step_chk {bs vs v r t rest} {o : Nat} (h : Inv bs vs (⟨v, r, .chk o :: t⟩ :: rest)) :
    ∃ bs' vs' more, step bs vs (.chk o) = .ok (bs', vs', more) ∧ Inv bs' vs' (⟨v, r, more ++ t⟩ :: rest) := by
  have hj := h.jobs _ (List.mem_cons_self ..)
  have hg := hj.good
  simp only at hg
  have h1 : 1 ≤ W t o := hg.1
  have htot := (h.tot_ge o).2.2 _ (List.mem_cons_self ..)
  simp only [W_cons, Act.w] at htot
  have hpos : 1 ≤ Tot bs vs (⟨v, r, .chk o :: t⟩ :: rest) o := by omega
  obtain ⟨b, hb, hl⟩ := h.alive hpos
  have hc := h.count o b hb
  refine ⟨bs, vs, [], ?_, ?_⟩
  · simp only [step]
    rw [body_ok hb hl, res_bind_ok, show decide (b.count ≠ 0) = true from by simp; omega, assert_true, res_bind_ok]
  refine h.quiet (fun _ => 0) (fun _ _ => rfl) hg.2.2.head (fun p hp => Or.inl hp.cons) ?_ (fun p hp => Or.inl hp.cons) (fun _ => rfl) ?_ ?_ ?_ ?_ ?_ ?_
  · intro x hx o' ho' hown
    exact hj.feed x (List.mem_cons_of_mem _ hx) o' ho' (Owns.cons hown)
  · intro q
    rw [W_cons]; simp only [Act.w, List.nil_append]; omega
  · intro q b' hq; exact ⟨b', hq, by omega⟩
  · intro q hq; exact absurd rfl hq
  · intro q _ hq; exact absurd rfl hq
  · intro q h1 _
    rcases h1 with h1 | h1 <;> rcases List.mem_cons.1 h1 with e | h1
    · cases e
    · exact Or.inl h1
    · cases e
    · exact Or.inr h1
  · intro q h1
    have := h.zero _ (List.mem_cons_self ..) q (h1.imp (List.mem_cons_of_mem _) (List.mem_cons_of_mem _))
    omega

theorem step_relA {bs vs v r t rest} {o : Nat} (h : Inv bs vs (⟨v, r, .relA o :: t⟩ :: rest)) :
    ∃ bs' vs' more, step bs vs (.relA o) = .ok (bs', vs', more) ∧ Inv bs' vs' (⟨v, r, more ++ t⟩ :: rest) := by
  have hj := h.jobs _ (List.mem_cons_self ..)
  have hg := hj.good
  simp only at hg
  have htot := (h.tot_ge o).2.2 _ (List.mem_cons_self ..)
  simp only [W_cons, Act.w, cnt_self] at htot
  have := hg.2.2.nonneg o
  have hpos : 1 ≤ Tot bs vs (⟨v, r, .relA o :: t⟩ :: rest) o := by omega
  obtain ⟨b, hb, hl⟩ := h.alive hpos
  have hc := h.count o b hb
  refine ⟨bs, vs, [.relD o], ?_, ?_⟩
  · simp only [step]
    rw [body_ok hb hl, res_bind_ok, show decide (b.count > 0) = true from by simp; omega, assert_true, res_bind_ok]
  have hW : ∀ q, W (.relD o :: t) q = W (.relA o :: t) q := by intro q; simp only [W_cons, Act.w]
  have hO : ∀ p, Owns ([.relD o] ++ t) p → Owns t p := by
    intro p hp
    rcases owns_append.1 hp with ⟨x, h1, h2⟩ | hp
    · simp at h1; subst h1; cases h2
    · exact hp
  refine h.quiet (fun _ => 0) (fun _ _ => rfl) (show Good bs vs v r true (curOf vs v) (.relD o :: t) from ⟨trivial, fun q => by rw [hW]; exact hg.2.1 q, hg.2.2⟩) (fun p hp => Or.inl (hO p hp).cons) ?_ ?_ (fun _ => rfl) ?_ ?_ ?_ ?_ ?_ ?_
  · intro x hx o' ho' hown
    rcases List.mem_append.1 hx with hx | hx
    · simp at hx; subst hx; cases ho'
    · exact hj.feed x (List.mem_cons_of_mem _ hx) o' ho' (Owns.cons (hO _ hown))
  · intro p hp
    rcases mentions_append.1 hp with ⟨x, h1, h2⟩ | hp
    · simp at h1; subst h1; exact Or.inl ⟨.relA o, by simp, h2⟩
    · exact Or.inl hp.cons
  · intro q
    have := hW q
    show W (.relD o :: t) q = _
    omega
  · intro q b' hq; exact ⟨b', hq, by omega⟩
  · intro q hq; exact absurd rfl hq
  · intro q _ hq; exact absurd rfl hq
  · intro q h1 _
    rcases h1 with h1 | h1 <;> rcases List.mem_cons.1 h1 with e | h1
    · cases e
    · exact Or.inl (List.mem_append_right _ h1)
    · cases e
    · exact Or.inr (List.mem_append_right _ h1)
  · intro q h1
    have := h.zero _ (List.mem_cons_self ..) q (h1.imp (fun h => ?_) (fun h => ?_))
    · omega
    all_goals
      rcases List.mem_append.1 h with h | h
      · simp at h
      · exact List.mem_cons_of_mem _ h

/-- a body that nobody refers to (but an action that is left out) is not in a call -/
theorem Inv.unmentioned {bs vs js} (h : Inv bs vs js) {k : Job} (hk : k ∈ js) {o : Nat} (hV : V vs o = 0) (hK : K bs o = 0) (hW : W k.todo o = 0)
    (ho : ¬ Owns k.todo o) : ¬ Mentions k.todo o := by
  have hh : ∀ w, ¬ Holds vs w o := fun w hw => by have := V_pos hw; omega
  refine (h.jobs k hk).good.noMention (fun w _ => hh w) ?_ hW (fun e => hh _ (curOf_holds e)) ho
  intro q b hq hb
  have := K_pos hq hb
  omega

theorem step_relD {bs vs v r t rest} {o : Nat} (h : Inv bs vs (⟨v, r, .relD o :: t⟩ :: rest)) :
    ∃ bs' vs' more, step bs vs (.relD o) = .ok (bs', vs', more) ∧ Inv bs' vs' (⟨v, r, more ++ t⟩ :: rest) := by
  have hj := h.jobs _ (List.mem_cons_self ..)
  have hg := hj.good
  simp only at hg
  have htot := (h.tot_ge o).2.2 _ (List.mem_cons_self ..)
  simp only [W_cons, Act.w, cnt_self] at htot
  have hWt := hg.2.2.nonneg o
  have hpos : 1 ≤ Tot bs vs (⟨v, r, .relD o :: t⟩ :: rest) o := by omega
  obtain ⟨b, hb, hl⟩ := h.alive hpos
  have hc := h.count o b hb
  have hge : ∀ q, 0 ≤ Tot bs vs (⟨v, r, .relD o :: t⟩ :: rest) q := fun q => Int.le_trans (V_nonneg vs q) (h.tot_ge q).1
  have hzt : ∀ q, Act.del q ∈ t ∨ Act.adopt q ∈ t → Tot bs vs (⟨v, r, .relD o :: t⟩ :: rest) q = 0 ∧ q ≠ o := by
    intro q h1
    have h2 := h.zero _ (List.mem_cons_self ..) q (h1.imp (List.mem_cons_of_mem _) (List.mem_cons_of_mem _))
    exact ⟨h2, by rintro rfl; omega⟩
  have hm : Mentions (.relD o :: t) o := ⟨_, List.mem_cons_self .., by simp [Act.nodes]⟩
  refine ⟨bs.set o { b with count := b.count - 1 }, vs, if b.count - 1 = 0 then [.del o] else [], ?_, ?_⟩
  · simp only [step]
    rw [body_ok hb hl, res_bind_ok]
  have hcom : ∀ T', (∀ q, W T' q = W t q) → Good bs vs v r true (curOf vs v) T' →
      (∀ p, Owns T' p → Owns (.relD o :: t) p ∨ (Alive bs p ∧ (∀ u, ¬ Holds vs u p) ∧ NotKid bs p ∧ ∀ k ∈ rest, ¬ Mentions k.todo p)) →
      (∀ x ∈ T', ∀ o ∈ x.feeds, ¬ Owns T' o) → (∀ p, Mentions T' p → Mentions (.relD o :: t) p) →
      (b.count - 1 = 0 → Act.del o ∈ T') → (∀ q, Act.del q ∈ t → Act.del q ∈ T') → (∀ q, Act.adopt q ∈ t → Act.adopt q ∈ T') →
      (∀ q, Act.del q ∈ T' ∨ Act.adopt q ∈ T' → (Act.del q ∈ t ∨ Act.adopt q ∈ t) ∨ (b.count - 1 = 0 ∧ q = o)) →
      Inv (bs.set o { b with count := b.count - 1 }) vs (⟨v, r, T'⟩ :: rest) := by
    intro T' hW hG hO hF hM hD hD2 hD3 hD4
    refine h.quiet (fun q => (-1) * cnt (.ref o) q) (setCount_same hb _) hG hO hF (fun p hp => Or.inl (hM p hp)) (setCount_K hb _) ?_ (setCount_count hb _ rfl) ?_ ?_ ?_ ?_
    · intro q
      rw [W_cons, hW]; simp only [Act.w]; omega
    · intro q hq
      have := cnt_ref_ne_zero (o := o) (q := q) (by omega)
      subst this
      exact ⟨⟨b, hb, hl⟩, hm⟩
    · intro q h1 h2
      have := cnt_ref_ne_zero (o := o) (q := q) (by omega)
      subst this
      rw [cnt_self] at h1
      exact hD (by omega)
    · intro q h1 h2
      rcases h1 with h1 | h1 <;> rcases List.mem_cons.1 h1 with e | h1
      · cases e
      · exact Or.inl (hD2 q h1)
      · cases e
      · exact Or.inr (hD3 q h1)
    · intro q h1
      rcases hD4 q h1 with h2 | ⟨h2, rfl⟩
      · obtain ⟨h3, h4⟩ := hzt q h2
        rw [cnt_ne (by simp only [ne_eq, Cell.ref.injEq]; exact fun e => h4 e.symm)]
        omega
      · rw [cnt_self]; omega
  by_cases h0 : b.count - 1 = 0
  · rw [if_pos h0]
    have hT1 : Tot bs vs (⟨v, r, .relD o :: t⟩ :: rest) o = 1 := by omega
    have hJ : ∀ k ∈ rest, 0 ≤ W k.todo o := fun k hk => (h.jobs k (List.mem_cons_of_mem _ hk)).good.nonneg o
    have hJr : 0 ≤ JW rest o := sum_nonneg hJ
    have hT1' := hT1
    unfold Tot at hT1'
    rw [JW_cons, W_cons] at hT1'
    simp only [Act.w, cnt_self] at hT1'
    have hV0 := V_nonneg vs o
    have hK0 := K_nonneg bs o
    have hV : V vs o = 0 := by omega
    have hK : K bs o = 0 := by omega
    have hW0 : W t o = 0 := by omega
    have hJ0 : JW rest o = 0 := by omega
    have hh : ∀ u, ¬ Holds vs u o := fun u hu => by have := V_pos hu; omega
    have hnk : NotKid bs o := fun q b' hq hk => by have := K_pos hq hk; omega
    have hot : ¬ Owns t o := by
      intro ho
      rcases hg.2.2.kept ho (fun hd => (hzt o (Or.inl hd)).2 rfl) with h1 | h1 | h1
      · exact (hzt o (Or.inr h1)).2 rfl
      · exact hh v (curOf_holds h1)
      · omega
    have hmt : ¬ Mentions t o := hg.2.2.noMention (fun w _ => hh w) hnk hW0 (fun e => hh v (curOf_holds e)) hot
    have hmr : ∀ k ∈ rest, ¬ Mentions k.todo o := by
      intro k hk
      refine h.unmentioned (List.mem_cons_of_mem _ hk) hV hK ?_ ?_
      · have : W k.todo o ≤ JW rest o := sum_le (f := fun k : Job => W k.todo o) hJ hk
        have := hJ k hk
        omega
      · intro ho
        exact ((List.pairwise_cons.1 h.sep).1 k hk).own' o ho hm
    have hWd : ∀ q, W ([.del o] ++ t) q = W t q := by intro q; rw [List.singleton_append, W_cons]; simp only [Act.w]; omega
    refine hcom ([.del o] ++ t) hWd (show Good bs vs v r true (curOf vs v) (.del o :: t) from ⟨hmt, fun q => by have := hg.2.2.nonneg q; have := hWd q; simp only [List.singleton_append] at this; omega, hg.2.2⟩) ?_ ?_ ?_ ?_ ?_ ?_ ?_
    · intro p hp
      rcases owns_append.1 hp with ⟨x, h1, h2⟩ | hp
      · simp at h1; subst h1
        simp only [Act.own, Option.some.injEq] at h2
        subst h2
        exact Or.inr ⟨⟨b, hb, hl⟩, hh, hnk, hmr⟩
      · exact Or.inl hp.cons
    · intro x hx o' ho' hown
      rcases List.mem_append.1 hx with hx | hx
      · simp at hx; subst hx; cases ho'
      · rcases owns_append.1 hown with ⟨y, h1, h2⟩ | hown
        · simp at h1; subst h1
          simp only [Act.own, Option.some.injEq] at h2
          subst h2
          exact hmt ⟨x, hx, Act.feeds_nodes ho'⟩
        · exact hj.feed x (List.mem_cons_of_mem _ hx) o' ho' hown.cons
    · intro p hp
      rcases mentions_append.1 hp with ⟨x, h1, h2⟩ | hp
      · simp at h1; subst h1
        exact ⟨.relD o, by simp, h2⟩
      · exact hp.cons
    · intro _; simp
    · intro q hq; exact List.mem_append_right _ hq
    · intro q hq; exact List.mem_append_right _ hq
    · intro q h1
      rcases h1 with h1 | h1 <;> rcases List.mem_append.1 h1 with e | h1
      · simp at e; exact Or.inr ⟨h0, e⟩
      · exact Or.inl (Or.inl h1)
      · simp at e
      · exact Or.inl (Or.inr h1)
  · rw [if_neg h0]
    refine hcom t (fun _ => rfl) hg.2.2.head (fun p hp => Or.inl hp.cons) ?_ (fun p hp => hp.cons) (fun h => absurd h h0) (fun _ h => h) (fun _ h => h) (fun _ h => Or.inl h)
    intro x hx o' ho' hown
    exact hj.feed x (List.mem_cons_of_mem _ hx) o' ho' (Owns.cons hown)

end Strpp.NestPar
