import Verif.Proof.NestParInv
/-! A step of a call keeps the invariant of C88. -/
set_option linter.unusedSectionVars false
set_option linter.unusedVariables false
set_option linter.unusedSimpArgs false
namespace Strpp.NestPar
open Spec

abbrev Nowhere : Nat → Prop := fun _ => False

theorem Same.symm {P} {bs bs' : List Body} (h : Same P bs bs') : Same P bs' bs := fun q hq => (h q hq).symm

theorem Same.get {P} {bs bs' : List Body} (h : Same P bs bs') {q : Nat} (hq : ¬ P q) {b : Body} (hb : bs[q]? = some b) :
    ∃ b', bs'[q]? = some b' ∧ b'.live = b.live ∧ b'.text = b.text ∧ b'.kids = b.kids := by
  have h1 := h q hq
  rw [hb] at h1
  cases h2 : bs'[q]? with
  | none => rw [h2] at h1; cases h1
  | some b' =>
    rw [h2] at h1
    simp only [Option.map_some, Option.some.injEq, Body.core, Prod.mk.injEq] at h1
    exact ⟨b', rfl, h1.1.symm, h1.2.1.symm, h1.2.2.symm⟩

theorem Same.alive {P} {bs bs' : List Body} (h : Same P bs bs') {q : Nat} (hq : ¬ P q) (ha : Alive bs q) : Alive bs' q := by
  obtain ⟨b, h1, h2⟩ := ha
  obtain ⟨b', h3, h4, _⟩ := h.get hq h1
  exact ⟨b', h3, by rw [h4, h2]⟩

theorem Same.kidOk {P} {bs bs' : List Body} (h : Same P bs bs') {q k : Nat} (hq : ¬ P q) (ha : KidOk bs q k) : KidOk bs' q k := by
  obtain ⟨b, h1, h2⟩ := ha
  obtain ⟨b', h3, _, _, h4⟩ := h.get hq h1
  exact ⟨b', h3, by rw [h4]; exact h2⟩

theorem Same.notKid {bs bs' : List Body} (h : Same Nowhere bs bs') {q : Nat} (ha : NotKid bs q) : NotKid bs' q := by
  intro p b hb hk
  obtain ⟨b', h3, _, _, h4⟩ := h.symm.get id hb
  exact ha p b' h3 (by rw [h4]; exact hk)

theorem Avoids.nowhere (bs : List Body) : Avoids Nowhere bs := fun _ _ _ _ _ h => absurd h id

theorem not_notKid {bs : List Body} {o : Nat} (h : ¬ NotKid bs o) : ∃ (q : Nat) (b : Body), bs[q]? = some b ∧ Cell.ref o ∈ b.kids := by
  apply Classical.byContradiction
  intro hn
  exact h (fun q b h1 h2 => hn ⟨q, b, h1, h2⟩)

theorem Inv.update {bs : List Body} {vs : List (Option Cell)} {v : Nat} {r : List Nat} {a : Act} {t : List Act} {rest : List Job}
    (h : Inv bs vs (⟨v, r, a :: t⟩ :: rest)) {bs' : List Body} {vs' : List (Option Cell)} {T' : List Act} (P : Nat → Prop) (d : Nat → Int)
    (hP : ∀ p, P p → Owns (a :: t) p) (hsame : Same P bs bs') (hvs : ∀ u, u ≠ v → vs'[u]? = vs[u]?)
    (hkids : ∀ (q : Nat) (b' : Body) (o : Nat), bs'[q]? = some b' → Cell.ref o ∈ b'.kids → ¬ NotKid bs o ∨ Mentions (a :: t) o)
    (hvars : ∀ o, Holds vs' v o → Holds vs v o ∨ Mentions (a :: t) o)
    (hjob : JobOk bs' vs' ⟨v, r, T'⟩)
    (hown : ∀ p, Owns T' p → Owns (a :: t) p ∨ ∀ k ∈ rest, ¬ Mentions k.todo p)
    (hment : ∀ p, Mentions T' p → Mentions (a :: t) p ∨ (∃ u, (u ∈ r ∨ u = v) ∧ Holds vs u p) ∨ ¬ NotKid bs p)
    (hd : ∀ q, V vs' q + K bs' q + W T' q = V vs q + K bs q + W (a :: t) q + d q)
    (hb : ∀ (q : Nat) (b' : Body), bs'[q]? = some b' → ∃ b, bs[q]? = some b ∧ b'.count = b.count + d q ∧
      (b'.live = b.live ∨ (b'.live = false ∧ d q = 0 ∧ Tot bs vs (⟨v, r, a :: t⟩ :: rest) q = 0)))
    (hn : ∀ q : Nat, bs'[q]? = Option.none → bs[q]? = Option.none)
    (hdz : ∀ q, d q ≠ 0 → Alive bs q ∧ Mentions (a :: t) q)
    (hz : ∀ q, Tot bs vs (⟨v, r, a :: t⟩ :: rest) q + d q = 0 → d q ≠ 0 → Act.del q ∈ T')
    (hz2 : ∀ q, Act.del q ∈ a :: t ∨ Act.adopt q ∈ a :: t → Alive bs' q → d q = 0 → Act.del q ∈ T' ∨ Act.adopt q ∈ T')
    (hz3 : ∀ q, Act.del q ∈ T' ∨ Act.adopt q ∈ T' → Tot bs vs (⟨v, r, a :: t⟩ :: rest) q + d q = 0)
    (hfit : ∀ o, Alive bs' o → ∃ n, (valueAt bs' n (.ref o)).isSome) :
    Inv bs' vs' (⟨v, r, T'⟩ :: rest) := by
  have hsep := (List.pairwise_cons.1 h.sep).1
  have hT : ∀ q, Tot bs' vs' (⟨v, r, T'⟩ :: rest) q = Tot bs vs (⟨v, r, a :: t⟩ :: rest) q + d q := by
    intro q
    have := hd q
    unfold Tot
    rw [JW_cons, JW_cons]
    simp only
    omega
  have hrest : ∀ k ∈ rest, JobOk bs' vs' k := by
    intro k hk
    have hs := hsep k hk
    have hk' := h.jobs k (List.mem_cons_of_mem _ hk)
    have hnP : ∀ p, Mentions k.todo p → ¬ P p := fun p hm hp => hs.own p (hP p hp) hm
    have hne : ∀ w, (w ∈ k.reads ∨ w = k.v) → w ≠ v := by
      rintro w (hw | hw) rfl
      · exact hs.vr hw
      · exact hs.vv hw
    have hheld : ∀ w p, (w ∈ k.reads ∨ w = k.v) → Holds vs w p → ¬ P p := by
      intro w p hw hh hp
      exact hne w hw (((h.jobs _ (List.mem_cons_self ..)).own p (hP p hp)).2.1 w hh)
    refine ⟨?_, hk'.nr, ?_, hk'.feed⟩
    · have hcur : curOf vs' k.v = curOf vs k.v := by unfold curOf; rw [hvs k.v (fun e => hs.vv e.symm)]
      rw [hcur]
      refine hk'.good.frame (fun p q hm => hsame.kidOk (hnP p hm)) ?_ ?_ ?_
      · intro w hw hc; rw [hvs w (hne w hw)]; exact hc
      · intro w hw; exact hvs w (hne w (Or.inl hw))
      · rintro - o ho ⟨w, hw, hr⟩
        refine ⟨w, hw, ?_⟩
        rcases hr with hr | ⟨p, b, h1, h2, h3⟩
        · exact Or.inl (by rw [Holds, hvs w (hne w hw)]; exact hr)
        · obtain ⟨b', h4, _, _, h5⟩ := hsame.get (hheld w p hw h1) h2
          exact Or.inr ⟨p, b', by rw [Holds, hvs w (hne w hw)]; exact h1, h4, by rw [h5]; exact h3⟩
    · intro p hp
      obtain ⟨h1, h2, h3⟩ := hk'.own p hp
      have hnm := hs.own' p hp
      refine ⟨hsame.alive (hnP p hp.mentions) h1, ?_, ?_⟩
      · intro u hu
        by_cases huv : u = v
        · subst huv
          rcases hvars p hu with h4 | h4
          · exact h2 u h4
          · exact absurd h4 hnm
        · exact h2 u (by rw [Holds, hvs u huv] at hu; exact hu)
      · intro q b' hq hkq
        rcases hkids q b' p hq hkq with h4 | h4
        · exact h4 h3
        · exact hnm h4
  refine ⟨?_, ?_, ?_, ?_, ?_, ?_, ?_, hfit⟩
  · intro j hj
    rcases List.mem_cons.1 hj with rfl | hj
    · exact hjob
    · exact hrest j hj
  · refine List.pairwise_cons.2 ⟨fun k hk => ?_, (List.pairwise_cons.1 h.sep).2⟩
    have hs := hsep k hk
    refine ⟨hs.vv, hs.vr, hs.rv, ?_, ?_⟩
    · intro p hp
      rcases hown p hp with h1 | h1
      · exact hs.own p h1
      · exact h1 k hk
    · intro p hp hm
      obtain ⟨h1, h2, h3⟩ := (h.jobs k (List.mem_cons_of_mem _ hk)).own p hp
      rcases hment p hm with h4 | ⟨u, h4, h5⟩ | h4
      · exact hs.own' p hp h4
      · have := h2 u h5
        subst this
        rcases h4 with h4 | h4
        · exact hs.rv h4
        · exact hs.vv h4.symm
      · exact h4 h3
  · intro o ho
    have h1 := hn o ho
    have h2 := h.none o h1
    rw [hT]
    by_cases hdo : d o = 0
    · omega
    · obtain ⟨b, h3, _⟩ := (hdz o hdo).1
      rw [h1] at h3; cases h3
  · intro o b' ho
    obtain ⟨b, h1, h2, _⟩ := hb o b' ho
    rw [hT, h2, h.count o b h1]
  · intro o b' ho hl
    rw [hT]
    obtain ⟨b, h1, _, h3 | ⟨_, h3, h4⟩⟩ := hb o b' ho
    · rw [hl] at h3
      by_cases hdo : d o = 0
      · have := h.dead o b h1 h3.symm; omega
      · obtain ⟨b2, h4, h5⟩ := (hdz o hdo).1
        rw [h1] at h4; cases h4
        rw [h5] at h3; cases h3
    · omega
  · intro o b' ho hl ht
    rw [hT] at ht
    obtain ⟨b, h1, _, h3 | ⟨h3, _⟩⟩ := hb o b' ho
    · by_cases hdo : d o = 0
      · obtain ⟨j, h4, h5⟩ := h.lost o b h1 (by rw [← h3]; exact hl) (by omega)
        rcases List.mem_cons.1 h4 with rfl | h4
        · exact ⟨_, List.mem_cons_self .., hz2 o h5 ⟨b', ho, hl⟩ hdo⟩
        · exact ⟨j, List.mem_cons_of_mem _ h4, h5⟩
      · exact ⟨_, List.mem_cons_self .., Or.inl (hz o ht hdo)⟩
    · rw [h3] at hl; cases hl
  · intro j hj p hp
    rw [hT]
    rcases List.mem_cons.1 hj with rfl | hj
    · exact hz3 p hp
    · have h1 := h.zero j (List.mem_cons_of_mem _ hj) p hp
      have ho : Owns j.todo p := by rcases hp with hp | hp <;> exact ⟨_, hp, rfl⟩
      have h2 := (hsep j hj).own' p ho
      have : d p = 0 := Classical.byContradiction fun hdp => h2 (hdz p hdp).2
      omega

/-- a step that changes only counts and what is to be done -/
theorem Inv.quiet {bs : List Body} {vs : List (Option Cell)} {v : Nat} {r : List Nat} {a : Act} {t : List Act} {rest : List Job}
    (h : Inv bs vs (⟨v, r, a :: t⟩ :: rest)) {bs' : List Body} {T' : List Act} (d : Nat → Int) (hsame : Same Nowhere bs bs')
    (hgood : Good bs vs v r true (curOf vs v) T')
    (hown : ∀ p, Owns T' p → Owns (a :: t) p ∨ (Alive bs p ∧ (∀ u, ¬ Holds vs u p) ∧ NotKid bs p ∧ ∀ k ∈ rest, ¬ Mentions k.todo p))
    (hfeed : ∀ x ∈ T', ∀ o ∈ x.feeds, ¬ Owns T' o)
    (hment : ∀ p, Mentions T' p → Mentions (a :: t) p ∨ (∃ u, (u ∈ r ∨ u = v) ∧ Holds vs u p) ∨ ¬ NotKid bs p)
    (hK : ∀ q, K bs' q = K bs q)
    (hd : ∀ q, W T' q = W (a :: t) q + d q)
    (hb : ∀ (q : Nat) (b' : Body), bs'[q]? = some b' → ∃ b, bs[q]? = some b ∧ b'.count = b.count + d q)
    (hdz : ∀ q, d q ≠ 0 → Alive bs q ∧ Mentions (a :: t) q)
    (hz : ∀ q, Tot bs vs (⟨v, r, a :: t⟩ :: rest) q + d q = 0 → d q ≠ 0 → Act.del q ∈ T')
    (hz2 : ∀ q, Act.del q ∈ a :: t ∨ Act.adopt q ∈ a :: t → d q = 0 → Act.del q ∈ T' ∨ Act.adopt q ∈ T')
    (hz3 : ∀ q, Act.del q ∈ T' ∨ Act.adopt q ∈ T' → Tot bs vs (⟨v, r, a :: t⟩ :: rest) q + d q = 0) :
    Inv bs' vs (⟨v, r, T'⟩ :: rest) := by
  have hj := h.jobs _ (List.mem_cons_self ..)
  refine h.update Nowhere d (fun _ h => absurd h id) hsame (fun _ _ => rfl) ?_ (fun _ h => Or.inl h) ?_ ?_ hment ?_ ?_ ?_ hdz hz ?_ hz3 ?_
  · intro q b' o hq hk
    obtain ⟨b, h1, _, _, h2⟩ := hsame.symm.get id hq
    exact Or.inl (fun hn => hn q b h1 (by rw [h2]; exact hk))
  · refine ⟨hgood.frame (fun p k _ => hsame.kidOk id) (fun _ _ h => h) (fun _ _ => rfl) ?_, hj.nr, ?_, hfeed⟩
    · rintro - o _ ⟨w, hw, hr⟩
      refine ⟨w, hw, hr.imp_right ?_⟩
      rintro ⟨p, b, h1, h2, h3⟩
      obtain ⟨b', h4, _, _, h5⟩ := hsame.get id h2
      exact ⟨p, b', h1, h4, by rw [h5]; exact h3⟩
    · intro p hp
      rcases hown p hp with h1 | ⟨h1, h2, h3, _⟩
      · obtain ⟨h2, h3, h4⟩ := hj.own p h1
        exact ⟨hsame.alive id h2, h3, hsame.notKid h4⟩
      · exact ⟨hsame.alive id h1, fun u hu => absurd hu (h2 u), hsame.notKid h3⟩
  · intro p hp
    exact (hown p hp).imp_right (fun h => h.2.2.2)
  · intro q
    have := hd q
    have := hK q
    omega
  · intro q b' hq
    obtain ⟨b, h1, h2⟩ := hb q b' hq
    obtain ⟨b2, h3, h4, _⟩ := hsame.symm.get id hq
    rw [h1] at h3; cases h3
    exact ⟨b, h1, h2, Or.inl h4.symm⟩
  · intro q hq
    have := hsame q id
    rw [hq] at this
    cases h2 : bs[q]? with
    | none => rfl
    | some b => rw [h2] at this; cases this
  · intro q hq _ hdq
    exact hz2 q hq hdq
  · intro o ho
    obtain ⟨n, hn⟩ := h.fit o (hsame.symm.alive id ho)
    exact ⟨n, by rw [← valueAt_frame hsame (Avoids.nowhere bs) n (fun p hp => absurd hp id)]; exact hn⟩

end Strpp.NestPar
