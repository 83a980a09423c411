import Verif.Proof.NestParHist
/-! Starting calls: C88. -/
set_option linter.unusedSectionVars false
set_option linter.unusedVariables false
set_option linter.unusedSimpArgs false
namespace Strpp.NestPar
open Spec

theorem Inv.tot_zero {bs vs js} (h : Inv bs vs js) {o : Nat} (ho : Tot bs vs js o = 0) : V vs o = 0 ∧ K bs o = 0 ∧ ∀ k ∈ js, W k.todo o = 0 := by
  have h1 := V_nonneg vs o
  have h2 := K_nonneg bs o
  obtain ⟨h3, h4, h5⟩ := h.tot_ge o
  refine ⟨by omega, by omega, fun k hk => ?_⟩
  have := h5 k hk
  have := (h.jobs k hk).good.nonneg o
  omega

theorem Alive.lt {bs : List Body} {o : Nat} (h : Alive bs o) : o < bs.length := by
  obtain ⟨b, h1, _⟩ := h
  exact (List.getElem?_eq_some_iff.1 h1).1

theorem Inv.mention_lt {bs vs js} (h : Inv bs vs js) {k : Job} (hk : k ∈ js) {p : Nat} (hm : Mentions k.todo p) : p < bs.length := by
  apply Classical.byContradiction
  intro hn
  obtain ⟨h1, h2, h3⟩ := h.tot_zero (h.none p (List.getElem?_eq_none (by omega)))
  refine h.unmentioned hk h1 h2 (h3 k hk) ?_ hm
  intro ho
  exact hn ((h.jobs k hk).own p ho).1.lt

theorem same_append (bs nb : List Body) : Same (fun q => bs.length ≤ q) bs (bs ++ nb) := by
  intro q hq
  rw [List.getElem?_append_left (by omega)]

theorem Inv.avoids_new {bs vs js} (h : Inv bs vs js) : Avoids (fun q => bs.length ≤ q) bs := by
  intro q b _ hb p hp hm
  have := (h.alive_kid hb hm).lt
  omega

theorem alive_append {bs nb : List Body} {o : Nat} (h : Alive bs o) : Alive (bs ++ nb) o := (same_append bs nb).alive (by have := h.lt; omega) h

theorem kidOk_append {bs nb : List Body} {o k : Nat} (h : KidOk bs o k) : KidOk (bs ++ nb) o k := by
  obtain ⟨b, h1, h2⟩ := h
  exact ⟨b, by rw [List.getElem?_append_left (List.getElem?_eq_some_iff.1 h1).1]; exact h1, h2⟩

def Plain (nb : List Body) : Prop := ∀ b ∈ nb, b.count = 0 ∧ b.live = true ∧ ∀ c ∈ b.kids, ∃ n, c = Cell.num n

theorem Plain.get {bs nb : List Body} (hnb : Plain nb) {q : Nat} {b : Body} (h : (bs ++ nb)[q]? = some b) :
    bs[q]? = some b ∨ (bs.length ≤ q ∧ q < bs.length + nb.length ∧ b.count = 0 ∧ b.live = true ∧ ∀ c ∈ b.kids, ∃ n, c = Cell.num n) := by
  by_cases hq : q < bs.length
  · rw [List.getElem?_append_left hq] at h; exact Or.inl h
  · rw [List.getElem?_append_right (by omega)] at h
    have h1 := (List.getElem?_eq_some_iff.1 h).1
    exact Or.inr ⟨by omega, by omega, hnb b (List.mem_of_getElem? h)⟩

theorem Plain.noK {bs nb : List Body} (hnb : Plain nb) (o : Nat) : K (bs ++ nb) o = K bs o := by
  have : K nb o = 0 := by
    have h1 := K_nonneg nb o
    rcases (show K nb o = 0 ∨ 0 < K nb o by omega) with h2 | h2
    · exact h2
    · obtain ⟨q, b, h3, h4⟩ := K_exists h2
      obtain ⟨n, h5⟩ := (hnb b (List.mem_of_getElem? h3)).2.2 _ h4
      cases h5
  unfold K at this ⊢
  rw [List.map_append, List.sum_append, this]
  omega

/-- a call is started -/
theorem Inv.add {bs vs js} (h : Inv bs vs js) {nb : List Body} (hnb : Plain nb) {vs' : List (Option Cell)} {j : Job} (hj : JobOk (bs ++ nb) vs' j)
    (hvs : ∀ u, u ≠ j.v → vs'[u]? = vs[u]?) (hheld : ∀ o, Holds vs' j.v o → Holds vs j.v o)
    (hd : ∀ o, V vs' o + W j.todo o = V vs o)
    (hlock : ∀ k ∈ js, k.v ≠ j.v ∧ j.v ∉ k.reads ∧ k.v ∉ j.reads)
    (hown : ∀ p, Owns j.todo p → ∀ k ∈ js, ¬ Mentions k.todo p)
    (hment : ∀ p, Mentions j.todo p → bs.length ≤ p ∨ ∃ u, (u ∈ j.reads ∨ u = j.v) ∧ Holds vs u p)
    (hnew : ∀ p, bs.length ≤ p → p < bs.length + nb.length → Act.adopt p ∈ j.todo)
    (hz : ∀ p, Act.del p ∈ j.todo ∨ Act.adopt p ∈ j.todo → bs.length ≤ p) : Inv (bs ++ nb) vs' (j :: js) := by
  have hT : ∀ q, Tot (bs ++ nb) vs' (j :: js) q = Tot bs vs js q := by
    intro q
    have := hd q
    unfold Tot
    rw [JW_cons, hnb.noK]
    omega
  have hout : ∀ q, bs.length ≤ q → Tot bs vs js q = 0 := fun q hq => h.none q (List.getElem?_eq_none hq)
  refine ⟨?_, ?_, ?_, ?_, ?_, ?_, ?_, ?_⟩
  · intro k hk
    rcases List.mem_cons.1 hk with rfl | hk
    · exact hj
    obtain ⟨l1, l2, l3⟩ := hlock k hk
    have hk' := h.jobs k hk
    have hne : ∀ w, (w ∈ k.reads ∨ w = k.v) → w ≠ j.v := by
      rintro w (hw | hw) rfl
      · exact l2 hw
      · exact l1 hw.symm
    refine ⟨?_, hk'.nr, ?_, hk'.feed⟩
    · have hcur : curOf vs' k.v = curOf vs k.v := by unfold curOf; rw [hvs k.v l1]
      rw [hcur]
      refine hk'.good.frame (fun p q _ => kidOk_append) ?_ ?_ ?_
      · intro w hw hc; rw [hvs w (hne w hw)]; exact hc
      · intro w hw; exact hvs w (hne w (Or.inl hw))
      · rintro - o ho ⟨w, hw, hr⟩
        refine ⟨w, hw, ?_⟩
        rcases hr with hr | ⟨p, b, h1, h2, h3⟩
        · exact Or.inl (by rw [Holds, hvs w (hne w hw)]; exact hr)
        · exact Or.inr ⟨p, b, by rw [Holds, hvs w (hne w hw)]; exact h1, by rw [List.getElem?_append_left (List.getElem?_eq_some_iff.1 h2).1]; exact h2, h3⟩
    · intro p hp
      obtain ⟨h1, h2, h3⟩ := hk'.own p hp
      refine ⟨alive_append h1, ?_, ?_⟩
      · intro u hu
        by_cases huv : u = j.v
        · subst huv; exact h2 _ (hheld p hu)
        · exact h2 u (by rw [Holds, hvs u huv] at hu; exact hu)
      · intro q b hq hm
        rcases hnb.get hq with h4 | ⟨_, _, _, _, h4⟩
        · exact h3 q b h4 hm
        · obtain ⟨n, h5⟩ := h4 _ hm; cases h5
  · refine List.pairwise_cons.2 ⟨fun k hk => ?_, h.sep⟩
    obtain ⟨l1, l2, l3⟩ := hlock k hk
    refine ⟨fun e => l1 e.symm, l2, l3, fun p hp => hown p hp k hk, ?_⟩
    intro p hp hm
    obtain ⟨h1, h2, _⟩ := (h.jobs k hk).own p hp
    rcases hment p hm with h4 | ⟨u, h4, h5⟩
    · have := h1.lt; omega
    · have := h2 u h5
      subst this
      rcases h4 with h4 | h4
      · exact l3 h4
      · exact l1 h4
  · intro o ho
    rw [hT]
    refine hout o ?_
    have := List.getElem?_eq_none_iff.1 ho
    rw [List.length_append] at this
    omega
  · intro o b ho
    rw [hT]
    rcases hnb.get ho with h1 | ⟨h1, _, h2, _⟩
    · exact h.count o b h1
    · rw [hout o h1, h2]
  · intro o b ho hl
    rw [hT]
    rcases hnb.get ho with h1 | ⟨h1, _⟩
    · exact h.dead o b h1 hl
    · exact hout o h1
  · intro o b ho hl ht
    rw [hT] at ht
    rcases hnb.get ho with h1 | ⟨h1, h2, _⟩
    · obtain ⟨k, h2, h3⟩ := h.lost o b h1 hl ht
      exact ⟨k, List.mem_cons_of_mem _ h2, h3⟩
    · exact ⟨j, List.mem_cons_self .., Or.inr (hnew o h1 h2)⟩
  · intro k hk p hp
    rw [hT]
    rcases List.mem_cons.1 hk with rfl | hk
    · exact hout p (hz p hp)
    · exact h.zero k hk p hp
  · rintro o ⟨b, ho, hl⟩
    rcases hnb.get ho with h1 | ⟨h1, _, _, _, h2⟩
    · obtain ⟨n, hn⟩ := h.fit o ⟨b, h1, hl⟩
      have hlt := (List.getElem?_eq_some_iff.1 h1).1
      exact ⟨n, by rw [← valueAt_frame (same_append bs nb) h.avoids_new n (by rintro p hp e; cases e; omega)]; exact hn⟩
    · refine ⟨1, ?_⟩
      rw [valueAt_ref ho hl, Option.isSome_map]
      refine mapM_isSome (fun c hc => ?_)
      obtain ⟨n, rfl⟩ := h2 c hc
      rfl

/-- a call is started, with the values -/
theorem J.add {s : State} {A : View} (h : J s A) {nb : List Body} (hnb : Plain nb) {vs' : List (Option Cell)} {j : Job} {y : Option Val}
    (hjv : j.v < s.vars.length) (hjr : ∀ w ∈ j.reads, w < s.vars.length) (hlen : vs'.length = s.vars.length)
    (hj : JobOk (s.bodies ++ nb) vs' j)
    (hvs : ∀ u, u ≠ j.v → vs'[u]? = s.vars[u]?) (hheld : ∀ o, Holds vs' j.v o → Holds s.vars j.v o)
    (hd : ∀ o, V vs' o + W j.todo o = V s.vars o)
    (hlock : ∀ k ∈ s.jobs, k.v ≠ j.v ∧ j.v ∉ k.reads ∧ k.v ∉ j.reads)
    (hown : ∀ p, Owns j.todo p → ∀ k ∈ s.jobs, ¬ Mentions k.todo p)
    (hment : ∀ p, Mentions j.todo p → s.bodies.length ≤ p ∨ ∃ u, (u ∈ j.reads ∨ u = j.v) ∧ Holds s.vars u p)
    (hnew : ∀ p, s.bodies.length ≤ p → p < s.bodies.length + nb.length → Act.adopt p ∈ j.todo)
    (hz : ∀ p, Act.del p ∈ j.todo ∨ Act.adopt p ∈ j.todo → s.bodies.length ≤ p)
    (hy : ∀ x, y = some x → Ends (s.bodies ++ nb, vs') j.todo j.v x) : J ⟨s.bodies ++ nb, vs', s.jobs ++ [j]⟩ (A.set j.v y) := by
  have hlike : ∀ U : Nat → Prop, ¬ U j.v → Like U (fun q => s.bodies.length ≤ q) (s.bodies, s.vars) (s.bodies ++ nb, vs') := by
    intro U hU
    refine ⟨same_append _ _, h.inv.avoids_new, fun w hw => (hvs w (by rintro rfl; exact hU hw)).symm, ?_⟩
    intro w p _ hp hh
    have := (h.inv.alive_held hh).lt
    omega
  refine ⟨(h.inv.add hnb hj hvs hheld hd hlock hown hment hnew hz).perm (List.perm_append_singleton j s.jobs).symm, by rw [List.length_set, h.len, hlen], ?_, ?_, ?_⟩
  · intro k hk
    simp only [List.mem_append, List.mem_singleton] at hk
    show k.v < vs'.length ∧ ∀ w ∈ k.reads, w < vs'.length
    rcases hk with hk | rfl
    · rw [hlen]; exact h.bound k hk
    · rw [hlen]; exact ⟨hjv, hjr⟩
  · intro k hk x hx
    simp only [List.mem_append, List.mem_singleton] at hk
    rcases hk with hk | rfl
    · obtain ⟨l1, l2, l3⟩ := hlock k hk
      rw [List.getElem?_set_ne (fun e => l1 e.symm)] at hx
      refine (hlike (fun w => w ∈ k.reads ∨ w = k.v) ?_).ends ?_ (h.inv.jobs k hk).good.vars (Or.inr rfl) (h.jobs k hk x hx)
      · rintro (h1 | h1)
        · exact l2 h1
        · exact l1 h1.symm
      · intro p hp hm
        have := h.inv.mention_lt hk hm
        omega
    · rw [List.getElem?_set_self (by rw [h.len]; exact hjv)] at hx
      exact hy x (by cases hx; rfl)
  · intro u x hu hx
    have huv : j.v ≠ u := hu j (by simp)
    rw [List.getElem?_set_ne huv] at hx
    refine (hlike (· = u) (fun e => huv e)).ends ?_ ?_ rfl (h.idle u x (fun k hk => hu k (by simp [hk])) hx)
    · rintro p _ ⟨a, h1, _⟩; cases h1
    · intro a ha; cases ha

/-- a variable is constructed -/
theorem J.newVar {s : State} {A : View} (h : J s A) (n : Int) : J { s with vars := s.vars ++ [some (.num n)] } (A ++ [some (.num n)]) := by
  have hget : ∀ u, u < s.vars.length → (s.vars ++ [some (.num n)])[u]? = s.vars[u]? := fun u hu => List.getElem?_append_left hu
  have hhold : ∀ u p, Holds (s.vars ++ [some (.num n)]) u p → Holds s.vars u p := by
    intro u p hu
    by_cases hlt : u < s.vars.length
    · rw [Holds, hget u hlt] at hu; exact hu
    · rw [Holds, List.getElem?_append_right (by omega)] at hu
      cases h2 : u - s.vars.length with
      | zero => rw [h2] at hu; cases hu
      | succ m => rw [h2] at hu; cases hu
  have hV : ∀ o, V (s.vars ++ [some (.num n)]) o = V s.vars o := by
    intro o; unfold V; rw [List.map_append, List.sum_append]; simp [cntV, cnt_num]
  have hT : ∀ o, Tot s.bodies (s.vars ++ [some (.num n)]) s.jobs o = Tot s.bodies s.vars s.jobs o := by
    intro o; unfold Tot; rw [hV]
  have hsome : ∀ (w : Nat) (c : Option Cell), s.vars[w]? = some c → (s.vars ++ [some (.num n)])[w]? = some c := by
    intro w c hw
    rw [hget w (List.getElem?_eq_some_iff.1 hw).1]; exact hw
  have hlike : Like (fun w => w < s.vars.length) Nowhere (s.bodies, s.vars) (s.bodies, s.vars ++ [some (.num n)]) :=
    ⟨fun _ _ => rfl, Avoids.nowhere _, fun w hw => (hget w hw).symm, fun _ _ _ h => absurd h id⟩
  have hval : ∀ (t : List Act) (v : Nat) (x : Val), (∀ a ∈ t, ∀ w ∈ a.vars, w < s.vars.length) → v < s.vars.length → Ends (s.bodies, s.vars) t v x → Ends (s.bodies, s.vars ++ [some (.num n)]) t v x := by
    intro t v x h1 h2 h3
    exact hlike.ends (fun _ h => absurd h id) h1 h2 h3
  have hAget : ∀ u, u ≠ s.vars.length → (A ++ [some (Val.num n)])[u]? = A[u]? := by
    intro u hu
    by_cases hlt : u < A.length
    · exact List.getElem?_append_left hlt
    · have := h.len
      rw [List.getElem?_eq_none (by simp; omega), List.getElem?_eq_none (by omega)]
  have hAlt : ∀ (u : Nat) (x : Val), A[u]? = some (some x) → u < s.vars.length := fun u x hx => by
    rw [← h.len]; exact (List.getElem?_eq_some_iff.1 hx).1
  -- variables in actions exist
  have hread : ∀ {t : List Act} {hd : Bool} {cur : Option Cell} {v : Nat} {rs : List Nat}, Good s.bodies s.vars v rs hd cur t → ∀ a ∈ t, ∀ w ∈ a.vars, w < s.vars.length := by
    intro t
    induction t with
    | nil => intro hd cur v rs _ a ha; cases ha
    | cons b t ih =>
      intro hd cur v rs hg a ha w hw
      rcases List.mem_cons.1 ha with rfl | ha
      · have hdst : ∀ l : Loc, DstOk s.bodies s.vars v cur t l → w ∈ l.vars → w < s.vars.length := by
          intro l h2 h3
          cases l with
          | var x =>
            simp [Loc.vars] at h3
            obtain ⟨rfl, c, h4⟩ := h2
            subst h3
            exact (List.getElem?_eq_some_iff.1 h4).1
          | kid p k => cases h3
        have hsrc : ∀ (l s' : Loc), SrcOk s.bodies s.vars v rs cur l s' → w ∈ s'.vars → w < s.vars.length := by
          intro l s' h2 h3
          cases s' with
          | var x =>
            simp [Loc.vars] at h3; subst h3
            obtain ⟨_, c, h4⟩ := h2
            exact (List.getElem?_eq_some_iff.1 h4).1
          | kid p k => cases h3
        have h1 := hg.1
        cases a with
        | swap l c => exact hdst l h1 hw
        | copyTo s' l =>
          rcases List.mem_append.1 hw with h2 | h2
          · exact hsrc l s' h1.1 h2
          · exact hdst l h1.2.1 h2
        | asg s' l =>
          rcases List.mem_append.1 hw with h2 | h2
          · exact hsrc l s' h1.1 h2
          · exact hdst l h1.2.1 h2
        | _ => cases hw
      · exact ih hg.2.2 a ha w hw
  refine ⟨⟨?_, h.inv.sep, ?_, ?_, ?_, ?_, ?_, h.inv.fit⟩, by simp [h.len], ?_, ?_, ?_⟩
  · intro k hk
    have hk' := h.inv.jobs k hk
    refine ⟨?_, hk'.nr, ?_, hk'.feed⟩
    · have hcur : curOf (s.vars ++ [some (.num n)]) k.v = curOf s.vars k.v := by unfold curOf; rw [hget k.v (h.bound k hk).1]
      rw [hcur]
      have hg := hk'.good
      -- reads that do not exist are never used
      have key : ∀ {t : List Act} {hd : Bool} {cur : Option Cell}, Good s.bodies s.vars k.v k.reads hd cur t → Good s.bodies (s.vars ++ [some (.num n)]) k.v k.reads hd cur t := by
        intro t
        induction t with
        | nil => intros; trivial
        | cons a t ih =>
          intro hd cur hg
          refine ⟨?_, hg.2.1, ih hg.2.2⟩
          have h1 := hg.1
          have hdst : ∀ l : Loc, DstOk s.bodies s.vars k.v cur t l → DstOk s.bodies (s.vars ++ [some (.num n)]) k.v cur t l := by
            intro l h2
            cases l with
            | var x => exact ⟨h2.1, h2.2.choose, hsome _ _ h2.2.choose_spec⟩
            | kid p q => exact h2
          have hsrc : ∀ (l s' : Loc), SrcOk s.bodies s.vars k.v k.reads cur l s' → SrcOk s.bodies (s.vars ++ [some (.num n)]) k.v k.reads cur l s' := by
            intro l s' h2
            cases s' with
            | var x => exact ⟨h2.1, h2.2.choose, hsome _ _ h2.2.choose_spec⟩
            | kid p q =>
              refine ⟨h2.1, h2.2.imp_left ?_⟩
              rintro ⟨w, h3, h4⟩
              exact ⟨w, h3, hsome _ _ h4⟩
          cases a with
          | inc o =>
            rcases h1 with h1 | ⟨h1, h2, w, h3, h4⟩
            · exact Or.inl h1
            · refine Or.inr ⟨h1, h2, w, h3, ?_⟩
              rcases h4 with h4 | ⟨p, b, h4, h5⟩
              · exact Or.inl (hsome _ _ h4)
              · exact Or.inr ⟨p, b, hsome _ _ h4, h5⟩
          | swap l c => exact hdst l h1
          | copyTo s' l => exact ⟨hsrc l s' h1.1, hdst l h1.2.1, h1.2.2⟩
          | asg s' l => exact ⟨hsrc l s' h1.1, hdst l h1.2.1, h1.2.2⟩
          | _ => exact h1
      exact key hg
    · intro p hp
      obtain ⟨h1, h2, h3⟩ := hk'.own p hp
      exact ⟨h1, fun u hu => h2 u (hhold u p hu), h3⟩
  · intro o ho; rw [hT]; exact h.inv.none o ho
  · intro o b ho; rw [hT]; exact h.inv.count o b ho
  · intro o b ho hl; rw [hT]; exact h.inv.dead o b ho hl
  · intro o b ho hl ht; rw [hT] at ht; exact h.inv.lost o b ho hl ht
  · intro k hk p hp; rw [hT]; exact h.inv.zero k hk p hp
  · intro k hk
    have := h.bound k hk
    simp only [List.length_append, List.length_singleton]
    exact ⟨by omega, fun w hw => by have := this.2 w hw; omega⟩
  · intro k hk x hx
    have hb := (h.bound k hk).1
    rw [hAget _ (by omega)] at hx
    exact hval _ _ _ (hread (h.inv.jobs k hk).good) hb (h.jobs k hk x hx)
  · intro u x hu hx
    by_cases hul : u = s.vars.length
    · subst hul
      rw [← h.len, List.getElem?_concat_length] at hx
      cases hx
      exact ⟨.num n, by show (s.vars ++ [some (Cell.num n)])[s.vars.length]? = _; rw [List.getElem?_concat_length], 0, rfl⟩
    · rw [hAget u hul] at hx
      exact hval [] u x (fun a ha => by cases ha) (hAlt u x hx) (h.idle u x hu hx)

end Strpp.NestPar
