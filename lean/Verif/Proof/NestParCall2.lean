import Verif.Proof.NestParCalls
/-! Each call, and histories: C88. -/
set_option linter.unusedSectionVars false
set_option linter.unusedVariables false
set_option linter.unusedSimpArgs false
namespace Strpp.NestPar
open Spec

theorem peek_var {bs : List Body} {vs : List (Option Cell)} {w : Nat} {c : Cell} (h : vs[w]? = some (some c)) : peek (bs, vs) (.var w) = c := by
  simp [peek, curOf, h]

theorem readable_new {s : State} {w : Nat} {n : Int} {c : Cell} (h : s.vars[w]? = some (some c)) : (s.vars ++ [some (.num n)])[w]? = some (some c) := by
  rw [List.getElem?_append_left (List.getElem?_eq_some_iff.1 h).1]; exact h

/-- a variable is constructed as a copy -/
theorem J.copied {s : State} {A : View} (h : J s A) {w : Nat} {src : Loc} {c : Cell} {y : Val} (hw : w < s.vars.length) (hr : Readable s w)
    (hsrc : SrcOk s.bodies (s.vars ++ [some (.num 0)]) s.vars.length [w] (some (.num 0)) (.var s.vars.length) src)
    (hm : ∀ p ∈ src.nodes, Holds s.vars w p) (hpeek : peek (s.bodies, s.vars ++ [some (.num 0)]) src = c) (hy : ∃ n, valueAt s.bodies n c = some y) :
    J ⟨s.bodies, s.vars ++ [some (.num 0)], s.jobs ++ [⟨s.vars.length, [w], [.copyTo src (.var s.vars.length)]⟩]⟩ (A ++ [some y]) := by
  have hno : ∀ p, ¬ Owns [Act.copyTo src (.var s.vars.length)] p := by
    rintro p ⟨a, h1, h2⟩
    simp at h1; subst h1; cases h2
  have := h.construct (nb := []) (rs := [w]) (todo := [.copyTo src (.var s.vars.length)]) (y := y) (by intro b hb; cases hb)
    (by intro u hu; simp at hu; subst hu; exact ⟨hw, hr⟩)
    (by
      rw [List.append_nil]
      refine ⟨⟨hsrc, ⟨rfl, .num 0, by simp⟩, fun _ _ => rfl⟩, fun o => ?_, trivial⟩
      simp [W, Act.w])
    (fun a ha o ho => hno o) (fun o => by simp [W, Act.w]) (fun p hp => absurd hp (hno p))
    (by
      rintro p ⟨a, h1, h2⟩
      simp at h1; subst h1
      simp only [Act.nodes, Loc.nodes, List.append_nil] at h2
      exact Or.inr ⟨w, by simp, hm p h2⟩)
    (by intro p h1 h2; simp at h2; omega)
    (by intro p hp; simp at hp)
    (by
      rw [List.append_nil]
      refine ⟨c, ?_, ?_⟩
      · simp only [Fin, List.foldl, eff, hpeek, putV]
        simp
      · simpa only [Fin, List.foldl, eff, hpeek, putB] using hy)
  rw [List.append_nil] at this
  exact this

theorem start_copy {s : State} {A : View} (h : J s A) {w : Nat} (hl : Legal s A (.copy w)) : ∃ s', start s (.copy w) = .ok s' ∧ J s' (A.call (.copy w)) := by
  obtain ⟨h1, h2⟩ := hl
  obtain ⟨h3, c, n, h4, h5⟩ := h.readable h1 h2
  refine ⟨_, rfl, h.copied h3 h2 (c := c) ⟨Or.inl (by simp), c, readable_new h4⟩ (by simp [Loc.nodes]) (peek_var (readable_new h4)) ⟨n, h5⟩⟩

/-- the body of a value with elements -/
theorem J.body {s : State} {A : View} (h : J s A) {w : Nat} (he : Exists A w) (hr : Readable s w) (hi : ∀ z, A.at w ≠ .num z) :
    ∃ p b t xs m, Holds s.vars w p ∧ s.bodies[p]? = some b ∧ b.live = true ∧ A.at w = .obj t xs ∧ b.text = t ∧ b.kids.length = xs.length ∧
      ∀ (k : Nat) (c : Cell) (y : Val), b.kids[k]? = some c → xs[k]? = some y → valueAt s.bodies m c = some y := by
  obtain ⟨h3, c, n, h4, h5⟩ := h.readable he hr
  cases c with
  | num z =>
    rw [show valueAt s.bodies n (.num z) = some (.num z) by cases n <;> rfl] at h5
    exact absurd (Option.some.inj h5).symm (hi z)
  | ref p =>
    cases n with
    | zero => cases h5
    | succ n =>
      obtain ⟨b, hb, hlive⟩ := h.inv.alive_held (show Holds s.vars w p from h4)
      rw [valueAt_ref hb hlive] at h5
      cases hm : b.kids.mapM (valueAt s.bodies n) with
      | none => rw [hm] at h5; cases h5
      | some xs =>
        rw [hm] at h5
        have h6 : Val.obj b.text xs = A.at w := Option.some.inj h5
        obtain ⟨h7, h8⟩ := mapM_some hm
        refine ⟨p, b, b.text, xs, n, h4, hb, hlive, h6.symm, rfl, h7, fun k c y hk hy => ?_⟩
        obtain ⟨y', h9, h10⟩ := h8 k c hk
        rw [hy] at h9
        rw [h10, ← h9]

theorem start_elem {s : State} {A : View} (h : J s A) {w i : Nat} (hl : Legal s A (.elem w i)) : ∃ s', start s (.elem w i) = .ok s' ∧ J s' (A.call (.elem w i)) := by
  obtain ⟨h1, h2, h3⟩ := hl
  obtain ⟨p, b, t, xs, m, hp, hb, hlive, hA, ht, hlen, hv⟩ := h.body h1 h2 (by intro z hz; rw [hz] at h3; simp [Val.elems] at h3)
  have hw := (h.readable h1 h2).1
  have hi : i < xs.length := by rw [hA] at h3; exact h3
  have hk : i < b.kids.length := by omega
  have hptr : ptrOf s w = .ok p := by
    have : s.vars[w]? = some (some (.ref p)) := hp
    simp only [ptrOf, this]
  refine ⟨_, by simp only [start]; rw [hptr, res_bind_ok], ?_⟩
  have hx : (A.at w).elems.getD i (.num 0) = xs[i] := by
    rw [hA]; simp [Val.elems, hi]
  simp only [View.call]
  rw [hx]
  refine h.copied hw h2 (c := b.kids[i]) ⟨⟨b, hb, hk⟩, Or.inl ⟨w, by simp, readable_new hp⟩⟩ ?_ ?_ ⟨m, hv i _ _ (List.getElem?_eq_getElem hk) (List.getElem?_eq_getElem hi)⟩
  · intro q hq
    simp [Loc.nodes] at hq; subst hq; exact hp
  · simp [peek, hb, hk]

theorem owns_install {v p q : Nat} (h : Owns (install v p) q) : q = p := by
  obtain ⟨a, h1, h2⟩ := h
  rcases mem_install h1 with rfl | rfl | rfl
  · simp [Act.own] at h2; exact h2.symm
  · simp [Act.own] at h2
  · simp [Act.own] at h2

theorem mentions_install {v p q : Nat} (h : Mentions (install v p) q) : q = p := by
  obtain ⟨a, h1, h2⟩ := h
  rcases mem_install h1 with rfl | rfl | rfl
  · simpa [Act.nodes] using h2
  · simpa [Act.nodes] using h2
  · simpa [Act.nodes, Loc.nodes, Cell.nodes] using h2

theorem feeds_install {v p : Nat} {a : Act} (h : a ∈ install v p) : a.feeds = [] := by
  rcases mem_install h with rfl | rfl | rfl <;> rfl

theorem owns_fill {p k q : Nat} {ls : List Loc} (h : Owns (fill p k ls) q) : q = p := by
  obtain ⟨a, h1, h2⟩ := h
  obtain ⟨l, _, k', rfl⟩ := mem_fill h1
  simp [Act.own] at h2; exact h2.symm

theorem mentions_fill {p k q : Nat} {ls : List Loc} (h : Mentions (fill p k ls) q) : q = p ∨ ∃ l ∈ ls, q ∈ l.nodes := by
  obtain ⟨a, h1, h2⟩ := h
  obtain ⟨l, hl, k', rfl⟩ := mem_fill h1
  simp only [Act.nodes, Loc.nodes, List.mem_append, List.mem_singleton] at h2
  rcases h2 with h2 | h2
  · exact Or.inr ⟨l, hl, h2⟩
  · exact Or.inl h2

theorem feeds_fill {p k : Nat} {ls : List Loc} {a : Act} (h : a ∈ fill p k ls) {o : Nat} (ho : o ∈ a.feeds) : ∃ l ∈ ls, o ∈ l.nodes := by
  obtain ⟨l, hl, k', rfl⟩ := mem_fill h
  exact ⟨l, hl, ho⟩

theorem start_str {s : State} {A : View} (h : J s A) (t : Text) : ∃ s', start s (.str t) = .ok s' ∧ J s' (A.call (.str t)) := by
  refine ⟨_, rfl, ?_⟩
  have hg := Good.install (bs := s.bodies ++ [⟨0, true, t, []⟩]) (vs := s.vars ++ [some (.num 0)]) (v := s.vars.length) (rs := []) (cur := some (.num 0)) (p := s.bodies.length) (T := [])
    ⟨.num 0, by simp⟩ trivial ⟨by simp, by simp⟩
  rw [List.append_nil] at hg
  refine h.construct (nb := [⟨0, true, t, []⟩]) (rs := []) ?_ (by simp) hg.head ?_ (fun o => W_install _ _ _) ?_ ?_ ?_ ?_ ?_
  · intro b hb; simp at hb; subst hb; exact ⟨rfl, rfl, by simp⟩
  · intro a ha o ho; rw [feeds_install ha] at ho; cases ho
  · intro p hp; rw [owns_install hp]; simp
  · intro p hp; rw [mentions_install hp]; simp
  · intro p h1 h2
    have : p = s.bodies.length := by simp at h2; omega
    subst this; simp [install]
  · intro p hp
    have : p = s.bodies.length := by simpa [install] using hp
    omega
  · refine ⟨.ref s.bodies.length, by rw [Fin_install]; simp, 1, ?_⟩
    rw [Fin_install, valueAt_ref (b := ⟨0, true, t, []⟩) (by simp) rfl]
    rfl

theorem start_array {s : State} {A : View} (h : J s A) {ws : List Nat} (hl : Legal s A (.array ws)) : ∃ s', start s (.array ws) = .ok s' ∧ J s' (A.call (.array ws)) := by
  refine ⟨_, rfl, ?_⟩
  have hw : ∀ w ∈ ws, w < s.vars.length ∧ Readable s w := fun w hw => ⟨(h.readable (hl w hw).1 (hl w hw).2).1, (hl w hw).2⟩
  have hg := Good.install (bs := s.bodies ++ [blank ws.length]) (vs := s.vars ++ [some (.num 0)]) (v := s.vars.length) (rs := ws) (cur := some (.num 0)) (p := s.bodies.length) (T := [])
    ⟨.num 0, by simp⟩ trivial ⟨by simp, by simp⟩
  rw [List.append_nil] at hg
  have hf := Good.fill (bs := s.bodies ++ [blank ws.length]) (vs := s.vars ++ [some (.num 0)]) (v := s.vars.length) (rs := ws) (cur := some (.num 0)) (p := s.bodies.length)
    hg (by simp [install]) (ls := ws.map .var) (k := 0)
    (by
      intro l hl' k'
      obtain ⟨w, hw', rfl⟩ := List.mem_map.1 hl'
      obtain ⟨_, c, n, h4, _⟩ := h.readable (hl w hw').1 (hl w hw').2
      exact ⟨Or.inl hw', c, readable_new h4⟩)
    (by
      intro k' hk'
      simp only [List.length_map, Nat.zero_add] at hk'
      exact kidOk_blank hk')
  have hln : ∀ q, ¬ ∃ l ∈ ws.map Loc.var, q ∈ l.nodes := by
    rintro q ⟨l, h1, h2⟩
    obtain ⟨w, _, rfl⟩ := List.mem_map.1 h1
    cases h2
  refine h.construct (nb := [blank ws.length]) (rs := ws) (plain_blank _) hw hf.head ?_ (fun o => by rw [W_append, W_fill, W_install]; rfl) ?_ ?_ ?_ ?_ ?_
  · intro a ha o ho
    rcases List.mem_append.1 ha with ha | ha
    · exact absurd (feeds_fill ha ho) (hln o)
    · rw [feeds_install ha] at ho; cases ho
  · intro p hp
    have : p = s.bodies.length := by
      rcases owns_append.1 hp with hp | hp
      · exact owns_fill hp
      · exact owns_install hp
    subst this; simp
  · intro p hp
    left
    rcases mentions_append.1 hp with hp | hp
    · rcases mentions_fill hp with hp | hp
      · omega
      · exact absurd hp (hln p)
    · rw [mentions_install hp]; omega
  · intro p h1 h2
    have : p = s.bodies.length := by simp at h2; omega
    subst this; simp [install]
  · intro p hp
    have : Mentions (fill s.bodies.length 0 (ws.map .var) ++ install s.vars.length s.bodies.length) p := by
      rcases hp with hp | hp
      · exact ⟨_, hp, by simp [Act.nodes]⟩
      · exact ⟨_, hp, by simp [Act.nodes]⟩
    rcases mentions_append.1 this with hp | hp
    · rcases mentions_fill hp with hp | hp
      · omega
      · exact absurd hp (hln p)
    · rw [mentions_install hp]; omega
  · have hfin : Fin (s.bodies ++ [blank ws.length], s.vars ++ [some (.num 0)]) (fill s.bodies.length 0 (ws.map .var) ++ install s.vars.length s.bodies.length) =
        (s.bodies ++ [⟨0, true, [], (ws.map .var).map (peek (s.bodies, s.vars ++ [some (Cell.num 0)]))⟩], (s.vars ++ [some (Cell.num 0)]).set s.vars.length (some (.ref s.bodies.length))) := by
      rw [Fin_append, Fin_fill (by
        intro l hl'
        obtain ⟨w, _, rfl⟩ := List.mem_map.1 hl'
        trivial), Fin_install, setMany_all (by simp [blank])]
      rfl
    refine ⟨.ref s.bodies.length, by rw [hfin]; simp, ?_⟩
    rw [hfin]
    refine value_new h.inv (by simp) ?_
    intro k c y hk hy
    simp only [List.getElem?_map, Option.map_map] at hk hy
    cases hwk : ws[k]? with
    | none => rw [hwk] at hk; cases hk
    | some w =>
      rw [hwk] at hk hy
      simp at hk hy
      have hmem := List.mem_of_getElem? hwk
      obtain ⟨_, c', n, h4, h5⟩ := h.readable (hl w hmem).1 (hl w hmem).2
      rw [peek_var (readable_new h4)] at hk
      subst hk hy
      refine ⟨?_, n, h5⟩
      rintro p hp rfl
      have := (h.inv.alive_held (show Holds s.vars w p from h4)).lt
      omega

theorem start_assign {s : State} {A : View} (h : J s A) {v w : Nat} (hl : Legal s A (.assign v w)) : ∃ s', start s (.assign v w) = .ok s' ∧ J s' (A.call (.assign v w)) := by
  obtain ⟨h1, h2, h3, h4⟩ := hl
  refine ⟨_, rfl, ?_⟩
  obtain ⟨hwl, c, n, hc, hn⟩ := h.readable h1 h3
  obtain ⟨hvl, d, _, hd, _⟩ := h.readable h2 (fun j hj => (h4 j hj).1)
  have hno : ∀ p, ¬ Mentions [Act.asg (.var w) (.var v)] p := by
    rintro p ⟨a, h1, h2⟩
    simp at h1; subst h1; cases h2
  have hW : ∀ o, W [Act.asg (.var w) (.var v)] o = 0 := fun o => by simp [W, Act.w]
  have := h.add (nb := []) (by intro b hb; cases hb) (vs' := s.vars) (j := ⟨v, if w = v then [] else [w], [.asg (.var w) (.var v)]⟩) (y := some (A.at w)) hvl
    (by intro u hu; simp only at hu; split at hu <;> simp at hu; subst hu; exact hwl) rfl
    (by
      refine ⟨?_, ?_, ?_, ?_⟩
      · refine ⟨⟨⟨?_, c, hc⟩, ⟨rfl, d, hd⟩, fun _ _ => rfl⟩, fun o => by have := hW o; omega, trivial⟩
        by_cases e : w = v
        · exact Or.inr ⟨e, rfl⟩
        · left; simp [e]
      · simp only; split
        · simp
        · rename_i e; simp; exact fun h => e h.symm
      · intro p hp; exact absurd hp.mentions (hno p)
      · intro a ha o _ ho; exact hno o ho.mentions)
    (fun _ _ => rfl) (fun _ h => h) (fun o => by have := hW o; simp only; omega)
    (by
      intro k hk
      refine ⟨(h4 k hk).1, (h4 k hk).2, ?_⟩
      simp only; split
      · simp
      · simp; exact h3 k hk)
    (fun p hp => absurd hp.mentions (hno p)) (fun p hp => absurd hp (hno p))
    (by intro p h1 h2; simp at h2; omega)
    (by intro p hp; simp at hp)
    (by
      intro x hx
      cases hx
      rw [List.append_nil]
      refine ⟨c, ?_, n, ?_⟩
      · simp only [Fin, List.foldl, eff, peek_var hc, putV]
        simp [hvl]
      · simpa only [Fin, List.foldl, eff, putB] using hn)
  rw [List.append_nil] at this
  exact this

theorem start_destroy {s : State} {A : View} (h : J s A) {v : Nat} (hl : Legal s A (.destroy v)) : ∃ s', start s (.destroy v) = .ok s' ∧ J s' (A.call (.destroy v)) := by
  obtain ⟨h2, h4⟩ := hl
  obtain ⟨hvl, d, _, hd, _⟩ := h.readable h2 (fun j hj => (h4 j hj).1)
  refine ⟨⟨s.bodies, s.vars.set v none, s.jobs ++ [⟨v, [], relOf d⟩]⟩, by simp only [start, hd], ?_⟩
  have hno : ∀ p, ¬ Owns (relOf d) p := by
    rintro p ⟨a, h1, h2⟩
    cases d with
    | num _ => cases h1
    | ref o => simp [relOf] at h1; subst h1; cases h2
  have hnone : (s.vars.set v none)[v]? = some none := by simp [hvl]
  have := h.add (nb := []) (by intro b hb; cases hb) (vs' := s.vars.set v none) (j := ⟨v, [], relOf d⟩) (y := none) hvl
    (by intro u hu; cases hu) (by simp)
    (by
      refine ⟨?_, by simp, ?_, ?_⟩
      · cases d with
        | num _ => trivial
        | ref o => exact ⟨trivial, fun q => by have := cnt_nonneg (.ref o) q; simpa [relOf, W, Act.w] using this, trivial⟩
      · intro p hp; exact absurd hp (hno p)
      · intro a ha o _; exact hno o)
    (by intro u hu; exact List.getElem?_set_ne (fun e => hu e.symm))
    (by intro o ho; rw [Holds, hnone] at ho; cases ho)
    (fun o => by rw [V_putV none hd]; simp only [W_relOf, cntV]; omega)
    (by intro k hk; exact ⟨(h4 k hk).1, (h4 k hk).2, by simp⟩)
    (fun p hp => absurd hp (hno p))
    (by
      rintro p ⟨a, h1, h2⟩
      cases d with
      | num _ => cases h1
      | ref o =>
        simp [relOf] at h1; subst h1
        simp [Act.nodes] at h2; subst h2
        exact Or.inr ⟨v, Or.inr rfl, hd⟩)
    (by intro p h1 h2; simp at h2; omega)
    (by
      intro p hp
      cases d <;> simp [relOf] at hp)
    (by intro x hx; cases hx)
  rw [List.append_nil] at this
  exact this

end Strpp.NestPar
