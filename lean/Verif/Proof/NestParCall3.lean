import Verif.Proof.NestParCall2
/-! Setting an element, and histories: C88. -/
set_option linter.unusedSectionVars false
set_option linter.unusedVariables false
set_option linter.unusedSimpArgs false
namespace Strpp.NestPar
open Spec

theorem set_values {bs : List Body} {ks : List Cell} {xs : List Val} {m n i : Nat} {c : Cell} {y : Val} (hlen : ks.length = xs.length)
    (hv : ∀ (k : Nat) (c : Cell) (y : Val), ks[k]? = some c → xs[k]? = some y → valueAt bs m c = some y) (hc : valueAt bs n c = some y) :
    ∀ (k : Nat) (d : Cell) (z : Val), (ks.set i c)[k]? = some d → (xs.set i y)[k]? = some z → valueAt bs (m + n) d = some z ∧ (d = c ∨ d ∈ ks) := by
  intro k d z hk hz
  by_cases e : i = k
  · subst e
    have hlt := (List.getElem?_eq_some_iff.1 hk).1
    rw [List.length_set] at hlt
    rw [List.getElem?_set_self hlt] at hk
    rw [List.getElem?_set_self (by omega)] at hz
    cases hk; cases hz
    exact ⟨valueAt_mono n hc (by omega), Or.inl rfl⟩
  · rw [List.getElem?_set_ne e] at hk hz
    exact ⟨valueAt_mono m (hv k d z hk hz) (by omega), Or.inr (List.mem_of_getElem? hk)⟩

/-- nobody else uses the body of a variable that no call uses, if its count is one -/
theorem J.private {s : State} {A : View} (h : J s A) {v p : Nat} {b : Body} (hp : Holds s.vars v p) (hb : s.bodies[p]? = some b) (hc1 : b.count ≤ 1) (hiv : Idle s v) :
    (∀ u, Holds s.vars u p → u = v) ∧ NotKid s.bodies p ∧ ∀ k ∈ s.jobs, ¬ Mentions k.todo p := by
  have hcnt := h.inv.count p b hb
  have hV1 := V_pos hp
  have hK0 := K_nonneg s.bodies p
  have hJ0 := JW_nonneg h.inv.jobs p
  have hT : Tot s.bodies s.vars s.jobs p = V s.vars p + K s.bodies p + JW s.jobs p := rfl
  have honly : ∀ u, Holds s.vars u p → u = v := by
    intro u hu
    apply Classical.byContradiction
    intro e
    have := V_two hu hp e
    omega
  have hnk : NotKid s.bodies p := by
    intro q d hq hd
    have := K_pos hq hd
    omega
  refine ⟨honly, hnk, fun k hk => ?_⟩
  have hjk := h.inv.jobs k hk
  have hWk : W k.todo p = 0 := by
    have h1 : W k.todo p ≤ JW s.jobs p := sum_le (f := fun j : Job => W j.todo p) (fun j hj => (h.inv.jobs j hj).good.nonneg p) hk
    have h2 := hjk.good.nonneg p
    omega
  have hh : ∀ u, (u ∈ k.reads ∨ u = k.v) → ¬ Holds s.vars u p := by
    intro u hu hhu
    have := honly u hhu
    subst this
    rcases hu with hu | hu
    · exact (hiv k hk).2 hu
    · exact (hiv k hk).1 hu.symm
  refine hjk.good.noMention hh hnk hWk ?_ ?_
  · intro e; exact hh k.v (Or.inr rfl) (curOf_holds e)
  · intro ho
    exact (hiv k hk).1 ((hjk.own p ho).2.1 v hp).symm

/-- an element of a body that nobody else uses is set -/
theorem J.setHere {s : State} {A : View} (h : J s A) {v i w p : Nat} {b : Body} {xs0 : List Val} {m : Nat} (hv : Exists A v) (hw : Exists A w) (hrw : Readable s w) (hiv : Idle s v)
    (hvw : v ≠ w) (hp : Holds s.vars v p) (hb : s.bodies[p]? = some b) (hlive : b.live = true) (ht : b.text = []) (hlen : b.kids.length = xs0.length)
    (hval : ∀ (k : Nat) (c : Cell) (y : Val), b.kids[k]? = some c → xs0[k]? = some y → valueAt s.bodies m c = some y) (hik : i < b.kids.length) (hc1 : b.count ≤ 1) :
    J { s with jobs := s.jobs ++ [⟨v, [w], [.asg (.var w) (.kid p i)]⟩] } (A.set v (some (.obj [] (xs0.set i (A.at w))))) := by
  have hrv : Readable s v := fun j hj => (hiv j hj).1
  obtain ⟨hwl, c, n, hc, hn⟩ := h.readable hw hrw
  have hvl := (h.readable hv hrv).1
  have hlock : ∀ k ∈ s.jobs, k.v ≠ v ∧ v ∉ k.reads ∧ k.v ∉ [w] := by
    intro k hk
    exact ⟨(hiv k hk).1, (hiv k hk).2, by simp; exact hrw k hk⟩
  have hplt := (h.inv.alive_held hp).lt
  obtain ⟨honly, hnk, hprivate⟩ := h.private hp hb hc1 hiv
  have hown : ∀ q, Owns [Act.asg (.var w) (.kid p i)] q → q = p := by
    rintro q ⟨a, h1, h2⟩
    simp at h1; subst h1
    simp [Act.own] at h2; exact h2.symm
  have hment : ∀ q, Mentions [Act.asg (.var w) (.kid p i)] q → q = p := by
    rintro q ⟨a, h1, h2⟩
    simp at h1; subst h1
    simpa [Act.nodes, Loc.nodes] using h2
  have hW : ∀ o, W [Act.asg (.var w) (.kid p i)] o = 0 := fun o => by simp [W, Act.w]
  have hcp : c ≠ .ref p := by
    intro e; subst e
    exact hvw (honly w hc).symm
  have := h.add (nb := []) (by intro b hb; cases hb) (vs' := s.vars) (j := ⟨v, [w], [.asg (.var w) (.kid p i)]⟩) (y := some (.obj [] (xs0.set i (A.at w)))) hvl
    (by intro u hu; simp at hu; subst hu; exact hwl) rfl
    (by
      rw [List.append_nil]
      refine ⟨?_, by simp; exact hvw, ?_, ?_⟩
      · exact ⟨⟨⟨Or.inl (by simp), c, hc⟩, ⟨⟨b, hb, hik⟩, Or.inr (holds_curOf hp)⟩, fun _ e => by cases e⟩, fun o => by have := hW o; omega, trivial⟩
      · intro q hq
        rw [hown q hq]
        exact ⟨⟨b, hb, hlive⟩, honly, hnk⟩
      · intro a ha o ho
        simp at ha; subst ha; cases ho)
    (fun _ _ => rfl) (fun _ h => h) (fun o => by have := hW o; simp only; omega) hlock
    (by
      intro q hq k hk
      rw [hown q hq]
      exact hprivate k hk)
    (by intro q hq; rw [hment q hq]; exact Or.inr ⟨v, Or.inr rfl, hp⟩)
    (by intro q h1 h2; simp at h2; omega)
    (by intro q hq; simp at hq)
    (by
      intro x hx
      cases hx
      rw [List.append_nil]
      have hfin : Fin (s.bodies, s.vars) [.asg (.var w) (.kid p i)] = (putB s.bodies (.kid p i) c, s.vars) := by
        simp only [Fin, List.foldl, eff, peek_var hc, putV]
      simp only
      refine ⟨.ref p, by rw [hfin]; exact hp, m + n + 1, ?_⟩
      rw [hfin, valueAt_ref (b := { b with kids := b.kids.set i c }) (by rw [putB_get, if_pos rfl, hb]; rfl) hlive]
      have : (b.kids.set i c).mapM (valueAt (putB s.bodies (.kid p i) c) (m + n)) = some (xs0.set i (A.at w)) := by
        refine mapM_of (by simp [hlen]) (fun k d z hk hz => ?_)
        obtain ⟨h1, h2⟩ := set_values hlen hval hn k d z hk hz
        rw [← valueAt_frame (P := fun q => q = p) (bs := s.bodies) ?_ ?_ (m + n) ?_]
        · exact h1
        · intro q hq
          rw [putB_get, if_neg (fun e => hq e.symm)]
        · intro q d' _ hq r hr
          subst hr
          exact hnk q d' hq
        · rintro q rfl
          rcases h2 with rfl | h2
          · exact hcp
          · rintro rfl; exact hnk _ b hb h2
      rw [this]
      show some (Val.obj b.text _) = _
      rw [ht])
  rw [List.append_nil] at this
  exact this

/-- a copy of a body, perhaps a longer one, is made, and an element of it is set -/
theorem J.setCopy {s : State} {A : View} (h : J s A) {v i w p : Nat} {b : Body} {xs0 : List Val} {m : Nat} (hv : Exists A v) (hw : Exists A w) (hrw : Readable s w) (hiv : Idle s v)
    (hvw : v ≠ w) (hp : Holds s.vars v p) (hb : s.bodies[p]? = some b) (hlive : b.live = true) (ht : b.text = []) (hlen : b.kids.length = xs0.length)
    (hval : ∀ (k : Nat) (c : Cell) (y : Val), b.kids[k]? = some c → xs0[k]? = some y → valueAt s.bodies m c = some y) {M : Nat} (hM : b.kids.length ≤ M) (hiM : i < M) :
    J ⟨s.bodies ++ [blank M], s.vars,
      s.jobs ++ [⟨v, [w], fill s.bodies.length 0 ((List.range b.kids.length).map (.kid p)) ++ install v s.bodies.length ++ [.asg (.var w) (.kid s.bodies.length i)]⟩]⟩
      (A.set v (some (.obj [] ((xs0 ++ List.replicate (M - b.kids.length) (Val.num 0)).set i (A.at w))))) := by
  have hrv : Readable s v := fun j hj => (hiv j hj).1
  obtain ⟨hwl, c, n, hc, hn⟩ := h.readable hw hrw
  have hvl := (h.readable hv hrv).1
  have hlock : ∀ k ∈ s.jobs, k.v ≠ v ∧ v ∉ k.reads ∧ k.v ∉ [w] := by
    intro k hk
    exact ⟨(hiv k hk).1, (hiv k hk).2, by simp; exact hrw k hk⟩
  have hplt := (h.inv.alive_held hp).lt
  have hsep : ∀ q, Owns (fill s.bodies.length 0 ((List.range b.kids.length).map (.kid p)) ++ install v s.bodies.length ++ [.asg (.var w) (.kid s.bodies.length i)]) q → q = s.bodies.length := by
    intro q hq
    rcases owns_append.1 hq with hq | ⟨a, h1, h2⟩
    · rcases owns_append.1 hq with hq | hq
      · exact owns_fill hq
      · exact owns_install hq
    · simp at h1; subst h1
      simp [Act.own] at h2; exact h2.symm
  have hnodes : ∀ q, (∃ l ∈ (List.range b.kids.length).map (Loc.kid p), q ∈ l.nodes) → q = p := by
    rintro q ⟨l, h1, h2⟩
    obtain ⟨k, _, rfl⟩ := List.mem_map.1 h1
    simpa [Loc.nodes] using h2
  have hment : ∀ q, Mentions (fill s.bodies.length 0 ((List.range b.kids.length).map (.kid p)) ++ install v s.bodies.length ++ [.asg (.var w) (.kid s.bodies.length i)]) q →
      q = s.bodies.length ∨ q = p := by
    intro q hq
    rcases mentions_append.1 hq with hq | ⟨a, h1, h2⟩
    · rcases mentions_append.1 hq with hq | hq
      · rcases mentions_fill hq with hq | hq
        · exact Or.inl hq
        · exact Or.inr (hnodes q hq)
      · exact Or.inl (mentions_install hq)
    · simp at h1; subst h1
      left
      simpa [Act.nodes, Loc.nodes] using h2
  have hlast : Good (s.bodies ++ [blank M]) s.vars v [w] false (some (.ref s.bodies.length)) [.asg (.var w) (.kid s.bodies.length i)] := by
    refine ⟨⟨⟨Or.inl (by simp), c, hc⟩, ⟨kidOk_blank hiM, Or.inr rfl⟩, fun _ e => by cases e⟩, fun o => ?_, trivial⟩
    simp [W, Act.w]
  have hinst := Good.install (cur := curOf s.vars v) ⟨.ref p, hp⟩ hlast ⟨by simp, by simp⟩
  have hfill := Good.fill (p := s.bodies.length) hinst (by simp [install]) (ls := (List.range b.kids.length).map (.kid p)) (k := 0)
    (by
      intro l hl' k'
      obtain ⟨k, hk, rfl⟩ := List.mem_map.1 hl'
      exact ⟨kidOk_append ⟨b, hb, by simpa using hk⟩, Or.inr (holds_curOf hp)⟩)
    (by
      intro k' hk'
      simp only [List.length_map, List.length_range, Nat.zero_add] at hk'
      exact kidOk_blank (by omega))
  rw [← List.append_assoc] at hfill
  refine h.add (nb := [blank M]) (plain_blank _) (vs' := s.vars) (j := ⟨v, [w], _⟩) hvl
    (by intro u hu; simp at hu; subst hu; exact hwl) rfl ⟨hfill.head, by simp; exact hvw, ?_, ?_⟩ (fun _ _ => rfl) (fun _ h => h) ?_ hlock ?_ ?_ ?_ ?_ ?_
  · intro q hq
    rw [hsep q hq]
    refine ⟨⟨blank M, by simp, rfl⟩, ?_, ?_⟩
    · intro u hu
      have := (h.inv.alive_held hu).lt
      omega
    · intro q' b' hq' hm
      rcases (plain_blank M).get hq' with h2 | ⟨_, _, _, _, h2⟩
      · have := (h.inv.alive_kid h2 hm).lt; omega
      · obtain ⟨n, h3⟩ := h2 _ hm; cases h3
  · intro a ha o ho hown
    have h1 := hsep o hown
    have h2 : o = p := by
      rcases List.mem_append.1 ha with ha | ha
      · rcases List.mem_append.1 ha with ha | ha
        · exact hnodes o (feeds_fill ha ho)
        · rw [feeds_install ha] at ho; cases ho
      · simp at ha; subst ha; cases ho
    omega
  · intro o
    simp only [W_append, W_fill, W_install]
    simp [W, Act.w]
  · intro q hq k hk hm
    have := h.inv.mention_lt hk hm
    have := hsep q hq
    omega
  · intro q hq
    rcases hment q hq with rfl | rfl
    · exact Or.inl (by omega)
    · exact Or.inr ⟨v, Or.inr rfl, hp⟩
  · intro q h1 h2
    have : q = s.bodies.length := by simp at h2; omega
    subst this; simp [install]
  · intro q hq
    have hm : Owns (fill s.bodies.length 0 ((List.range b.kids.length).map (.kid p)) ++ install v s.bodies.length ++ [.asg (.var w) (.kid s.bodies.length i)]) q := by
      rcases hq with hq | hq
      · exact ⟨_, hq, rfl⟩
      · exact ⟨_, hq, rfl⟩
    have := hsep q hm
    omega
  · intro x hx
    cases hx
    have hlen' : (b.kids ++ List.replicate (M - b.kids.length) (Cell.num 0)).length = (xs0 ++ List.replicate (M - b.kids.length) (Val.num 0)).length := by
      simp [hlen]
    have hval' : ∀ (k : Nat) (c : Cell) (y : Val), (b.kids ++ List.replicate (M - b.kids.length) (Cell.num 0))[k]? = some c →
        (xs0 ++ List.replicate (M - b.kids.length) (Val.num 0))[k]? = some y → valueAt s.bodies m c = some y := by
      intro k c y hk hy
      by_cases e : k < b.kids.length
      · rw [List.getElem?_append_left e] at hk
        rw [List.getElem?_append_left (by omega)] at hy
        exact hval k c y hk hy
      · rw [List.getElem?_append_right (by omega)] at hk hy
        have h1 := List.mem_of_getElem? hk
        have h2 := List.mem_of_getElem? hy
        rw [(List.mem_replicate.1 h1).2, (List.mem_replicate.1 h2).2]
        cases m <;> rfl
    have hks : ((List.range b.kids.length).map (Loc.kid p)).map (peek (s.bodies, s.vars)) = b.kids := by
      apply List.ext_getElem?
      intro k
      by_cases hk : k < b.kids.length
      · simp [hk, peek, hb]
      · rw [List.getElem?_eq_none (by simp; omega), List.getElem?_eq_none (by omega)]
    have hfin : Fin (s.bodies ++ [blank M], s.vars)
        (fill s.bodies.length 0 ((List.range b.kids.length).map (.kid p)) ++ install v s.bodies.length ++ [.asg (.var w) (.kid s.bodies.length i)]) =
        (s.bodies ++ [⟨0, true, [], (b.kids ++ List.replicate (M - b.kids.length) (Cell.num 0)).set i c⟩], s.vars.set v (some (.ref s.bodies.length))) := by
      rw [Fin_append, Fin_append, Fin_fill (by
        intro l hl'
        obtain ⟨k, _, rfl⟩ := List.mem_map.1 hl'
        exact hplt), Fin_install, hks, show setMany (blank M).kids 0 b.kids = b.kids ++ List.replicate (M - b.kids.length) (Cell.num 0) by
          rw [setMany_eq _ _ _ (by simp [blank]; exact hM)]; simp [blank]]
      have hcv : (s.vars.set v (some (.ref s.bodies.length)))[w]? = some (some c) := by
        rw [List.getElem?_set_ne hvw]; exact hc
      simp only [Fin, List.foldl, eff, peek_var hcv, putV, putB_append]
      rfl
    simp only
    refine ⟨.ref s.bodies.length, by rw [hfin]; simp [hvl], ?_⟩
    rw [hfin]
    refine value_new h.inv (by rw [List.length_set, List.length_set, hlen']) ?_
    intro k d z hk hz
    obtain ⟨h1, h2⟩ := set_values hlen' hval' hn k d z hk hz
    refine ⟨?_, _, h1⟩
    rintro q hq rfl
    rcases h2 with rfl | h2
    · have := (h.inv.alive_held (show Holds s.vars w q from hc)).lt; omega
    · rcases List.mem_append.1 h2 with h2 | h2
      · have := (h.inv.alive_kid hb h2).lt; omega
      · cases (List.mem_replicate.1 h2).2

theorem start_setElem {s : State} {A : View} (h : J s A) {v i w : Nat} (hl : Legal s A (.setElem v i w)) :
    ∃ s', start s (.setElem v i w) = .ok s' ∧ J s' (A.call (.setElem v i w)) := by
  obtain ⟨hv, hw, hrw, hiv, hvw, hi, xs0, hxs0⟩ := hl
  have hrv : Readable s v := fun j hj => (hiv j hj).1
  obtain ⟨p, b, t, xs, m, hp, hb, hlive, hA, ht, hlen, hval⟩ := h.body hv hrv (by rw [hxs0]; intro z hz; cases hz)
  rw [hxs0] at hA
  obtain ⟨ht0, hx0⟩ : [] = t ∧ xs0 = xs := by cases hA; exact ⟨rfl, rfl⟩
  subst ht0 hx0
  rw [hxs0] at hi
  have hi : i < xs0.length := hi
  have hik : i < b.kids.length := by omega
  have hptr : ptrOf s v = .ok p := by
    have : s.vars[v]? = some (some (.ref p)) := hp
    simp only [ptrOf, this]
  have hbody : body s.bodies p = .ok b := by simp only [body, hb, hlive, if_true]
  have hcall : A.call (.setElem v i w) = A.set v (some (.obj [] (xs0.set i (A.at w)))) := by
    simp only [View.call, hxs0, Val.setElem]
  rw [hcall]
  have hstart : start s (.setElem v i w) = (if b.count ≤ 1 then .ok { s with jobs := s.jobs ++ [⟨v, [w], [.asg (.var w) (.kid p i)]⟩] }
    else .ok ⟨s.bodies ++ [blank b.kids.length], s.vars,
      s.jobs ++ [⟨v, [w], fill s.bodies.length 0 ((List.range b.kids.length).map (.kid p)) ++ install v s.bodies.length ++ [.asg (.var w) (.kid s.bodies.length i)]⟩]⟩) := by
    simp only [start]
    rw [hptr, res_bind_ok, hbody, res_bind_ok, show decide (i < b.kids.length) = true from decide_eq_true hik, assert_true, res_bind_ok]
  rw [hstart]
  by_cases hc1 : b.count ≤ 1
  · rw [if_pos hc1]
    exact ⟨_, rfl, h.setHere hv hw hrw hiv hvw hp hb hlive ht hlen hval hik hc1⟩
  · rw [if_neg hc1]
    have := h.setCopy hv hw hrw hiv hvw hp hb hlive ht hlen hval (Nat.le_refl _) hik
    rw [Nat.sub_self, List.replicate_zero, List.append_nil] at this
    exact ⟨_, rfl, this⟩

/-- a body that nobody else uses is changed -/
theorem J.modify {s : State} {A : View} (h : J s A) {v p : Nat} {b b' : Body} (hp : Holds s.vars v p) (hb : s.bodies[p]? = some b) (hc1 : b.count ≤ 1) (hiv : Idle s v)
    (hcnt : b'.count = b.count) (hlive : b'.live = true) (hkl : ∀ o, Kl b'.kids o = Kl b.kids o) (hmem : ∀ o, Cell.ref o ∈ b'.kids → Cell.ref o ∈ b.kids)
    {y : Val} (hy : ∃ n, (b'.kids.mapM (valueAt s.bodies n)).map (.obj b'.text) = some y) :
    J { s with bodies := s.bodies.set p b' } (A.set v (some y)) := by
  obtain ⟨honly, hnk, hprivate⟩ := h.private hp hb hc1 hiv
  obtain ⟨b0, hb0, hl0⟩ := h.inv.alive_held hp
  rw [hb] at hb0
  cases hb0
  have hplt := (List.getElem?_eq_some_iff.1 hb).1
  have hvl : v < s.vars.length := (List.getElem?_eq_some_iff.1 (show s.vars[v]? = some (some (.ref p)) from hp)).1
  have hself : (s.bodies.set p b')[p]? = some b' := List.getElem?_set_self hplt
  have hne : ∀ q, q ≠ p → (s.bodies.set p b')[q]? = s.bodies[q]? := fun q hq => List.getElem?_set_ne (fun e => hq e.symm)
  have hsame : Same (fun q => q = p) s.bodies (s.bodies.set p b') := fun q hq => by rw [hne q hq]
  have hav : Avoids (fun q => q = p) s.bodies := by
    intro q d _ hq r hr
    subst hr; exact hnk q d hq
  have hK : ∀ o, K (s.bodies.set p b') o = K s.bodies o := fun o => by rw [K_set hb, hkl o]; omega
  have hTot : ∀ o, Tot (s.bodies.set p b') s.vars s.jobs o = Tot s.bodies s.vars s.jobs o := fun o => by unfold Tot; rw [hK]
  have halive : ∀ o, Alive s.bodies o → Alive (s.bodies.set p b') o := by
    rintro o ⟨d, h1, h2⟩
    by_cases e : o = p
    · subst e; exact ⟨b', hself, hlive⟩
    · exact ⟨d, by rw [hne o e]; exact h1, h2⟩
  have halive' : ∀ o, Alive (s.bodies.set p b') o → Alive s.bodies o := by
    rintro o ⟨d, h1, h2⟩
    by_cases e : o = p
    · subst e; exact ⟨b, hb, hl0⟩
    · exact ⟨d, by rw [← hne o e]; exact h1, h2⟩
  have hnotkid : ∀ o, NotKid s.bodies o → NotKid (s.bodies.set p b') o := by
    intro o ho q d hq hd
    by_cases e : q = p
    · subst e
      rw [hself] at hq; cases hq
      exact ho q b hb (hmem o hd)
    · rw [hne q e] at hq; exact ho q d hq hd
  have hval : ∀ n c, c ≠ .ref p → valueAt s.bodies n c = valueAt (s.bodies.set p b') n c := fun n c hc =>
    valueAt_frame hsame hav n (fun q hq => by subst hq; exact hc)
  have hnew : ∃ n, valueAt (s.bodies.set p b') n (.ref p) = some y := by
    obtain ⟨n, hn⟩ := hy
    refine ⟨n + 1, ?_⟩
    rw [valueAt_ref hself hlive, ← hn]
    congr 1
    refine mapM_congr (fun c hc => (hval n c ?_).symm)
    rintro rfl
    exact hnk p b hb (hmem p hc)
  have hunused : ∀ k ∈ s.jobs, ∀ w, (w ∈ k.reads ∨ w = k.v) → ¬ Holds s.vars w p := by
    intro k hk w hw hh
    have := honly w hh
    subst this
    rcases hw with hw | hw
    · exact (hiv k hk).2 hw
    · exact (hiv k hk).1 hw.symm
  have hlike : ∀ U : Nat → Prop, (∀ w, U w → ¬ Holds s.vars w p) → Like U (fun q => q = p) (s.bodies, s.vars) (s.bodies.set p b', s.vars) := by
    intro U hU
    exact ⟨hsame, hav, fun _ _ => rfl, fun w q hw hq => by subst hq; exact hU w hw⟩
  refine ⟨⟨?_, h.inv.sep, ?_, ?_, ?_, ?_, ?_, ?_⟩, ?_, h.bound, ?_, ?_⟩
  · intro k hk
    have hjk := h.inv.jobs k hk
    refine ⟨?_, hjk.nr, ?_, hjk.feed⟩
    · refine hjk.good.frame ?_ (fun _ _ h => h) (fun _ _ => rfl) ?_
      · intro q i hq hk'
        obtain ⟨d, h1, h2⟩ := hk'
        refine ⟨d, ?_, h2⟩
        rw [hne q (by rintro rfl; exact hprivate k hk hq)]; exact h1
      · rintro _ o _ ⟨w, hw, h1 | ⟨q, d, h1, h2, h3⟩⟩
        · exact ⟨w, hw, Or.inl h1⟩
        · refine ⟨w, hw, Or.inr ⟨q, d, h1, ?_, h3⟩⟩
          rw [hne q (by rintro rfl; exact hunused k hk w hw h1)]; exact h2
    · intro q hq
      obtain ⟨h1, h2, h3⟩ := hjk.own q hq
      exact ⟨halive q h1, h2, hnotkid q h3⟩
  · intro o ho
    rw [hTot]
    refine h.inv.none o ?_
    by_cases e : o = p
    · subst e; rw [hself] at ho; cases ho
    · rw [hne o e] at ho; exact ho
  · intro o d ho
    rw [hTot]
    by_cases e : o = p
    · subst e; rw [hself] at ho; cases ho
      rw [hcnt]; exact h.inv.count o b hb
    · rw [hne o e] at ho; exact h.inv.count o d ho
  · intro o d ho hl
    rw [hTot]
    by_cases e : o = p
    · subst e; rw [hself] at ho; cases ho
      rw [hlive] at hl; cases hl
    · rw [hne o e] at ho; exact h.inv.dead o d ho hl
  · intro o d ho hl ht
    rw [hTot] at ht
    obtain ⟨d', h1, h2⟩ := halive' o ⟨d, ho, hl⟩
    exact h.inv.lost o d' h1 h2 ht
  · intro k hk q hq
    rw [hTot]; exact h.inv.zero k hk q hq
  · intro o ho
    by_cases e : o = p
    · subst e
      obtain ⟨n, hn⟩ := hnew
      exact ⟨n, by rw [hn]; rfl⟩
    · obtain ⟨n, hn⟩ := h.inv.fit o (halive' o ho)
      exact ⟨n, by rw [← hval n _ (by intro h; cases h; exact e rfl)]; exact hn⟩
  · rw [List.length_set]; exact h.len
  · intro k hk x hx
    rw [List.getElem?_set_ne (fun e => (hiv k hk).1 e.symm)] at hx
    refine (hlike (fun w => w ∈ k.reads ∨ w = k.v) (hunused k hk)).ends ?_ (h.inv.jobs k hk).good.vars (Or.inr rfl) (h.jobs k hk x hx)
    rintro q rfl; exact hprivate k hk
  · intro u x hu hx
    by_cases e : v = u
    · subst e
      rw [List.getElem?_set_self (by rw [h.len]; exact hvl)] at hx
      cases hx
      exact ⟨.ref p, hp, hnew⟩
    · rw [List.getElem?_set_ne e] at hx
      refine (hlike (· = u) ?_).ends ?_ ?_ rfl (h.idle u x hu hx)
      · rintro w rfl hh; exact e (honly w hh).symm
      · rintro q _ ⟨a, h1, _⟩; cases h1
      · intro a ha; cases ha

theorem at_set {A : View} {v w : Nat} {y : Option Val} (h : v ≠ w) : View.at (A.set v y) w = A.at w := by
  simp only [View.at, List.getElem?_set_ne h]

theorem exists_set {A : View} {v w : Nat} {y : Val} (h : Exists A w) : Exists (A.set v (some y)) w := by
  obtain ⟨x, hx⟩ := h
  by_cases e : v = w
  · subst e
    exact ⟨y, List.getElem?_set_self (List.getElem?_eq_some_iff.1 hx).1⟩
  · exact ⟨x, by rw [List.getElem?_set_ne e]; exact hx⟩

theorem Kl_append (cs ds : List Cell) (o : Nat) : Kl (cs ++ ds) o = Kl cs o + Kl ds o := by simp [Kl]

theorem start_push {s : State} {A : View} (h : J s A) {v w : Nat} (hl : Legal s A (.push v w)) :
    ∃ s', start s (.push v w) = .ok s' ∧ J s' (A.call (.push v w)) := by
  obtain ⟨hv, hw, hrw, hiv, hvw, xs0, hxs0⟩ := hl
  have hrv : Readable s v := fun j hj => (hiv j hj).1
  obtain ⟨p, b, t, xs, m, hp, hb, hlive, hA, ht, hlen, hval⟩ := h.body hv hrv (by rw [hxs0]; intro z hz; cases hz)
  rw [hxs0] at hA
  obtain ⟨ht0, hx0⟩ : [] = t ∧ xs0 = xs := by cases hA; exact ⟨rfl, rfl⟩
  subst ht0 hx0
  have hptr : ptrOf s v = .ok p := by
    have : s.vars[v]? = some (some (.ref p)) := hp
    simp only [ptrOf, this]
  have hbody : body s.bodies p = .ok b := by simp only [body, hb, hlive, if_true]
  have hcall : A.call (.push v w) = A.set v (some (.obj [] (xs0 ++ [A.at w]))) := by
    simp only [View.call, hxs0, Val.push]
  rw [hcall]
  have hstart : start s (.push v w) = (if b.count ≤ 1 then .ok { s with bodies := s.bodies.set p { b with kids := b.kids ++ [.num 0] }, jobs := s.jobs ++ [⟨v, [w], [.asg (.var w) (.kid p b.kids.length)]⟩] }
    else .ok ⟨s.bodies ++ [blank (b.kids.length + 1)], s.vars,
      s.jobs ++ [⟨v, [w], fill s.bodies.length 0 ((List.range b.kids.length).map (.kid p)) ++ install v s.bodies.length ++ [.asg (.var w) (.kid s.bodies.length b.kids.length)]⟩]⟩) := by
    simp only [start]
    rw [hptr, res_bind_ok, hbody, res_bind_ok]
  rw [hstart]
  by_cases hc1 : b.count ≤ 1
  · rw [if_pos hc1]
    refine ⟨_, rfl, ?_⟩
    have hlen1 : (b.kids ++ [Cell.num 0]).length = (xs0 ++ [Val.num 0]).length := by simp [hlen]
    have hnew : ∀ (k : Nat) (c : Cell) (y : Val), (b.kids ++ [Cell.num 0])[k]? = some c → (xs0 ++ [Val.num 0])[k]? = some y → valueAt s.bodies m c = some y := by
      intro k c y hk hy
      by_cases e : k < b.kids.length
      · rw [List.getElem?_append_left e] at hk
        rw [List.getElem?_append_left (by omega)] at hy
        exact hval k c y hk hy
      · rw [List.getElem?_append_right (by omega)] at hk hy
        have h1 := List.mem_of_getElem? hk
        have h2 := List.mem_of_getElem? hy
        simp at h1 h2
        subst h1 h2
        cases m <;> rfl
    have hmod := h.modify (b' := { b with kids := b.kids ++ [.num 0] }) hp hb hc1 hiv rfl hlive
      (fun o => by simp [Kl_append, Kl, cnt_num]) (fun o ho => by simpa using ho) (y := .obj [] (xs0 ++ [.num 0]))
      ⟨m, by rw [mapM_of hlen1 hnew]; show some (Val.obj b.text _) = _; rw [ht]⟩
    obtain ⟨honly, hnk, _⟩ := h.private hp hb hc1 hiv
    have hset := hmod.setHere (v := v) (w := w) (p := p) (i := b.kids.length) (b := { b with kids := b.kids ++ [.num 0] }) (xs0 := xs0 ++ [.num 0]) (m := m)
      (exists_set hv) (exists_set hw) hrw hiv hvw hp (List.getElem?_set_self (List.getElem?_eq_some_iff.1 hb).1) hlive ht hlen1 (by
        intro k c y hk hy
        rw [← valueAt_frame (P := fun q => q = p) (bs := s.bodies) ?_ ?_ m ?_]
        · exact hnew k c y hk hy
        · intro q hq
          rw [List.getElem?_set_ne (fun e => hq e.symm)]
        · intro q d' _ hq r hr
          subst hr
          exact hnk q d' hq
        · rintro q rfl rfl
          have := List.mem_of_getElem? hk
          simp at this
          exact hnk _ b hb this) (by simp) hc1
    rw [at_set hvw, List.set_set, show b.kids.length = xs0.length from hlen, append_set] at hset
    rw [show b.kids.length = xs0.length from hlen]
    exact hset
  · rw [if_neg hc1]
    have := h.setCopy (i := b.kids.length) (M := b.kids.length + 1) hv hw hrw hiv hvw hp hb hlive ht hlen hval (by omega) (by omega)
    rw [show b.kids.length + 1 - b.kids.length = 1 by omega, List.replicate_one] at this
    rw [show (xs0 ++ [Val.num 0]).set b.kids.length (A.at w) = xs0 ++ [A.at w] by rw [hlen, append_set]] at this
    exact ⟨_, rfl, this⟩

theorem start_edit {s : State} {A : View} (h : J s A) {v : Nat} {t : Text} (hl : Legal s A (.edit v t)) :
    ∃ s', start s (.edit v t) = .ok s' ∧ J s' (A.call (.edit v t)) := by
  obtain ⟨hv, hiv, t0, ht0⟩ := hl
  have hrv : Readable s v := fun j hj => (hiv j hj).1
  obtain ⟨p, b, t', xs, m, hp, hb, hlive, hA, ht, hlen, hval⟩ := h.body hv hrv (by rw [ht0]; intro z hz; cases hz)
  rw [ht0] at hA
  have hx0 : xs = [] := by cases hA; rfl
  subst hx0
  have hk0 : b.kids = [] := List.eq_nil_of_length_eq_zero (by simpa using hlen)
  have hvl := (h.readable hv hrv).1
  have hptr : ptrOf s v = .ok p := by
    have : s.vars[v]? = some (some (.ref p)) := hp
    simp only [ptrOf, this]
  have hbody : body s.bodies p = .ok b := by simp only [body, hb, hlive, if_true]
  have hstart : start s (.edit v t) = (if b.count ≤ 1 then .ok { s with bodies := s.bodies.set p { b with text := t } }
    else .ok ⟨s.bodies ++ [⟨0, true, t, []⟩], s.vars, s.jobs ++ [⟨v, [], install v s.bodies.length⟩]⟩) := by
    simp only [start]
    rw [hptr, res_bind_ok, hbody, res_bind_ok]
  rw [hstart]
  by_cases hc1 : b.count ≤ 1
  · rw [if_pos hc1]
    exact ⟨_, rfl, h.modify (b' := { b with text := t }) hp hb hc1 hiv rfl hlive (fun _ => rfl) (fun _ h => h) ⟨0, by simp only [hk0]; rfl⟩⟩
  · rw [if_neg hc1]
    refine ⟨_, rfl, ?_⟩
    have hg := Good.install (bs := s.bodies ++ [⟨0, true, t, []⟩]) (vs := s.vars) (v := v) (rs := []) (cur := curOf s.vars v) (p := s.bodies.length) (T := [])
      ⟨.ref p, hp⟩ trivial ⟨by simp, by simp⟩
    rw [List.append_nil] at hg
    have hplain : Plain [(⟨0, true, t, []⟩ : Body)] := by intro b hb; simp at hb; subst hb; exact ⟨rfl, rfl, by simp⟩
    refine h.add (nb := [⟨0, true, t, []⟩]) hplain (vs' := s.vars) (j := ⟨v, [], _⟩) hvl (by simp) rfl ⟨hg.head, by simp, ?_, ?_⟩ (fun _ _ => rfl) (fun _ h => h) ?_
      (fun k hk => ⟨(hiv k hk).1, (hiv k hk).2, by simp⟩) ?_ ?_ ?_ ?_ ?_
    · intro q hq
      rw [owns_install hq]
      refine ⟨⟨_, List.getElem?_concat_length, rfl⟩, ?_, ?_⟩
      · intro u hu
        have := (h.inv.alive_held hu).lt
        omega
      · intro q' b' hq' hm
        rcases hplain.get hq' with h2 | ⟨_, _, _, _, h2⟩
        · have := (h.inv.alive_kid h2 hm).lt; omega
        · obtain ⟨n, h3⟩ := h2 _ hm; cases h3
    · intro a ha o ho; rw [feeds_install ha] at ho; cases ho
    · intro o; simp only [W_install]; omega
    · intro q hq k hk hm
      have := h.inv.mention_lt hk hm
      have := owns_install hq
      omega
    · intro q hq; rw [mentions_install hq]; simp
    · intro q h1 h2
      have : q = s.bodies.length := by simp at h2; omega
      subst this; simp [install]
    · intro q hq
      have : q = s.bodies.length := by simpa [install] using hq
      omega
    · intro x hx
      cases hx
      refine ⟨.ref s.bodies.length, by rw [Fin_install]; simp [hvl], 1, ?_⟩
      rw [Fin_install, valueAt_ref (b := ⟨0, true, t, []⟩) (by simp) rfl]
      rfl

theorem start_J {s : State} {A : View} (h : J s A) {c : Call} (hl : Legal s A c) : ∃ s', start s c = .ok s' ∧ J s' (A.call c) := by
  cases c with
  | number n => exact ⟨_, rfl, h.newVar n⟩
  | str t => exact start_str h t
  | array ws => exact start_array h hl
  | copy w => exact start_copy h hl
  | assign v w => exact start_assign h hl
  | destroy v => exact start_destroy h hl
  | elem w i => exact start_elem h hl
  | setElem v i w => exact start_setElem h hl
  | push v w => exact start_push h hl
  | edit v t => exact start_edit h hl

theorem J_init : J init [] := by
  refine ⟨⟨?_, List.Pairwise.nil, ?_, ?_, ?_, ?_, ?_, ?_⟩, rfl, ?_, ?_, ?_⟩
  · intro j hj; cases hj
  · intro o _; rfl
  · intro o b h; simp [init] at h
  · intro o b h; simp [init] at h
  · intro o b h; simp [init] at h
  · intro j hj; cases hj
  · rintro o ⟨b, h, _⟩; simp [init] at h
  · intro j hj; cases hj
  · intro j hj; cases hj
  · intro u x _ hx; simp at hx

theorem history_J {s : State} {A : View} (h : History s A) : J s A := by
  induction h with
  | start => exact J_init
  | call c h1 h2 h3 ih =>
    obtain ⟨s', h4, h5⟩ := start_J ih h2
    rw [h3] at h4; cases h4; exact h5
  | tick i h1 h2 ih =>
    obtain ⟨s', h4, h5⟩ := tick_J ih i
    rw [h2] at h4; cases h4; exact h5

end Strpp.NestPar
