import Verif.Proof.NestParStart
/-! Each call: C88. -/
set_option linter.unusedSectionVars false
set_option linter.unusedVariables false
set_option linter.unusedSimpArgs false
namespace Strpp.NestPar
open Spec

theorem View.at_eq {A : View} {v : Nat} {x : Val} (h : A[v]? = some (some x)) : A.at v = x := by simp [View.at, h]

/-- what a variable that may be read holds -/
theorem J.readable {s : State} {A : View} (h : J s A) {w : Nat} (he : Exists A w) (hr : Readable s w) :
    w < s.vars.length ∧ ∃ c n, s.vars[w]? = some (some c) ∧ valueAt s.bodies n c = some (A.at w) := by
  obtain ⟨x, hx⟩ := he
  obtain ⟨c, h1, n, h2⟩ := h.shows hr hx
  rw [View.at_eq hx]
  exact ⟨(List.getElem?_eq_some_iff.1 h1).1, c, n, h1, h2⟩

theorem append_set {α : Type} (A : List α) (x y : α) : (A ++ [x]).set A.length y = A ++ [y] := by
  rw [List.set_append_right _ _ (by omega)]; simp

theorem holds_append {vs : List (Option Cell)} {n : Int} {u p : Nat} : Holds (vs ++ [some (.num n)]) u p ↔ Holds vs u p := by
  by_cases hlt : u < vs.length
  · simp only [Holds, List.getElem?_append_left hlt]
  · simp only [Holds, List.getElem?_append_right (show vs.length ≤ u by omega), List.getElem?_eq_none (show vs.length ≤ u by omega)]
    cases h2 : u - vs.length with
    | zero => simp
    | succ m => simp

/-- a variable is constructed by a call -/
theorem J.construct {s : State} {A : View} (h : J s A) {nb : List Body} (hnb : Plain nb) {rs : List Nat} {todo : List Act} {y : Val}
    (hrs : ∀ w ∈ rs, w < s.vars.length ∧ Readable s w)
    (hg : Good (s.bodies ++ nb) (s.vars ++ [some (.num 0)]) s.vars.length rs true (some (.num 0)) todo)
    (hfeed : ∀ a ∈ todo, ∀ o ∈ a.feeds, ¬ Owns todo o)
    (hW : ∀ o, W todo o = 0)
    (hown : ∀ p, Owns todo p → s.bodies.length ≤ p ∧ p < s.bodies.length + nb.length)
    (hment : ∀ p, Mentions todo p → s.bodies.length ≤ p ∨ ∃ u ∈ rs, Holds s.vars u p)
    (hnew : ∀ p, s.bodies.length ≤ p → p < s.bodies.length + nb.length → Act.adopt p ∈ todo)
    (hz : ∀ p, Act.del p ∈ todo ∨ Act.adopt p ∈ todo → s.bodies.length ≤ p)
    (hy : Ends (s.bodies ++ nb, s.vars ++ [some (.num 0)]) todo s.vars.length y) :
    J ⟨s.bodies ++ nb, s.vars ++ [some (.num 0)], s.jobs ++ [⟨s.vars.length, rs, todo⟩]⟩ (A ++ [some y]) := by
  have h1 := h.newVar 0
  have hA : A ++ [some y] = (A ++ [some (Val.num 0)]).set s.vars.length (some y) := by rw [← h.len, append_set]
  rw [hA]
  have hj : JobOk (s.bodies ++ nb) (s.vars ++ [some (.num 0)]) ⟨s.vars.length, rs, todo⟩ := by
    refine ⟨?_, ?_, ?_, hfeed⟩
    · have : curOf (s.vars ++ [some (.num 0)]) s.vars.length = some (.num 0) := by simp [curOf]
      simp only [this]
      exact hg
    · intro hm
      have := (hrs _ hm).1
      simp only at this
      omega
    · intro p hp
      obtain ⟨p1, p2⟩ := hown p hp
      refine ⟨?_, ?_, ?_⟩
      · have hlt : p < (s.bodies ++ nb).length := by rw [List.length_append]; omega
        have hget := List.getElem?_eq_getElem hlt
        refine ⟨_, hget, ?_⟩
        rcases hnb.get hget with h2 | ⟨_, _, _, h2, _⟩
        · have := (List.getElem?_eq_some_iff.1 h2).1; omega
        · exact h2
      · intro u hu
        have := (h.inv.alive_held (holds_append.1 hu)).lt
        omega
      · intro q b hq hm
        rcases hnb.get hq with h2 | ⟨_, _, _, _, h2⟩
        · have := (h.inv.alive_kid h2 hm).lt; omega
        · obtain ⟨n, h3⟩ := h2 _ hm; cases h3
  refine h1.add (j := ⟨s.vars.length, rs, todo⟩) (y := some y) hnb (by simp) ?_ rfl hj (fun _ _ => rfl) (fun _ h => h) (fun o => by simp only [hW]; omega) ?_ ?_ ?_ hnew hz ?_
  · intro w hw
    have := (hrs w hw).1
    simp only [List.length_append, List.length_singleton]; omega
  · intro k hk
    have hb := h.bound k hk
    refine ⟨?_, ?_, ?_⟩
    · simp only; omega
    · intro hm
      have := hb.2 _ hm
      simp only at this
      omega
    · intro hm
      exact (hrs _ hm).2 k hk rfl
  · intro p hp k hk hm
    have := h.inv.mention_lt hk hm
    have := (hown p hp).1
    omega
  · intro p hp
    rcases hment p hp with h2 | ⟨u, h2, h3⟩
    · exact Or.inl h2
    · exact Or.inr ⟨u, Or.inl h2, holds_append.2 h3⟩
  · intro x hx
    cases hx
    exact hy

/-! ### Filling a new body -/

def setMany : List Cell → Nat → List Cell → List Cell
  | ks, _, [] => ks
  | ks, k, c :: cs => setMany (ks.set k c) (k + 1) cs

theorem setMany_eq : ∀ (cs ks : List Cell) (k : Nat), k + cs.length ≤ ks.length → setMany ks k cs = ks.take k ++ cs ++ ks.drop (k + cs.length) := by
  intro cs
  induction cs with
  | nil => intro ks k h; simp [setMany]
  | cons c cs ih =>
    intro ks k h
    simp only [List.length_cons] at h
    rw [setMany, ih _ _ (by simp; omega)]
    have h1 : (ks.set k c).take (k + 1) = ks.take k ++ [c] := by
      rw [List.take_succ, List.take_set_of_le (by omega), List.getElem?_set_self (by omega)]; rfl
    have h2 : (ks.set k c).drop (k + 1 + cs.length) = ks.drop (k + (c :: cs).length) := by
      rw [List.drop_set_of_lt (by omega)]
      congr 1
      simp only [List.length_cons]; omega
    rw [h1, h2]
    simp

theorem setMany_all {cs ks : List Cell} (h : cs.length = ks.length) : setMany ks 0 cs = cs := by
  rw [setMany_eq cs ks 0 (by omega)]
  simp [h]

/-- places that are not in body `p` nor in later ones -/
def Loc.Before (n : Nat) : Loc → Prop
  | .var _ => True
  | .kid q _ => q < n

theorem peek_append {bs nb : List Body} {vs : List (Option Cell)} {l : Loc} (h : l.Before bs.length) : peek (bs ++ nb, vs) l = peek (bs, vs) l := by
  cases l with
  | var v => rfl
  | kid q k => simp only [peek, List.getElem?_append_left (show q < bs.length from h)]

theorem putB_append {bs : List Body} {b : Body} {k : Nat} {c : Cell} : putB (bs ++ [b]) (.kid bs.length k) c = bs ++ [{ b with kids := b.kids.set k c }] := by
  apply List.ext_getElem?
  intro q
  rw [putB_get]
  by_cases hq : bs.length = q
  · subst hq; simp
  · rw [if_neg hq]
    by_cases hlt : q < bs.length
    · rw [List.getElem?_append_left hlt, List.getElem?_append_left hlt]
    · rw [List.getElem?_eq_none (by simp; omega), List.getElem?_eq_none (by simp; omega)]

theorem Fin_fill {bs : List Body} {vs : List (Option Cell)} : ∀ {ls : List Loc} {k : Nat} {b : Body}, (∀ l ∈ ls, l.Before bs.length) →
    Fin (bs ++ [b], vs) (fill bs.length k ls) = (bs ++ [{ b with kids := setMany b.kids k (ls.map (peek (bs, vs))) }], vs) := by
  intro ls
  induction ls with
  | nil => intro k b _; rfl
  | cons l ls ih =>
    intro k b h
    rw [fill, Fin_cons]
    have h1 : eff (bs ++ [b], vs) (.asg l (.kid bs.length k)) = (bs ++ [{ b with kids := b.kids.set k (peek (bs, vs) l) }], vs) := by
      simp only [eff, putV, peek_append (h l (by simp)), putB_append]
    rw [h1, ih (fun l hl => h l (by simp [hl]))]
    simp [setMany]

theorem W_fill (p : Nat) (q : Nat) : ∀ (ls : List Loc) (k : Nat), W (fill p k ls) q = 0 := by
  intro ls
  induction ls with
  | nil => intro k; rfl
  | cons l ls ih => intro k; rw [fill, W_cons, ih]; rfl

theorem mem_fill {p : Nat} {a : Act} : ∀ {ls : List Loc} {k : Nat}, a ∈ fill p k ls → ∃ l ∈ ls, ∃ k', a = .asg l (.kid p k') := by
  intro ls
  induction ls with
  | nil => intro k h; cases h
  | cons l ls ih =>
    intro k h
    rcases List.mem_cons.1 h with rfl | h
    · exact ⟨l, by simp, k, rfl⟩
    · obtain ⟨l', h1, h2⟩ := ih h
      exact ⟨l', by simp [h1], h2⟩

theorem Good.fill {bs vs v rs cur p} {T : List Act} (hT : Good bs vs v rs false cur T) (ha : Act.adopt p ∈ T) : ∀ {ls : List Loc} {k : Nat},
    (∀ l ∈ ls, ∀ k', SrcOk bs vs v rs cur (.kid p k') l) → (∀ k', k' < k + ls.length → KidOk bs p k') → Good bs vs v rs false cur (NestPar.fill p k ls ++ T) := by
  intro ls
  induction ls with
  | nil => intro k _ _; exact hT
  | cons l ls ih =>
    intro k h1 h2
    have h3 := ih (k := k + 1) (fun l hl => h1 l (by simp [hl])) (fun k' hk' => h2 k' (by simp only [List.length_cons]; omega))
    refine ⟨⟨h1 l (by simp) k, ⟨h2 k (by simp only [List.length_cons]; omega), Or.inl (List.mem_append_right _ ha)⟩, by intro x hx; cases hx⟩, ?_, h3⟩
    intro q
    have := h3.nonneg q
    show 0 ≤ W (.asg l (.kid p k) :: (NestPar.fill p (k + 1) ls ++ T)) q
    rw [W_cons]; simp only [Act.w]; omega

theorem W_install (v p q : Nat) : W (install v p) q = 0 := by
  simp only [install, W_cons, W_nil, Act.w]; omega

/-- the actions that give the variable its new body -/
theorem Good.install {bs vs v rs cur p} {T : List Act} (hv : ∃ c, vs[v]? = some (some c)) (hT : Good bs vs v rs false (some (.ref p)) T)
    (h0 : Act.adopt p ∉ T ∧ Act.del p ∉ T) : Good bs vs v rs false cur (NestPar.install v p ++ T) := by
  have hn := hT.nonneg
  have w1 : ∀ q, W (.swap (.var v) (.ref p) :: T) q = cnt (.ref p) q + W T q := fun q => by rw [W_cons]; rfl
  have w2 : ∀ q, W (.chk p :: .swap (.var v) (.ref p) :: T) q = cnt (.ref p) q + W T q := fun q => by rw [W_cons, w1]; simp only [Act.w]; omega
  have w3 : ∀ q, W (.adopt p :: .chk p :: .swap (.var v) (.ref p) :: T) q = W T q := fun q => by rw [W_cons, w2]; simp only [Act.w]; omega
  refine ⟨⟨?_, ?_⟩, fun q => Int.le_trans (hn q) (Int.le_of_eq (w3 q).symm), ?_, fun q => ?_, ⟨rfl, hv⟩, fun q => ?_, hT⟩
  · intro hm
    exact h0.1 (by simpa using hm)
  · intro hm
    exact h0.2 (by simpa using hm)
  · have := hn p
    refine Int.le_trans ?_ (Int.le_of_eq (w1 p).symm); rw [cnt_self]; omega
  · have := hn q; have := cnt_nonneg (.ref p) q
    refine Int.le_trans ?_ (Int.le_of_eq (w2 q).symm); omega
  · have := hn q; have := cnt_nonneg (.ref p) q
    refine Int.le_trans ?_ (Int.le_of_eq (w1 q).symm); omega

theorem mem_install {v p : Nat} {a : Act} (h : a ∈ install v p) : a = .adopt p ∨ a = .chk p ∨ a = .swap (.var v) (.ref p) := by
  simpa [install] using h

theorem Fin_install (m : Mem) (v p : Nat) : Fin m (install v p) = (m.1, m.2.set v (some (.ref p))) := rfl

theorem plain_blank (n : Nat) : Plain [blank n] := by
  intro b hb
  simp at hb; subst hb
  refine ⟨rfl, rfl, fun c hc => ⟨0, ?_⟩⟩
  simp only [blank, List.mem_replicate] at hc
  exact hc.2

theorem kidOk_blank {bs : List Body} {n k : Nat} (h : k < n) : KidOk (bs ++ [blank n]) bs.length k := ⟨blank n, by simp, by simpa [blank] using h⟩

/-- the value of a new array -/
theorem value_new {bs vs js} (h : Inv bs vs js) {cs : List Cell} {ys : List Val} (hlen : cs.length = ys.length)
    (hv : ∀ (k : Nat) (c : Cell) (y : Val), cs[k]? = some c → ys[k]? = some y → (∀ p, bs.length ≤ p → c ≠ .ref p) ∧ ∃ n, valueAt bs n c = some y) :
    ∃ n, valueAt (bs ++ [⟨0, true, [], cs⟩]) n (.ref bs.length) = some (.obj [] ys) := by
  have h1 : ∃ n, ∀ (k : Nat) (c : Cell) (y : Val), cs[k]? = some c → ys[k]? = some y → valueAt bs n c = some y := by
    clear h
    induction cs generalizing ys with
    | nil => exact ⟨0, fun k c y hk => by simp at hk⟩
    | cons c cs ih =>
      cases ys with
      | nil => simp at hlen
      | cons y ys =>
        obtain ⟨n, hn⟩ := ih (ys := ys) (by simpa using hlen) (fun k c y hk hy => hv (k + 1) c y (by simpa using hk) (by simpa using hy))
        obtain ⟨_, m, hm⟩ := hv 0 c y rfl rfl
        refine ⟨n + m, fun k c' y' hk hy => ?_⟩
        cases k with
        | zero =>
          simp at hk hy; subst hk hy
          exact valueAt_mono m hm (by omega)
        | succ k =>
          simp at hk hy
          exact valueAt_mono n (hn k c' y' hk hy) (by omega)
  obtain ⟨n, hn⟩ := h1
  refine ⟨n + 1, ?_⟩
  rw [valueAt_ref (b := ⟨0, true, [], cs⟩) (by simp) rfl]
  have : cs.mapM (valueAt (bs ++ [⟨0, true, [], cs⟩]) n) = some ys := by
    refine mapM_of hlen (fun k c y hk hy => ?_)
    rw [← valueAt_frame (same_append bs _) h.avoids_new n (hv k c y hk hy).1]
    exact hn k c y hk hy
  rw [this]; rfl

end Strpp.NestPar
