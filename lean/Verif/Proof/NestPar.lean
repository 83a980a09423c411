import Verif.Spec.NestPar
/-! Lemmas for C88: reading values, counting references, what the rest of a call does to the memory. -/
set_option linter.unusedSectionVars false
set_option linter.unusedVariables false
set_option linter.unusedSimpArgs false
namespace Strpp.NestPar
open Spec

/-! ### Reading -/

/-- what of a body matters to its value -/
def Body.core (b : Body) : Bool × Text × List Cell := (b.live, b.text, b.kids)

/-- the bodies other than those in `P` have the same contents -/
def Same (P : Nat → Prop) (bs bs' : List Body) : Prop := ∀ q, ¬ P q → (bs[q]?).map Body.core = (bs'[q]?).map Body.core

/-- no body other than those in `P` refers to those in `P` -/
def Avoids (P : Nat → Prop) (bs : List Body) : Prop := ∀ (q : Nat) (b : Body), ¬ P q → bs[q]? = some b → ∀ p, P p → Cell.ref p ∉ b.kids

theorem mapM_congr {α β : Type} {f g : α → Option β} : ∀ {l : List α}, (∀ c ∈ l, f c = g c) → l.mapM f = l.mapM g := by
  intro l
  induction l with
  | nil => intro _; rfl
  | cons a l ih =>
    intro h
    rw [List.mapM_cons, List.mapM_cons, h a (by simp), ih (fun c hc => h c (by simp [hc]))]

theorem mapM_some {α β : Type} {f : α → Option β} : ∀ {l : List α} {ys : List β}, l.mapM f = some ys →
    l.length = ys.length ∧ ∀ (k : Nat) (c : α), l[k]? = some c → ∃ y, ys[k]? = some y ∧ f c = some y := by
  intro l
  induction l with
  | nil => intro ys h; cases h; exact ⟨rfl, fun k c h => by simp at h⟩
  | cons a l ih =>
    intro ys h
    rw [List.mapM_cons] at h
    cases h1 : f a with
    | none => rw [h1] at h; cases h
    | some y =>
      rw [h1] at h
      cases h2 : l.mapM f with
      | none => rw [h2] at h; cases h
      | some zs =>
        rw [h2] at h
        cases h
        obtain ⟨h3, h4⟩ := ih h2
        refine ⟨by simp [h3], fun k c hk => ?_⟩
        cases k with
        | zero => simp at hk; subst hk; exact ⟨y, rfl, h1⟩
        | succ k => simp at hk; simpa using h4 k c hk

theorem mapM_of {α β : Type} {f : α → Option β} : ∀ {l : List α} {ys : List β}, l.length = ys.length →
    (∀ (k : Nat) (c : α) (y : β), l[k]? = some c → ys[k]? = some y → f c = some y) → l.mapM f = some ys := by
  intro l
  induction l with
  | nil => intro ys h _; cases ys with | nil => rfl | cons _ _ => simp at h
  | cons a l ih =>
    intro ys h h2
    cases ys with
    | nil => simp at h
    | cons y ys =>
      rw [List.mapM_cons, h2 0 a y rfl rfl, ih (by simpa using h) (fun k c y' h3 h4 => h2 (k + 1) c y' (by simpa using h3) (by simpa using h4))]
      rfl

theorem mapM_isSome {α β : Type} {f : α → Option β} : ∀ {l : List α}, (∀ c ∈ l, (f c).isSome) → (l.mapM f).isSome := by
  intro l
  induction l with
  | nil => intro _; rfl
  | cons a l ih =>
    intro h
    obtain ⟨y, hy⟩ := Option.isSome_iff_exists.1 (h a (by simp))
    obtain ⟨ys, hys⟩ := Option.isSome_iff_exists.1 (ih (fun c hc => h c (by simp [hc])))
    rw [List.mapM_cons, hy, hys]
    rfl

theorem mapM_isSome_mem {α β : Type} {f : α → Option β} {l : List α} (h : (l.mapM f).isSome) {c : α} (hc : c ∈ l) : (f c).isSome := by
  obtain ⟨ys, hys⟩ := Option.isSome_iff_exists.1 h
  obtain ⟨k, hk⟩ := List.getElem?_of_mem hc
  obtain ⟨y, _, h2⟩ := (mapM_some hys).2 k c hk
  rw [h2]; rfl

theorem valueAt_mono {bs : List Body} : ∀ (n : Nat) {c : Cell} {x : Val}, valueAt bs n c = some x → ∀ {m}, n ≤ m → valueAt bs m c = some x := by
  intro n
  induction n with
  | zero =>
    intro c x h m _
    cases c with
    | num i => cases m <;> simpa [valueAt] using h
    | ref o => simp [valueAt] at h
  | succ n ih =>
    intro c x h m hm
    cases c with
    | num i => cases m <;> simpa [valueAt] using h
    | ref o =>
      cases m with
      | zero => omega
      | succ m =>
        simp only [valueAt] at h ⊢
        split at h
        · rename_i b hb
          split at h
          · rename_i hl
            rw [if_pos hl]
            cases h2 : b.kids.mapM (valueAt bs n) with
            | none => rw [h2] at h; cases h
            | some ys =>
              rw [h2] at h
              have h3 : b.kids.mapM (valueAt bs m) = some ys := by
                obtain ⟨h4, h5⟩ := mapM_some h2
                refine mapM_of h4 (fun k c y hk hy => ?_)
                obtain ⟨y', h6, h7⟩ := h5 k c hk
                rw [hy] at h6
                cases h6
                exact ih h7 (by omega)
              rw [h3]
              exact h
          · cases h
        · cases h

theorem valueAt_frame {P : Nat → Prop} {bs bs' : List Body} (hs : Same P bs bs') (ha : Avoids P bs) :
    ∀ (n : Nat) {c : Cell}, (∀ p, P p → c ≠ .ref p) → valueAt bs n c = valueAt bs' n c := by
  intro n
  induction n with
  | zero => intro c _; cases c <;> rfl
  | succ n ih =>
    intro c hc
    cases c with
    | num i => rfl
    | ref o =>
      have ho : ¬ P o := fun h => hc o h rfl
      have h1 := hs o ho
      simp only [valueAt]
      cases h2 : bs[o]? with
      | none =>
        rw [h2] at h1
        cases h3 : bs'[o]? with
        | none => rfl
        | some b' => rw [h3] at h1; cases h1
      | some b =>
        rw [h2] at h1
        cases h3 : bs'[o]? with
        | none => rw [h3] at h1; cases h1
        | some b' =>
          rw [h3] at h1
          simp only [Option.map_some, Option.some.injEq, Body.core, Prod.mk.injEq] at h1
          simp only
          rw [← h1.1, ← h1.2.1, ← h1.2.2, mapM_congr (fun c hc => ih (fun p hp e => ha o b ho h2 p hp (e ▸ hc)))]

/-! ### Counting -/

def cnt (c : Cell) (o : Nat) : Int := if c = .ref o then 1 else 0

theorem cnt_nonneg (c : Cell) (o : Nat) : 0 ≤ cnt c o := by unfold cnt; split <;> omega
theorem cnt_self (o : Nat) : cnt (.ref o) o = 1 := by simp [cnt]
theorem cnt_ne {c : Cell} {o : Nat} (h : c ≠ .ref o) : cnt c o = 0 := by simp [cnt, h]
theorem cnt_num (n : Int) (o : Nat) : cnt (.num n) o = 0 := by simp [cnt]

def Act.w (a : Act) (o : Nat) : Int :=
  match a with
  | .inc q | .adopt q => - cnt (.ref q) o
  | .swap _ c => cnt c o
  | .relA q | .relD q => cnt (.ref q) o
  | _ => 0

/-- the references that a call holds (and those it is going to count) -/
def W (t : List Act) (o : Nat) : Int := (t.map (·.w o)).sum

def Kl (cs : List Cell) (o : Nat) : Int := (cs.map (cnt · o)).sum
/-- the references in bodies -/
def K (bs : List Body) (o : Nat) : Int := (bs.map (fun b => Kl b.kids o)).sum
def cntV (x : Option Cell) (o : Nat) : Int :=
  match x with
  | some c => cnt c o
  | none => 0
/-- the references in variables -/
def V (vs : List (Option Cell)) (o : Nat) : Int := (vs.map (cntV · o)).sum
def JW (js : List Job) (o : Nat) : Int := (js.map (fun j => W j.todo o)).sum

def Tot (bs : List Body) (vs : List (Option Cell)) (js : List Job) (o : Nat) : Int := V vs o + K bs o + JW js o

theorem W_nil (o : Nat) : W [] o = 0 := rfl
theorem W_cons (a : Act) (t : List Act) (o : Nat) : W (a :: t) o = a.w o + W t o := by simp [W]
theorem W_append (t u : List Act) (o : Nat) : W (t ++ u) o = W t o + W u o := by simp [W]

theorem sum_nonneg {α : Type} {f : α → Int} {l : List α} (h : ∀ a ∈ l, 0 ≤ f a) : 0 ≤ (l.map f).sum := by
  induction l with
  | nil => simp
  | cons a l ih =>
    have := h a (by simp)
    have := ih (fun b hb => h b (by simp [hb]))
    simp only [List.map_cons, List.sum_cons]; omega

theorem sum_le {α : Type} {f : α → Int} {l : List α} (h : ∀ a ∈ l, 0 ≤ f a) {a : α} (ha : a ∈ l) : f a ≤ (l.map f).sum := by
  induction l with
  | nil => cases ha
  | cons b l ih =>
    have h1 := h b (by simp)
    have h2 : ∀ a ∈ l, 0 ≤ f a := fun c hc => h c (by simp [hc])
    simp only [List.map_cons, List.sum_cons]
    rcases List.mem_cons.1 ha with rfl | ha
    · have := sum_nonneg h2; omega
    · have := ih h2 ha; omega

theorem sum_set {α : Type} {f : α → Int} : ∀ {l : List α} {k : Nat} {x y : α}, l[k]? = some x → ((l.set k y).map f).sum = (l.map f).sum - f x + f y := by
  intro l
  induction l with
  | nil => intro k x y h; simp at h
  | cons a l ih =>
    intro k x y h
    cases k with
    | zero => simp at h; subst h; simp only [List.set_cons_zero, List.map_cons, List.sum_cons]; omega
    | succ k =>
      simp at h
      simp only [List.set_cons_succ, List.map_cons, List.sum_cons, ih h]; omega

theorem sum_zero {l : List Int} (h : ∀ x ∈ l, x = 0) : l.sum = 0 := by
  induction l with
  | nil => rfl
  | cons a l ih => rw [List.sum_cons, h a (by simp), ih (fun x hx => h x (by simp [hx]))]; rfl

theorem Kl_nonneg (cs : List Cell) (o : Nat) : 0 ≤ Kl cs o := sum_nonneg (fun c _ => cnt_nonneg c o)
theorem K_nonneg (bs : List Body) (o : Nat) : 0 ≤ K bs o := sum_nonneg (fun b _ => Kl_nonneg b.kids o)
theorem cntV_nonneg (x : Option Cell) (o : Nat) : 0 ≤ cntV x o := by cases x <;> simp [cntV, cnt_nonneg]
theorem V_nonneg (vs : List (Option Cell)) (o : Nat) : 0 ≤ V vs o := sum_nonneg (fun c _ => cntV_nonneg c o)

theorem K_pos {bs : List Body} {q o : Nat} {b : Body} (hq : bs[q]? = some b) (h : Cell.ref o ∈ b.kids) : 1 ≤ K bs o := by
  have h1 : Kl b.kids o ≤ K bs o := sum_le (f := fun b : Body => Kl b.kids o) (fun b _ => Kl_nonneg b.kids o) (List.mem_of_getElem? hq)
  have h2 : cnt (.ref o) o ≤ Kl b.kids o := sum_le (f := fun c => cnt c o) (fun c _ => cnt_nonneg c o) h
  rw [cnt_self] at h2
  omega

theorem V_pos {vs : List (Option Cell)} {v o : Nat} (h : vs[v]? = some (some (.ref o))) : 1 ≤ V vs o := by
  have := sum_le (f := fun x => cntV x o) (fun c _ => cntV_nonneg c o) (List.mem_of_getElem? h)
  simp only [cntV, cnt_self] at this
  exact this

/-- two variables that refer to `o` -/
theorem V_two {vs : List (Option Cell)} {u v o : Nat} (hu : vs[u]? = some (some (.ref o))) (hv : vs[v]? = some (some (.ref o))) (huv : u ≠ v) : 2 ≤ V vs o := by
  have h1 : ((vs.set u none).map (cntV · o)).sum = V vs o - cntV (some (.ref o)) o + cntV none o := sum_set hu
  have h2 : (vs.set u none)[v]? = some (some (.ref o)) := by rw [List.getElem?_set_ne huv]; exact hv
  have h3 := V_pos h2
  unfold V at h3
  rw [h1] at h3
  simp only [cntV, cnt_self] at h3
  omega

theorem V_exists {vs : List (Option Cell)} {o : Nat} (h : 0 < V vs o) : ∃ v : Nat, vs[v]? = some (some (.ref o)) := by
  apply Classical.byContradiction
  intro hn
  have : V vs o = 0 := by
    unfold V
    apply sum_zero
    intro x hx
    obtain ⟨y, hy, rfl⟩ := List.mem_map.1 hx
    obtain ⟨k, hk⟩ := List.getElem?_of_mem hy
    cases y with
    | none => rfl
    | some c => exact cnt_ne (fun e => hn ⟨k, by rw [hk, e]⟩)
  omega

theorem K_exists {bs : List Body} {o : Nat} (h : 0 < K bs o) : ∃ (q : Nat) (b : Body), bs[q]? = some b ∧ Cell.ref o ∈ b.kids := by
  apply Classical.byContradiction
  intro hn
  have : K bs o = 0 := by
    unfold K
    apply sum_zero
    intro x hx
    obtain ⟨b, hb, rfl⟩ := List.mem_map.1 hx
    obtain ⟨k, hk⟩ := List.getElem?_of_mem hb
    show Kl b.kids o = 0
    unfold Kl
    apply sum_zero
    intro x hx
    obtain ⟨c, hc, rfl⟩ := List.mem_map.1 hx
    exact cnt_ne (fun e => hn ⟨k, b, hk, e ▸ hc⟩)
  omega

theorem W_addRef (c : Cell) (o : Nat) : W (addRef c) o = - cnt c o := by
  cases c <;> simp [addRef, W, Act.w, cnt]

theorem W_relOf (c : Cell) (o : Nat) : W (relOf c) o = cnt c o := by
  cases c <;> simp [relOf, W, Act.w, cnt]

theorem W_flatMap_relOf (cs : List Cell) (o : Nat) : W (cs.flatMap relOf) o = Kl cs o := by
  induction cs with
  | nil => rfl
  | cons c cs ih => rw [List.flatMap_cons, W_append, ih, W_relOf]; simp [Kl]

/-! ### The bodies after a store -/

theorem putB_get (bs : List Body) (p k : Nat) (c : Cell) (q : Nat) :
    (putB bs (.kid p k) c)[q]? = if p = q then (bs[q]?).map (fun b => { b with kids := b.kids.set k c }) else bs[q]? := by
  simp only [putB, List.getElem?_modify]
  split
  · rename_i h; simp [h]
  · rename_i h; simp [h]

theorem K_putB {bs : List Body} {p k : Nat} {b : Body} {old c : Cell} (hp : bs[p]? = some b) (hk : b.kids[k]? = some old) (o : Nat) :
    K (putB bs (.kid p k) c) o = K bs o - cnt old o + cnt c o := by
  have h1 : putB bs (.kid p k) c = bs.set p { b with kids := b.kids.set k c } := by
    apply List.ext_getElem?
    intro q
    rw [putB_get, List.getElem?_set]
    by_cases h : p = q
    · subst h
      have := (List.getElem?_eq_some_iff.1 hp).1
      rw [if_pos rfl, if_pos rfl, if_pos this, hp]
      rfl
    · rw [if_neg h, if_neg h]
  have h2 : Kl (b.kids.set k c) o = Kl b.kids o - cnt old o + cnt c o := sum_set hk
  rw [h1]
  unfold K
  rw [sum_set hp]
  simp only [h2]
  omega

theorem V_putV {vs : List (Option Cell)} {v : Nat} {x : Option Cell} (c : Option Cell) (hv : vs[v]? = some x) (o : Nat) :
    V (vs.set v c) o = V vs o - cntV x o + cntV c o := sum_set hv

theorem K_set {bs : List Body} {o : Nat} {b b' : Body} (h : bs[o]? = some b) (q : Nat) : K (bs.set o b') q = K bs q - Kl b.kids q + Kl b'.kids q := sum_set h

end Strpp.NestPar
