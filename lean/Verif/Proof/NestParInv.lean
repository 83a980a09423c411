import Verif.Proof.NestPar
/-! The invariant of C88. -/
set_option linter.unusedSectionVars false
set_option linter.unusedVariables false
set_option linter.unusedSimpArgs false
namespace Strpp.NestPar
open Spec

def Loc.nodes : Loc → List Nat
  | .var _ => []
  | .kid p _ => [p]

def Cell.nodes : Cell → List Nat
  | .num _ => []
  | .ref o => [o]

/-- the body that an action writes, frees or is the first to refer to -/
def Act.own : Act → Option Nat
  | .swap (.kid p _) _ => some p
  | .copyTo _ (.kid p _) => some p
  | .asg _ (.kid p _) => some p
  | .adopt p => some p
  | .del p => some p
  | _ => none

/-- the bodies in an action -/
def Act.nodes : Act → List Nat
  | .inc o | .adopt o | .chk o | .relA o | .relD o | .del o => [o]
  | .swap l c => l.nodes ++ c.nodes
  | .copyTo s l | .asg s l => s.nodes ++ l.nodes

/-- the bodies that an action reads an element of, or makes an element -/
def Act.feeds : Act → List Nat
  | .swap (.kid _ _) c => c.nodes
  | .copyTo s _ | .asg s _ => s.nodes
  | _ => []

def Owns (t : List Act) (p : Nat) : Prop := ∃ a ∈ t, a.own = some p
def Mentions (t : List Act) (p : Nat) : Prop := ∃ a ∈ t, p ∈ a.nodes

theorem Act.own_nodes {a : Act} {p : Nat} (h : a.own = some p) : p ∈ a.nodes := by
  cases a with
  | swap l c => cases l with | var _ => simp [Act.own] at h | kid q k => simp [Act.own] at h; simp [Act.nodes, Loc.nodes, h]
  | copyTo s l => cases l with | var _ => simp [Act.own] at h | kid q k => simp [Act.own] at h; simp [Act.nodes, Loc.nodes, h]
  | asg s l => cases l with | var _ => simp [Act.own] at h | kid q k => simp [Act.own] at h; simp [Act.nodes, Loc.nodes, h]
  | adopt q => simp [Act.own] at h; simp [Act.nodes, h]
  | del q => simp [Act.own] at h; simp [Act.nodes, h]
  | _ => simp [Act.own] at h

theorem Owns.mentions {t : List Act} {p : Nat} (h : Owns t p) : Mentions t p := by
  obtain ⟨a, h1, h2⟩ := h
  exact ⟨a, h1, Act.own_nodes h2⟩

theorem Owns.cons {a : Act} {t : List Act} {p : Nat} (h : Owns t p) : Owns (a :: t) p := by
  obtain ⟨b, h1, h2⟩ := h
  exact ⟨b, List.mem_cons_of_mem _ h1, h2⟩

theorem Mentions.cons {a : Act} {t : List Act} {p : Nat} (h : Mentions t p) : Mentions (a :: t) p := by
  obtain ⟨b, h1, h2⟩ := h
  exact ⟨b, List.mem_cons_of_mem _ h1, h2⟩

theorem mentions_append {t u : List Act} {p : Nat} : Mentions (t ++ u) p ↔ Mentions t p ∨ Mentions u p := by
  constructor
  · rintro ⟨a, h1, h2⟩
    rcases List.mem_append.1 h1 with h | h
    · exact Or.inl ⟨a, h, h2⟩
    · exact Or.inr ⟨a, h, h2⟩
  · rintro (⟨a, h1, h2⟩ | ⟨a, h1, h2⟩)
    · exact ⟨a, List.mem_append_left _ h1, h2⟩
    · exact ⟨a, List.mem_append_right _ h1, h2⟩

theorem owns_append {t u : List Act} {p : Nat} : Owns (t ++ u) p ↔ Owns t p ∨ Owns u p := by
  constructor
  · rintro ⟨a, h1, h2⟩
    rcases List.mem_append.1 h1 with h | h
    · exact Or.inl ⟨a, h, h2⟩
    · exact Or.inr ⟨a, h, h2⟩
  · rintro (⟨a, h1, h2⟩ | ⟨a, h1, h2⟩)
    · exact ⟨a, List.mem_append_left _ h1, h2⟩
    · exact ⟨a, List.mem_append_right _ h1, h2⟩

/-- variable `w` refers to body `o` -/
def Holds (vs : List (Option Cell)) (w o : Nat) : Prop := vs[w]? = some (some (.ref o))
/-- no body refers to `o` -/
def NotKid (bs : List Body) (o : Nat) : Prop := ∀ (q : Nat) (b : Body), bs[q]? = some b → Cell.ref o ∉ b.kids
def Alive (bs : List Body) (o : Nat) : Prop := ∃ b, bs[o]? = some b ∧ b.live = true
/-- body `p` has an element `k` -/
def KidOk (bs : List Body) (p k : Nat) : Prop := ∃ b, bs[p]? = some b ∧ k < b.kids.length

section
variable (bs : List Body) (vs : List (Option Cell)) (v : Nat) (rs : List Nat)

/-- a variable that the call uses refers to `o`, or to an array with `o` in it -/
def Rooted (o : Nat) : Prop :=
  ∃ w, (w ∈ rs ∨ w = v) ∧ (Holds vs w o ∨ ∃ p b, Holds vs w p ∧ bs[p]? = some b ∧ Cell.ref o ∈ b.kids)

def DstOk (cur : Option Cell) (t : List Act) : Loc → Prop
  | .var x => x = v ∧ ∃ c, vs[v]? = some (some c)
  | .kid p k => KidOk bs p k ∧ (Act.adopt p ∈ t ∨ cur = some (.ref p))

def SrcOk (cur : Option Cell) (l : Loc) : Loc → Prop
  | .var w => (w ∈ rs ∨ w = v ∧ l = .var v) ∧ ∃ c, vs[w]? = some (some c)
  | .kid p k => KidOk bs p k ∧ ((∃ w ∈ rs, Holds vs w p) ∨ cur = some (.ref p))

/-- what the variable of the call holds after an action -/
def next (cur : Option Cell) : Act → Option Cell
  | .swap (.var _) c => some c
  | .copyTo _ (.var _) => none
  | .asg _ (.var _) => none
  | _ => cur

def GoodAct (hd : Bool) (cur : Option Cell) (a : Act) (t : List Act) : Prop :=
  match a with
  | .inc o => 2 ≤ W t o ∨ (hd = true ∧ 1 ≤ W t o ∧ Rooted bs vs v rs o)
  | .chk o => 1 ≤ W t o
  | .swap l _ => DstOk bs vs v cur t l
  | .copyTo s l | .asg s l => SrcOk bs vs v rs cur l s ∧ DstOk bs vs v cur t l ∧ ∀ x, l = .var x → t = []
  | .adopt o => Act.adopt o ∉ t ∧ Act.del o ∉ t
  | .del o => ¬ Mentions t o
  | _ => True

/-- what a call has yet to do is in order -/
def Good (hd : Bool) (cur : Option Cell) : List Act → Prop
  | [] => True
  | a :: t => GoodAct bs vs v rs hd cur a t ∧ (∀ o, 0 ≤ W (a :: t) o) ∧ Good false (next cur a) t

end

def curOf (vs : List (Option Cell)) (v : Nat) : Option Cell := (vs[v]?).getD none

theorem curOf_holds {vs : List (Option Cell)} {v o : Nat} (h : curOf vs v = some (.ref o)) : Holds vs v o := by
  unfold curOf at h
  cases h2 : vs[v]? with
  | none => rw [h2] at h; cases h
  | some x => rw [h2] at h; simp at h; rw [Holds, h2, h]

theorem holds_curOf {vs : List (Option Cell)} {v o : Nat} (h : Holds vs v o) : curOf vs v = some (.ref o) := by
  unfold curOf; rw [h]; rfl

theorem Good.nonneg {bs vs v rs hd cur} : ∀ {t : List Act}, Good bs vs v rs hd cur t → ∀ o, 0 ≤ W t o := by
  intro t h o
  cases t with
  | nil => rw [W_nil]; omega
  | cons a t => exact h.2.1 o

theorem Good.head {bs vs v rs cur} : ∀ {t : List Act} {hd : Bool}, Good bs vs v rs false cur t → Good bs vs v rs hd cur t := by
  intro t hd h
  cases t with
  | nil => exact trivial
  | cons a t =>
    refine ⟨?_, h.2⟩
    have h1 := h.1
    cases a with
    | inc o =>
      rcases h1 with h1 | h1
      · exact Or.inl h1
      · exact absurd h1.1 (by decide)
    | _ => exact h1

/-- the same with other memory -/
theorem Good.frame {bs bs' vs vs' v rs} : ∀ {t : List Act} {hd : Bool} {cur : Option Cell}, Good bs vs v rs hd cur t →
    (∀ p k, Mentions t p → KidOk bs p k → KidOk bs' p k) →
    (∀ w, (w ∈ rs ∨ w = v) → (∃ c, vs[w]? = some (some c)) → ∃ c, vs'[w]? = some (some c)) →
    (∀ w ∈ rs, vs'[w]? = vs[w]?) →
    (hd = true → ∀ o, Mentions t o → Rooted bs vs v rs o → Rooted bs' vs' v rs o) → Good bs' vs' v rs hd cur t := by
  intro t
  induction t with
  | nil => intros; trivial
  | cons a t ih =>
    intro hd cur h hk hw hr hroot
    refine ⟨?_, h.2.1, ih h.2.2 (fun p k hp => hk p k hp.cons) hw hr (by simp)⟩
    have h1 := h.1
    have hdst : ∀ l : Loc, (∀ p ∈ l.nodes, p ∈ a.nodes) → DstOk bs vs v cur t l → DstOk bs' vs' v cur t l := by
      intro l hl h2
      cases l with
      | var x => exact ⟨h2.1, hw v (Or.inr rfl) h2.2⟩
      | kid p k => exact ⟨hk p k ⟨a, by simp, hl p (by simp [Loc.nodes])⟩ h2.1, h2.2⟩
    have hsrc : ∀ (l s : Loc), (∀ p ∈ s.nodes, p ∈ a.nodes) → SrcOk bs vs v rs cur l s → SrcOk bs' vs' v rs cur l s := by
      intro l s hl h2
      cases s with
      | var w => exact ⟨h2.1, hw w (h2.1.imp_right (fun h => h.1)) h2.2⟩
      | kid p k =>
        refine ⟨hk p k ⟨a, by simp, hl p (by simp [Loc.nodes])⟩ h2.1, h2.2.imp_left ?_⟩
        rintro ⟨w, h3, h4⟩
        exact ⟨w, h3, by rw [Holds, hr w h3]; exact h4⟩
    cases a with
    | inc o =>
      rcases h1 with h1 | ⟨h1, h2, h3⟩
      · exact Or.inl h1
      · exact Or.inr ⟨h1, h2, hroot h1 o ⟨Act.inc o, by simp, by simp [Act.nodes]⟩ h3⟩
    | swap l c => exact hdst l (by simp [Act.nodes]; intro p hp; exact Or.inl hp) h1
    | copyTo s l => exact ⟨hsrc l s (by simp [Act.nodes]; intro p hp; exact Or.inl hp) h1.1, hdst l (by simp [Act.nodes]; intro p hp; exact Or.inr hp) h1.2.1, h1.2.2⟩
    | asg s l => exact ⟨hsrc l s (by simp [Act.nodes]; intro p hp; exact Or.inl hp) h1.1, hdst l (by simp [Act.nodes]; intro p hp; exact Or.inr hp) h1.2.1, h1.2.2⟩
    | _ => exact h1

/-- a call that has no reference to a body and can get none does not have it in its actions -/
theorem Good.noMention {bs vs v rs} {o : Nat} (hh : ∀ w, (w ∈ rs ∨ w = v) → ¬ Holds vs w o) (hk : NotKid bs o) :
    ∀ {t : List Act} {hd : Bool} {cur : Option Cell}, Good bs vs v rs hd cur t → W t o = 0 → cur ≠ some (.ref o) → ¬ Owns t o → ¬ Mentions t o := by
  intro t
  induction t with
  | nil => intro hd cur _ _ _ _ h; obtain ⟨a, h, _⟩ := h; cases h
  | cons a t ih =>
    intro hd cur h hW hc ho hm
    have hn := h.2.2.nonneg o
    rw [W_cons] at hW
    have ho' : ¬ Owns t o := fun h => ho h.cons
    have hown : a.own ≠ some o := fun e => ho ⟨a, by simp, e⟩
    have key : a.w o = 0 → next cur a ≠ some (.ref o) → o ∉ a.nodes → False := by
      intro h1 h2 h3
      obtain ⟨b, h4, h5⟩ := hm
      rcases List.mem_cons.1 h4 with rfl | h4
      · exact h3 h5
      · exact ih h.2.2 (by omega) h2 ho' ⟨b, h4, h5⟩
    have h1 := h.1
    have hdst : ∀ l : Loc, (∀ p k, l = .kid p k → a.own = some p) → o ∉ l.nodes := by
      intro l hl
      cases l with
      | var x => simp [Loc.nodes]
      | kid p k =>
        intro hp
        simp [Loc.nodes] at hp
        subst hp
        exact hown (hl _ k rfl)
    have hsrc : ∀ (l s : Loc), SrcOk bs vs v rs cur l s → o ∉ s.nodes := by
      intro l s h2
      cases s with
      | var w => simp [Loc.nodes]
      | kid p k =>
        intro hp
        simp [Loc.nodes] at hp
        subst hp
        rcases h2.2 with ⟨w, h3, h4⟩ | h3
        · exact hh w (Or.inl h3) h4
        · exact hc h3
    cases a with
    | inc q =>
      by_cases hq : q = o
      · subst hq
        simp only [Act.w, cnt_self] at hW
        rcases h1 with h1 | ⟨_, _, w, hw, h1 | ⟨p, b, h3, h4, h5⟩⟩
        · omega
        · exact hh w hw h1
        · exact hk p b h4 h5
      · have : cnt (.ref q) o = 0 := cnt_ne (by simp [hq])
        exact key (by simp [Act.w, this]) hc (by simp [Act.nodes]; exact fun e => hq e.symm)
    | adopt q =>
      have hq : q ≠ o := fun e => hown (by rw [e]; rfl)
      have : cnt (.ref q) o = 0 := cnt_ne (by simp [hq])
      exact key (by simp [Act.w, this]) hc (by simp [Act.nodes]; exact fun e => hq e.symm)
    | chk q =>
      by_cases hq : q = o
      · subst hq
        have h1' : 1 ≤ W t q := h1
        simp only [Act.w] at hW
        omega
      · exact key (by simp [Act.w]) hc (by simp [Act.nodes]; exact fun e => hq e.symm)
    | swap l c =>
      simp only [Act.w] at hW
      have h2 := cnt_nonneg c o
      have h3 : c ≠ .ref o := by
        intro e; subst e; rw [cnt_self] at hW; omega
      refine key (by simp only [Act.w]; omega) ?_ ?_
      · cases l with
        | var x => simp only [next]; intro e; exact h3 (Option.some.inj e)
        | kid p k => exact hc
      · simp only [Act.nodes, List.mem_append, not_or]
        refine ⟨hdst l (fun p k e => by subst e; rfl), ?_⟩
        cases c with
        | num _ => simp [Cell.nodes]
        | ref q => simp [Cell.nodes]; exact fun e => h3 (by rw [e])
    | copyTo s l =>
      refine key (by simp [Act.w]) ?_ ?_
      · cases l with
        | var x => simp [next]
        | kid p k => exact hc
      · simp only [Act.nodes, List.mem_append, not_or]
        exact ⟨hsrc l s h1.1, hdst l (fun p k e => by subst e; rfl)⟩
    | asg s l =>
      refine key (by simp [Act.w]) ?_ ?_
      · cases l with
        | var x => simp [next]
        | kid p k => exact hc
      · simp only [Act.nodes, List.mem_append, not_or]
        exact ⟨hsrc l s h1.1, hdst l (fun p k e => by subst e; rfl)⟩
    | relA q =>
      have hq : q ≠ o := by intro e; subst e; simp only [Act.w, cnt_self] at hW; omega
      have : cnt (.ref q) o = 0 := cnt_ne (by simp [hq])
      exact key (by simp [Act.w, this]) hc (by simp [Act.nodes]; exact fun e => hq e.symm)
    | relD q =>
      have hq : q ≠ o := by intro e; subst e; simp only [Act.w, cnt_self] at hW; omega
      have : cnt (.ref q) o = 0 := cnt_ne (by simp [hq])
      exact key (by simp [Act.w, this]) hc (by simp [Act.nodes]; exact fun e => hq e.symm)
    | del q =>
      have hq : q ≠ o := fun e => hown (by rw [e]; rfl)
      exact key (by simp [Act.w]) hc (by simp [Act.nodes]; exact fun e => hq e.symm)

/-- a call that is going to write a body keeps it -/
theorem Good.kept {bs vs v rs} {p : Nat} : ∀ {t : List Act} {cur : Option Cell}, Good bs vs v rs false cur t → Owns t p → Act.del p ∉ t →
    Act.adopt p ∈ t ∨ cur = some (.ref p) ∨ 1 ≤ W t p := by
  intro t
  induction t with
  | nil => intro cur _ h; obtain ⟨a, h, _⟩ := h; cases h
  | cons a t ih =>
    intro cur h ho hd
    have hn := h.2.2.nonneg p
    have hd' : Act.del p ∉ t := fun h => hd (List.mem_cons_of_mem _ h)
    have h1 := h.1
    obtain ⟨b, hb, hbo⟩ := ho
    rcases List.mem_cons.1 hb with rfl | hb
    · have hdst : ∀ l k, l = Loc.kid p k → DstOk bs vs v cur t l → Act.adopt p ∈ b :: t ∨ cur = some (.ref p) ∨ 1 ≤ W (b :: t) p := by
        intro l k e h2
        subst e
        rcases h2.2 with h3 | h3
        · exact Or.inl (List.mem_cons_of_mem _ h3)
        · exact Or.inr (Or.inl h3)
      cases b with
      | swap l c => cases l with | var x => simp [Act.own] at hbo | kid q k => simp [Act.own] at hbo; exact hdst (.kid q k) k (by rw [hbo]) h1
      | copyTo s l => cases l with | var x => simp [Act.own] at hbo | kid q k => simp [Act.own] at hbo; exact hdst (.kid q k) k (by rw [hbo]) h1.2.1
      | asg s l => cases l with | var x => simp [Act.own] at hbo | kid q k => simp [Act.own] at hbo; exact hdst (.kid q k) k (by rw [hbo]) h1.2.1
      | adopt q => simp [Act.own] at hbo; subst hbo; exact Or.inl (by simp)
      | del q => simp [Act.own] at hbo; subst hbo; exact absurd (by simp) hd
      | _ => simp [Act.own] at hbo
    · rcases ih h.2.2 ⟨b, hb, hbo⟩ hd' with h2 | h2 | h2
      · exact Or.inl (List.mem_cons_of_mem _ h2)
      · cases a with
        | swap l c =>
          cases l with
          | var x =>
            simp only [next, Option.some.injEq] at h2
            subst h2
            refine Or.inr (Or.inr ?_)
            rw [W_cons]
            simp only [Act.w, cnt_self]
            omega
          | kid q k => exact Or.inr (Or.inl h2)
        | copyTo s l => cases l with | var x => simp [next] at h2 | kid q k => exact Or.inr (Or.inl h2)
        | asg s l => cases l with | var x => simp [next] at h2 | kid q k => exact Or.inr (Or.inl h2)
        | _ => exact Or.inr (Or.inl h2)
      · have hn2 := h.2.1 p
        cases a with
        | inc q =>
          by_cases hq : q = p
          · subst hq
            rcases h1 with h1 | h1
            · refine Or.inr (Or.inr ?_)
              rw [W_cons]
              simp only [Act.w, cnt_self]
              omega
            · exact absurd h1.1 (by decide)
          · refine Or.inr (Or.inr ?_)
            rw [W_cons]
            simp only [Act.w, cnt_ne (show Cell.ref q ≠ .ref p by simp [hq])]
            omega
        | adopt q =>
          by_cases hq : q = p
          · subst hq; exact Or.inl (by simp)
          · refine Or.inr (Or.inr ?_)
            rw [W_cons]
            simp only [Act.w, cnt_ne (show Cell.ref q ≠ .ref p by simp [hq])]
            omega
        | swap l c => exact Or.inr (Or.inr (by rw [W_cons]; have := cnt_nonneg c p; simp only [Act.w]; omega))
        | relA q => exact Or.inr (Or.inr (by rw [W_cons]; have := cnt_nonneg (.ref q) p; simp only [Act.w]; omega))
        | relD q => exact Or.inr (Or.inr (by rw [W_cons]; have := cnt_nonneg (.ref q) p; simp only [Act.w]; omega))
        | _ => exact Or.inr (Or.inr (by rw [W_cons]; simp only [Act.w]; omega))

structure JobOk (bs : List Body) (vs : List (Option Cell)) (j : Job) : Prop where
  good : Good bs vs j.v j.reads true (curOf vs j.v) j.todo
  nr : j.v ∉ j.reads
  own : ∀ p, Owns j.todo p → Alive bs p ∧ (∀ u, Holds vs u p → u = j.v) ∧ NotKid bs p
  feed : ∀ a ∈ j.todo, ∀ o ∈ a.feeds, ¬ Owns j.todo o

structure Sep (j k : Job) : Prop where
  vv : j.v ≠ k.v
  vr : j.v ∉ k.reads
  rv : k.v ∉ j.reads
  own : ∀ p, Owns j.todo p → ¬ Mentions k.todo p
  own' : ∀ p, Owns k.todo p → ¬ Mentions j.todo p

theorem Sep.symm {j k : Job} (h : Sep j k) : Sep k j := ⟨fun e => h.vv e.symm, h.rv, h.vr, h.own', h.own⟩

structure Inv (bs : List Body) (vs : List (Option Cell)) (js : List Job) : Prop where
  jobs : ∀ j ∈ js, JobOk bs vs j
  sep : js.Pairwise Sep
  none : ∀ o, bs[o]? = Option.none → Tot bs vs js o = 0
  count : ∀ (o : Nat) (b : Body), bs[o]? = some b → b.count = Tot bs vs js o
  dead : ∀ (o : Nat) (b : Body), bs[o]? = some b → b.live = false → Tot bs vs js o = 0
  lost : ∀ (o : Nat) (b : Body), bs[o]? = some b → b.live = true → Tot bs vs js o = 0 → ∃ j ∈ js, Act.del o ∈ j.todo ∨ Act.adopt o ∈ j.todo
  zero : ∀ j ∈ js, ∀ p, Act.del p ∈ j.todo ∨ Act.adopt p ∈ j.todo → Tot bs vs js p = 0
  fit : ∀ (o : Nat), Alive bs o → ∃ n, (valueAt bs n (.ref o)).isSome

theorem JW_cons (j : Job) (js : List Job) (o : Nat) : JW (j :: js) o = W j.todo o + JW js o := by simp [JW]

theorem JW_nonneg {bs vs js} (h : ∀ j ∈ js, JobOk bs vs j) (o : Nat) : 0 ≤ JW js o := sum_nonneg (fun j hj => (h j hj).good.nonneg o)

theorem JW_perm {js js' : List Job} (h : js.Perm js') (o : Nat) : JW js o = JW js' o := by
  induction h with
  | nil => rfl
  | cons _ _ ih => rw [JW_cons, JW_cons, ih]
  | swap _ _ _ => simp only [JW_cons]; omega
  | trans _ _ h1 h2 => rw [h1, h2]

theorem Tot_perm {bs vs} {js js' : List Job} (h : js.Perm js') (o : Nat) : Tot bs vs js o = Tot bs vs js' o := by
  unfold Tot; rw [JW_perm h]

theorem Inv.perm {bs vs} {js js' : List Job} (hp : js.Perm js') (h : Inv bs vs js) : Inv bs vs js' where
  jobs := fun j hj => h.jobs j (hp.mem_iff.2 hj)
  sep := (hp.pairwise_iff (fun {_ _} h => h.symm)).1 h.sep
  none := fun o ho => by rw [← Tot_perm hp]; exact h.none o ho
  count := fun o b ho => by rw [← Tot_perm hp]; exact h.count o b ho
  dead := fun o b ho hl => by rw [← Tot_perm hp]; exact h.dead o b ho hl
  lost := fun o b ho hl ht => by
    rw [← Tot_perm hp] at ht
    obtain ⟨j, h1, h2⟩ := h.lost o b ho hl ht
    exact ⟨j, hp.mem_iff.1 h1, h2⟩
  zero := fun j hj p hp' => by rw [← Tot_perm hp]; exact h.zero j (hp.mem_iff.2 hj) p hp'
  fit := h.fit

theorem Inv.alive {bs vs js} (h : Inv bs vs js) {o : Nat} (ho : 1 ≤ Tot bs vs js o) : Alive bs o := by
  cases hb : bs[o]? with
  | none => have := h.none o hb; omega
  | some b =>
    cases hl : b.live with
    | true => exact ⟨b, hb, hl⟩
    | false => have := h.dead o b hb hl; omega

theorem Inv.tot_ge {bs vs js} (h : Inv bs vs js) (o : Nat) : V vs o ≤ Tot bs vs js o ∧ K bs o ≤ Tot bs vs js o ∧ ∀ j ∈ js, W j.todo o ≤ Tot bs vs js o := by
  have h1 := V_nonneg vs o
  have h2 := K_nonneg bs o
  have h3 := JW_nonneg h.jobs o
  unfold Tot
  refine ⟨by omega, by omega, fun j hj => ?_⟩
  have : W j.todo o ≤ JW js o := sum_le (f := fun j : Job => W j.todo o) (fun j hj => (h.jobs j hj).good.nonneg o) hj
  omega

theorem Inv.alive_held {bs vs js} (h : Inv bs vs js) {u o : Nat} (hu : Holds vs u o) : Alive bs o :=
  h.alive (Int.le_trans (V_pos hu) (h.tot_ge o).1)

theorem Inv.alive_kid {bs vs js} (h : Inv bs vs js) {q o : Nat} {b : Body} (hq : bs[q]? = some b) (hk : Cell.ref o ∈ b.kids) : Alive bs o :=
  h.alive (Int.le_trans (K_pos hq hk) (h.tot_ge o).2.1)

end Strpp.NestPar
