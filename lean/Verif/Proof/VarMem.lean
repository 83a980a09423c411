import Verif.Spec.VarMem
import Mathlib.Data.List.Forall2
/-! The invariant of the memory of Variants: the count of each body is the number of references to it. -/
set_option linter.unusedSimpArgs false
set_option linter.unusedVariables false
namespace Strpp.VM

/-! ### Lists -/

theorem count_flatMap_set {α : Type} (f : α → List Nat) (l : List α) (i : Nat) (x old : α) (h : l[i]? = some old) (b : Nat) :
    ((l.set i x).flatMap f).count b + (f old).count b = (l.flatMap f).count b + (f x).count b := by
  induction l generalizing i with
  | nil => simp at h
  | cons a l ih =>
    cases i with
    | zero => simp at h; subst h; simp [List.count_append]; omega
    | succ i => simp at h; have := ih i h; simp [List.count_append]; omega

theorem count_flatMap_pos {α : Type} (f : α → List Nat) (l : List α) (i : Nat) (x : α) (h : l[i]? = some x) (b : Nat)
    (hb : b ∈ f x) : 0 < (l.flatMap f).count b := by
  rw [List.count_pos_iff, List.mem_flatMap]
  exact ⟨x, List.mem_of_getElem? h, hb⟩

theorem mem_of_count_flatMap {α : Type} (f : α → List Nat) (l : List α) (b : Nat) (h : 0 < (l.flatMap f).count b) :
    ∃ (i : Nat) (x : α), l[i]? = some x ∧ b ∈ f x := by
  rw [List.count_pos_iff, List.mem_flatMap] at h
  obtain ⟨x, hx, hb⟩ := h
  obtain ⟨i, hi⟩ := List.mem_iff_getElem?.mp hx
  exact ⟨i, x, hi, hb⟩

/-! ### Views of the memory -/

def cont (s : State) (b : Nat) : Option Content :=
  match s.bodies[b]? with
  | some (some x) => some x.content
  | _ => none

def cnt (s : State) (b : Nat) : Nat :=
  match s.bodies[b]? with
  | some (some x) => x.count
  | _ => 0

def varRefs : Option Cell → List Nat
  | some c => c.refs
  | none => []

/-- references from variables -/
def vocc (s : State) (b : Nat) : Nat := (s.vars.flatMap varRefs).count b

/-- references from bodies -/
def bocc (s : State) (b : Nat) : Nat := (s.bodies.flatMap bodyRefs).count b

def txt (k : Nat → Option Content) (b : Nat) : List UCS4 :=
  match k b with
  | some (.text t) => t
  | _ => []

theorem textOf_eq (s : State) (b : Nat) : textOf s b = txt (cont s) b := by
  unfold textOf txt cont
  split
  · rename_i h; rw [h]
  · rename_i h
    split
    · rename_i t h2
      split at h2
      · rename_i x h3; obtain ⟨n, c⟩ := x; cases h2; exact absurd h3 (h _ _)
      · cases h2
    · rfl

/-- what a Variant refers to is of the right kind -/
def kindOk (k : Nat → Option Content) : Cell → Prop
  | .string b => ∃ t, k b = some (.text t)
  | .varArray a =>
    match a.body with
    | none => a.num = 0
    | some b => a.off = 0 ∧ ∃ mem num, k b = some (.cells mem num) ∧ a.num ≤ num
  | .strVarMap b => ∃ es, k b = some (.table es)
  | _ => True

def contOk (k : Nat → Option Content) : Content → Prop
  | .text _ => True
  | .cells mem num => num ≤ mem.length ∧ ∀ c ∈ mem, kindOk k c
  | .table es => (∀ e ∈ es, kindOk k (.string e.1) ∧ kindOk k e.2) ∧
      es.Pairwise (fun e e' => ltText (txt k e.1) (txt k e'.1) = true)

structure Inv (s : State) (T : List Nat) (L : Nat → Nat) : Prop where
  cnt : ∀ b, cnt s b = vocc s b + bocc s b + T.count b + L b
  pos : ∀ b x, cont s b = some x → 0 < VM.cnt s b
  vkind : ∀ (v : Nat) (c : Cell), s.vars[v]? = some (some c) → kindOk (cont s) c
  bkind : ∀ b x, cont s b = some x → contOk (cont s) x
  rank : ∃ r : Nat → Nat, ∀ b x, cont s b = some x → ∀ b' ∈ x.refs, r b' < r b
  lostText : ∀ b, 0 < L b → ∃ t, cont s b = some (.text t)

theorem live_of_cnt {s : State} {b : Nat} (h : 0 < cnt s b) : ∃ x, s.bodies[b]? = some (some x) ∧ cont s b = some x.content := by
  unfold cnt at h
  split at h
  · rename_i x hx; exact ⟨x, hx, by unfold cont; rw [hx]⟩
  · omega

theorem body_of_cont {s : State} {b : Nat} {c : Content} (h : cont s b = some c) :
    ∃ x, s.bodies[b]? = some (some x) ∧ x.content = c ∧ x.count = cnt s b := by
  unfold cont at h
  split at h
  · rename_i x hx; cases h; exact ⟨x, hx, rfl, by unfold cnt; rw [hx]⟩
  · cases h

theorem cont_of_body {s : State} {b : Nat} {x : Body} (h : s.bodies[b]? = some (some x)) : cont s b = some x.content := by
  unfold cont; rw [h]

theorem cnt_of_body {s : State} {b : Nat} {x : Body} (h : s.bodies[b]? = some (some x)) : cnt s b = x.count := by
  unfold cnt; rw [h]

theorem lt_of_cont {s : State} {b : Nat} {c : Content} (h : cont s b = some c) : b < s.bodies.length := by
  obtain ⟨x, hx, _⟩ := body_of_cont h
  exact (List.getElem?_eq_some_iff.mp hx).1

/-- everything referred to exists -/
theorem Inv.live {s : State} {T : List Nat} {L : Nat → Nat} (h : Inv s T L) {b : Nat} (hb : 0 < vocc s b + bocc s b + T.count b) :
    ∃ x, cont s b = some x := by
  have := h.cnt b
  obtain ⟨x, _, hx⟩ := live_of_cnt (s := s) (b := b) (by omega)
  exact ⟨_, hx⟩

theorem vocc_pos {s : State} {v : Nat} {c : Cell} (h : s.vars[v]? = some (some c)) {b : Nat} (hb : b ∈ c.refs) : 0 < vocc s b :=
  count_flatMap_pos varRefs _ v (some c) h b hb

theorem bocc_pos {s : State} {b' : Nat} {x : Content} (h : cont s b' = some x) {b : Nat} (hb : b ∈ x.refs) : 0 < bocc s b := by
  obtain ⟨y, hy, rfl, _⟩ := body_of_cont h
  exact count_flatMap_pos bodyRefs _ b' (some y) hy b hb

theorem Inv.live_var {s : State} {T : List Nat} {L : Nat → Nat} (h : Inv s T L) {v : Nat} {c : Cell}
    (hv : s.vars[v]? = some (some c)) {b : Nat} (hb : b ∈ c.refs) : ∃ x, cont s b = some x :=
  h.live (by have := vocc_pos hv hb; omega)

theorem Inv.live_body {s : State} {T : List Nat} {L : Nat → Nat} (h : Inv s T L) {b' : Nat} {x : Content}
    (hv : cont s b' = some x) {b : Nat} (hb : b ∈ x.refs) : ∃ x, cont s b = some x :=
  h.live (by have := bocc_pos hv hb; omega)

/-! ### Kinds -/

theorem kindOk_congr {k k' : Nat → Option Content} {c : Cell} (h : ∀ b ∈ c.refs, k' b = k b) (hk : kindOk k c) : kindOk k' c := by
  cases c with
  | string b => obtain ⟨t, ht⟩ := hk; exact ⟨t, by rw [h b (by simp [Cell.refs])]; exact ht⟩
  | strVarMap b => obtain ⟨t, ht⟩ := hk; exact ⟨t, by rw [h b (by simp [Cell.refs])]; exact ht⟩
  | varArray a =>
    obtain ⟨body, off, num⟩ := a
    cases body with
    | none => exact hk
    | some b =>
      obtain ⟨h0, mem, n, hm, hn⟩ := hk
      exact ⟨h0, mem, n, by rw [h b (by simp [Cell.refs])]; exact hm, hn⟩
  | _ => trivial

theorem txt_congr {k k' : Nat → Option Content} {b : Nat} (h : k' b = k b) : txt k' b = txt k b := by unfold txt; rw [h]

theorem contOk_congr {k k' : Nat → Option Content} {x : Content} (h : ∀ b ∈ x.refs, k' b = k b) (hk : contOk k x) : contOk k' x := by
  cases x with
  | text t => trivial
  | cells mem num =>
    refine ⟨hk.1, fun c hc => kindOk_congr (fun b hb => h b ?_) (hk.2 c hc)⟩
    exact List.mem_flatMap.mpr ⟨c, hc, hb⟩
  | table es =>
    have key : ∀ e ∈ es, k' e.1 = k e.1 := fun e he => h _ (List.mem_flatMap.mpr ⟨e, he, by simp⟩)
    refine ⟨fun e he => ⟨?_, kindOk_congr (fun b hb => h b ?_) (hk.1 e he).2⟩, ?_⟩
    · refine kindOk_congr (fun b hb => ?_) (hk.1 e he).1
      simp [Cell.refs] at hb; subst hb; exact key e he
    · exact List.mem_flatMap.mpr ⟨e, he, by simp [hb]⟩
    · refine hk.2.imp_of_mem ?_
      intro e e' he he' hlt
      rw [txt_congr (key e he), txt_congr (key e' he')]; exact hlt

/-- an array's body may get other elements, and more of them -/
theorem kindOk_mono {k k' : Nat → Option Content} {b : Nat} {mem mem' : List Cell} {num num' : Nat}
    (hne : ∀ i, i ≠ b → k' i = k i) (hb : k b = some (.cells mem num)) (hb' : k' b = some (.cells mem' num')) (hn : num ≤ num')
    {c : Cell} (hk : kindOk k c) : kindOk k' c := by
  cases c with
  | string i =>
    obtain ⟨t, ht⟩ := hk
    have : i ≠ b := by intro e; subst e; rw [hb] at ht; cases ht
    exact ⟨t, by rw [hne i this]; exact ht⟩
  | strVarMap i =>
    obtain ⟨t, ht⟩ := hk
    have : i ≠ b := by intro e; subst e; rw [hb] at ht; cases ht
    exact ⟨t, by rw [hne i this]; exact ht⟩
  | varArray a =>
    obtain ⟨body, off, n⟩ := a
    cases body with
    | none => exact hk
    | some i =>
      obtain ⟨h0, m, n', hm, hle⟩ := hk
      by_cases e : i = b
      · subst e; rw [hb] at hm; cases hm
        exact ⟨h0, mem', num', hb', by simp at hle ⊢; omega⟩
      · exact ⟨h0, m, n', by rw [hne i e]; exact hm, hle⟩
  | _ => trivial

theorem contOk_mono {k k' : Nat → Option Content} {b : Nat} {mem mem' : List Cell} {num num' : Nat}
    (hne : ∀ i, i ≠ b → k' i = k i) (hb : k b = some (.cells mem num)) (hb' : k' b = some (.cells mem' num')) (hn : num ≤ num')
    {x : Content} (hk : contOk k x) : contOk k' x := by
  cases x with
  | text t => trivial
  | cells m n => exact ⟨hk.1, fun c hc => kindOk_mono hne hb hb' hn (hk.2 c hc)⟩
  | table es =>
    have key : ∀ e ∈ es, k' e.1 = k e.1 := by
      intro e he
      obtain ⟨t, ht⟩ := (hk.1 e he).1
      exact hne _ (by intro e'; rw [e', hb] at ht; cases ht)
    refine ⟨fun e he => ⟨kindOk_mono hne hb hb' hn (hk.1 e he).1, kindOk_mono hne hb hb' hn (hk.1 e he).2⟩, ?_⟩
    refine hk.2.imp_of_mem ?_
    intro e e' he he' hlt
    rw [txt_congr (key e he), txt_congr (key e' he')]; exact hlt

/-! ### Elementary changes -/

theorem getBody_of {s : State} {b : Nat} {x : Body} (h : s.bodies[b]? = some (some x)) : getBody s b = .ok x := by
  unfold getBody; rw [h]

theorem cont_setBody {s : State} {b : Nat} {old : Body} (h : s.bodies[b]? = some (some old)) (y : Body) (i : Nat) :
    cont (setBody s b y) i = if i = b then some y.content else cont s i := by
  have hlt := (List.getElem?_eq_some_iff.mp h).1
  unfold cont setBody
  by_cases e : i = b
  · subst e; simp [List.getElem?_set, hlt]
  · simp [List.getElem?_set, Ne.symm e, e]

theorem cnt_setBody {s : State} {b : Nat} {old : Body} (h : s.bodies[b]? = some (some old)) (y : Body) (i : Nat) :
    cnt (setBody s b y) i = if i = b then y.count else cnt s i := by
  have hlt := (List.getElem?_eq_some_iff.mp h).1
  unfold cnt setBody
  by_cases e : i = b
  · subst e; simp [List.getElem?_set, hlt]
  · simp [List.getElem?_set, Ne.symm e, e]

theorem bocc_setBody {s : State} {b : Nat} {old : Body} (h : s.bodies[b]? = some (some old)) (y : Body) (i : Nat) :
    bocc (setBody s b y) i + old.content.refs.count i = bocc s i + y.content.refs.count i := by
  have := count_flatMap_set bodyRefs s.bodies b (some y) (some old) h i
  simpa [bocc, setBody, bodyRefs] using this

theorem length_setBody (s : State) (b : Nat) (y : Body) : (setBody s b y).bodies.length = s.bodies.length := by simp [setBody]

/-- the same except for the count of bodies -/
structure SameCont (s s' : State) : Prop where
  same : ∀ b, cont s' b = cont s b
  vars : s'.vars = s.vars
  length : s'.bodies.length = s.bodies.length

theorem addRef_inv {s : State} {T : List Nat} {L : Nat → Nat} (h : Inv s T L) {b : Nat} {c : Content} (hb : cont s b = some c) :
    ∃ s', addRef s b = .ok s' ∧ Inv s' (b :: T) L ∧ SameCont s s' := by
  obtain ⟨x, hx, rfl, hc⟩ := body_of_cont hb
  have hcont : ∀ i, cont (setBody s b { x with count := x.count + 1 }) i = cont s i := by
    intro i; rw [cont_setBody hx]; split
    · rename_i e; subst e; exact hb.symm
    · rfl
  have hfun : cont (setBody s b { x with count := x.count + 1 }) = cont s := funext hcont
  refine ⟨_, by unfold addRef; rw [getBody_of hx]; rfl, ⟨?_, ?_, ?_, ?_, ?_, ?_⟩, ⟨hcont, rfl, length_setBody _ _ _⟩⟩
  · intro i
    rw [cnt_setBody hx]
    have h1 := bocc_setBody hx { x with count := x.count + 1 } i
    have h2 := h.cnt i
    simp only [] at h1
    have h3 : vocc (setBody s b { x with count := x.count + 1 }) i = vocc s i := rfl
    rw [h3, List.count_cons]
    by_cases e : i = b
    · subst e; simp; omega
    · have : (b == i) = false := by simp [Ne.symm e]
      simp [e, this]; omega
  · intro i y hi
    rw [hcont] at hi
    have := h.pos i y hi
    rw [cnt_setBody hx]; split <;> simp <;> omega
  · intro v c hv; rw [hfun]; exact h.vkind v c hv
  · intro i y hi; rw [hfun] at hi ⊢; exact h.bkind i y hi
  · rw [hfun]; exact h.rank
  · rw [hfun]; exact h.lostText

theorem SameCont.refl (s : State) : SameCont s s := ⟨fun _ => rfl, rfl, rfl⟩
theorem SameCont.trans {s s' s'' : State} (h : SameCont s s') (h' : SameCont s' s'') : SameCont s s'' :=
  ⟨fun b => (h'.same b).trans (h.same b), h'.vars.trans h.vars, h'.length.trans h.length⟩

/-- Adding references does not depend on their order as to what counts are -/
theorem Inv.perm {s : State} {T T' : List Nat} {L : Nat → Nat} (h : Inv s T L) (hp : ∀ b, T'.count b = T.count b) : Inv s T' L :=
  ⟨fun b => by rw [hp]; exact h.cnt b, h.pos, h.vkind, h.bkind, h.rank, h.lostText⟩

theorem addRefs_inv {s : State} {T : List Nat} {L : Nat → Nat} (h : Inv s T L) (bs : List Nat)
    (hb : ∀ b ∈ bs, ∃ c, cont s b = some c) :
    ∃ s', addRefs s bs = .ok s' ∧ Inv s' (bs ++ T) L ∧ SameCont s s' := by
  induction bs generalizing s T with
  | nil => exact ⟨s, rfl, h, SameCont.refl s⟩
  | cons b bs ih =>
    obtain ⟨c, hc⟩ := hb b (by simp)
    obtain ⟨s1, h1, i1, c1⟩ := addRef_inv h hc
    obtain ⟨s2, h2, i2, c2⟩ := ih i1 (by
      intro b' hb'
      obtain ⟨c', hc'⟩ := hb b' (by simp [hb'])
      exact ⟨c', by rw [c1.same]; exact hc'⟩)
    refine ⟨s2, ?_, i2.perm ?_, c1.trans c2⟩
    · show (addRef s b >>= fun s => addRefs s bs) = _
      rw [h1]; exact h2
    · intro i; simp [List.count_append, List.count_cons]; omega

/-! ### Release -/

/-- bodies may have gone, nothing else has changed -/
structure Kept (s s' : State) : Prop where
  same : ∀ b x, cont s' b = some x → cont s b = some x
  vars : s'.vars = s.vars
  length : s'.bodies.length = s.bodies.length

theorem Kept.refl (s : State) : Kept s s := ⟨fun _ _ h => h, rfl, rfl⟩
theorem Kept.trans {s s' s'' : State} (h : Kept s s') (h' : Kept s' s'') : Kept s s'' :=
  ⟨fun b x hx => h.same b x (h'.same b x hx), h'.vars.trans h.vars, h'.length.trans h.length⟩
theorem SameCont.kept {s s' : State} (h : SameCont s s') : Kept s s' :=
  ⟨fun b x hx => by rw [← h.same]; exact hx, h.vars, h.length⟩

theorem Kept.eq {s s' : State} (h : Kept s s') {b : Nat} {x : Content} (hx : cont s' b = some x) : cont s' b = cont s b := by
  rw [hx, h.same b x hx]

/-- what remains referred to keeps its kind -/
theorem Kept.kind {s s' : State} (h : Kept s s') {c : Cell} (hl : ∀ b ∈ c.refs, ∃ x, cont s' b = some x) (hk : kindOk (cont s) c) :
    kindOk (cont s') c :=
  kindOk_congr (fun b hb => by obtain ⟨x, hx⟩ := hl b hb; exact h.eq hx) hk

theorem cont_free {s : State} {b : Nat} (i : Nat) :
    cont { s with bodies := s.bodies.set b none } i = if i = b then none else cont s i := by
  unfold cont
  by_cases e : i = b
  · subst e
    by_cases hlt : i < s.bodies.length
    · simp [List.getElem?_set, hlt]
    · simp [List.getElem?_set, hlt]
  · simp [List.getElem?_set, Ne.symm e, e]

theorem cnt_free {s : State} {b : Nat} (i : Nat) :
    cnt { s with bodies := s.bodies.set b none } i = if i = b then 0 else cnt s i := by
  unfold cnt
  by_cases e : i = b
  · subst e
    by_cases hlt : i < s.bodies.length
    · simp [List.getElem?_set, hlt]
    · simp [List.getElem?_set, hlt]
  · simp [List.getElem?_set, Ne.symm e, e]

theorem bocc_free {s : State} {b : Nat} {old : Body} (h : s.bodies[b]? = some (some old)) (i : Nat) :
    bocc { s with bodies := s.bodies.set b none } i + old.content.refs.count i = bocc s i := by
  have := count_flatMap_set bodyRefs s.bodies b none (some old) h i
  simpa [bocc, bodyRefs] using this

/-- one reference is given up -/
theorem dec_inv {s : State} {b : Nat} {T : List Nat} {L : Nat → Nat} (h : Inv s (b :: T) L) {x : Body}
    (hx : s.bodies[b]? = some (some x)) (hc : x.count - 1 ≠ 0) : Inv (setBody s b { x with count := x.count - 1 }) T L ∧
      SameCont s (setBody s b { x with count := x.count - 1 }) := by
  have hb := cont_of_body hx
  have hcont : ∀ i, cont (setBody s b { x with count := x.count - 1 }) i = cont s i := by
    intro i; rw [cont_setBody hx]; split
    · rename_i e; subst e; exact hb.symm
    · rfl
  have hfun : cont (setBody s b { x with count := x.count - 1 }) = cont s := funext hcont
  refine ⟨⟨?_, ?_, ?_, ?_, ?_, ?_⟩, ⟨hcont, rfl, length_setBody _ _ _⟩⟩
  · intro i
    rw [cnt_setBody hx]
    have h1 := bocc_setBody hx { x with count := x.count - 1 } i
    have h2 := h.cnt i
    simp only [] at h1
    have h3 : vocc (setBody s b { x with count := x.count - 1 }) i = vocc s i := rfl
    rw [h3]
    rw [List.count_cons] at h2
    by_cases e : i = b
    · subst e; rw [cnt_of_body hx] at h2; simp at h2 ⊢; omega
    · have : (b == i) = false := by simp [Ne.symm e]
      simp [e, this] at h2 ⊢; omega
  · intro i y hi
    rw [hcont] at hi
    have := h.pos i y hi
    rw [cnt_setBody hx]; split <;> simp <;> omega
  · intro v c hv; rw [hfun]; exact h.vkind v c hv
  · intro i y hi; rw [hfun] at hi ⊢; exact h.bkind i y hi
  · rw [hfun]; exact h.rank
  · rw [hfun]; exact h.lostText

/-- the last reference is given up -/
theorem free_inv {s : State} {b : Nat} {T : List Nat} {L : Nat → Nat} (h : Inv s (b :: T) L) {x : Body}
    (hx : s.bodies[b]? = some (some x)) (hc : x.count - 1 = 0) :
    Inv { s with bodies := s.bodies.set b none } (x.content.refs ++ T) L ∧ Kept s { s with bodies := s.bodies.set b none } := by
  have hb := cont_of_body hx
  have hcount := h.cnt b
  rw [cnt_of_body hx] at hcount
  have hT : (b :: T).count b = T.count b + 1 := by simp
  rw [hT] at hcount
  have hkept : Kept s { s with bodies := s.bodies.set b none } := by
    refine ⟨fun i y hi => ?_, rfl, by simp⟩
    rw [cont_free] at hi
    split at hi
    · cases hi
    · exact hi
  have hcnt : ∀ i, cnt { s with bodies := s.bodies.set b none } i =
      vocc { s with bodies := s.bodies.set b none } i + bocc { s with bodies := s.bodies.set b none } i +
        (x.content.refs ++ T).count i + L i := by
    intro i
    rw [cnt_free]
    have h1 := bocc_free hx i
    have h2 := h.cnt i
    have h3 : vocc { s with bodies := s.bodies.set b none } i = vocc s i := rfl
    rw [h3, List.count_append]
    rw [List.count_cons] at h2
    by_cases e : i = b
    · subst e; simp; simp at h2; rw [cnt_of_body hx] at h2; omega
    · have : (b == i) = false := by simp [Ne.symm e]
      simp [e, this] at h2 ⊢; omega
  have hlive : ∀ i, 0 < vocc { s with bodies := s.bodies.set b none } i + bocc { s with bodies := s.bodies.set b none } i →
      ∃ y, cont { s with bodies := s.bodies.set b none } i = some y := by
    intro i hi
    have := hcnt i
    obtain ⟨y, _, hy⟩ := live_of_cnt (s := { s with bodies := s.bodies.set b none }) (b := i) (by omega)
    exact ⟨_, hy⟩
  refine ⟨⟨hcnt, ?_, ?_, ?_, ?_, ?_⟩, hkept⟩
  · intro i y hi
    have hne : i ≠ b := by intro e; subst e; rw [cont_free] at hi; simp at hi
    have := h.pos i y (hkept.same i y hi)
    rw [cnt_free]; simp [hne]; exact this
  · intro v c hv
    refine hkept.kind (fun i hi => hlive i ?_) (h.vkind v c hv)
    have := vocc_pos (s := { s with bodies := s.bodies.set b none }) hv hi
    omega
  · intro i y hi
    refine contOk_congr (fun j hj => ?_) (h.bkind i y (hkept.same i y hi))
    have := bocc_pos hi hj
    obtain ⟨z, hz⟩ := hlive j (by omega)
    exact hkept.eq hz
  · obtain ⟨r, hr⟩ := h.rank
    exact ⟨r, fun i y hi => hr i y (hkept.same i y hi)⟩
  · intro i hi
    have hne : i ≠ b := by intro e; subst e; omega
    obtain ⟨t, ht⟩ := h.lostText i hi
    exact ⟨t, by rw [cont_free]; simp [hne]; exact ht⟩

theorem length_flatMap_set {α : Type} (f : α → List Nat) (l : List α) (i : Nat) (x old : α) (h : l[i]? = some old) :
    ((l.set i x).flatMap f).length + (f old).length = (l.flatMap f).length + (f x).length := by
  induction l generalizing i with
  | nil => simp at h
  | cons a l ih =>
    cases i with
    | zero => simp at h; subst h; simp; omega
    | succ i => simp at h; have := ih i h; simp at this ⊢; omega

theorem relLoop_inv (n : Nat) : ∀ {s : State} {T : List Nat} {L : Nat → Nat} (bs : List Nat), Inv s (bs ++ T) L →
    (s.bodies.flatMap bodyRefs).length + bs.length ≤ n →
    ∃ s', relLoop n s bs = .ok s' ∧ Inv s' T L ∧ Kept s s' := by
  induction n with
  | zero =>
    intro s T L bs h hn
    have : bs = [] := List.length_eq_zero_iff.mp (by omega)
    subst this
    exact ⟨s, rfl, h, Kept.refl s⟩
  | succ n ih =>
    intro s T L bs h hn
    cases bs with
    | nil => exact ⟨s, rfl, h, Kept.refl s⟩
    | cons b bs =>
      have hp : 0 < cnt s b := by have := h.cnt b; simp at this; omega
      obtain ⟨x, hx, hcx⟩ := live_of_cnt hp
      rw [cnt_of_body hx] at hp
      have hstep : relLoop (n + 1) s (b :: bs) =
          if x.count - 1 = 0 then relLoop n { s with bodies := s.bodies.set b none } (x.content.refs ++ bs)
          else relLoop n (setBody s b { x with count := x.count - 1 }) bs := by
        show (getBody s b >>= fun x => _) = _
        rw [getBody_of hx]
        show (assert (decide (x.count > 0)) >>= fun _ => _) = _
        rw [decide_eq_true hp]
        rfl
      rw [hstep]
      by_cases hc : x.count - 1 = 0
      · rw [if_pos hc]
        obtain ⟨i1, k1⟩ := free_inv h hx hc
        have hl := length_flatMap_set bodyRefs s.bodies b none (some x) hx
        obtain ⟨s', h1, i2, k2⟩ := ih (T := T) (L := L) (x.content.refs ++ bs) (by rw [List.append_assoc]; exact i1) (by
          simp [bodyRefs] at hl hn ⊢; omega)
        exact ⟨s', h1, i2, k1.trans k2⟩
      · rw [if_neg hc]
        obtain ⟨i1, k1⟩ := dec_inv h hx hc
        have hl := length_flatMap_set bodyRefs s.bodies b (some { x with count := x.count - 1 }) (some x) hx
        obtain ⟨s', h1, i2, k2⟩ := ih (T := T) (L := L) bs i1 (by
          simp [bodyRefs, setBody] at hl hn ⊢; omega)
        exact ⟨s', h1, i2, k1.kept.trans k2⟩

theorem release_inv {s : State} {T : List Nat} {L : Nat → Nat} (bs : List Nat) (h : Inv s (bs ++ T) L) :
    ∃ s', release s bs = .ok s' ∧ Inv s' T L ∧ Kept s s' :=
  relLoop_inv _ bs h (Nat.le_refl _)

end Strpp.VM
