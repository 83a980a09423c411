import Verif.Proof.NestParStep3
/-! What a call is going to make of its variable: C88. -/
set_option linter.unusedSectionVars false
set_option linter.unusedVariables false
set_option linter.unusedSimpArgs false
namespace Strpp.NestPar
open Spec

abbrev Mem := List Body × List (Option Cell)

/-- the Variant at a place -/
def peek (m : Mem) : Loc → Cell
  | .var v => (curOf m.2 v).getD (.num 0)
  | .kid p k => (((m.1[p]?).map (·.kids)).getD [])[k]?.getD (.num 0)

/-- the effect of an action on the values -/
def eff (m : Mem) : Act → Mem
  | .swap l c => (putB m.1 l c, putV m.2 l c)
  | .copyTo s l => (putB m.1 l (peek m s), putV m.2 l (peek m s))
  | .asg s l => (putB m.1 l (peek m s), putV m.2 l (peek m s))
  | _ => m

def Fin (m : Mem) (t : List Act) : Mem := t.foldl eff m

theorem Fin_cons (m : Mem) (a : Act) (t : List Act) : Fin m (a :: t) = Fin (eff m a) t := rfl
theorem Fin_append (m : Mem) (t u : List Act) : Fin m (t ++ u) = Fin (Fin m t) u := List.foldl_append ..

/-- when the call has done everything, its variable has value `x` -/
def Ends (m : Mem) (t : List Act) (v : Nat) (x : Val) : Prop := ∃ c, (Fin m t).2[v]? = some (some c) ∧ ∃ n, valueAt (Fin m t).1 n c = some x

/-- the memories are the same for a call that uses the variables `U` and not the bodies `P` -/
structure Like (U P : Nat → Prop) (m m' : Mem) : Prop where
  same : Same P m.1 m'.1
  av : Avoids P m.1
  vars : ∀ w, U w → m.2[w]? = m'.2[w]?
  held : ∀ w p, U w → P p → ¬ Holds m.2 w p

def Loc.vars : Loc → List Nat
  | .var v => [v]
  | .kid _ _ => []

/-- the variables in an action -/
def Act.vars : Act → List Nat
  | .swap l _ => l.vars
  | .copyTo s l | .asg s l => s.vars ++ l.vars
  | _ => []

theorem Like.put {U P : Nat → Prop} {m m' : Mem} (h : Like U P m m') {l : Loc} {c : Cell} (hl : ∀ p ∈ l.nodes, ¬ P p) (hv : ∀ w ∈ l.vars, U w)
    (hc : ∀ p, P p → c ≠ .ref p) : Like U P (putB m.1 l c, putV m.2 l c) (putB m'.1 l c, putV m'.2 l c) := by
  cases l with
  | var x =>
    refine ⟨h.same, h.av, ?_, ?_⟩
    · intro w hw
      have := h.vars w hw
      simp only [putV, List.getElem?_set]
      by_cases hxw : x = w
      · subst hxw
        rw [if_pos rfl, if_pos rfl]
        by_cases h1 : x < m.2.length
        · rw [if_pos h1]
          have h2 : x < m'.2.length := by
            rw [List.getElem?_eq_getElem h1] at this
            exact (List.getElem?_eq_some_iff.1 this.symm).1
          rw [if_pos h2]
        · rw [if_neg h1]
          have h2 : ¬ x < m'.2.length := by
            rw [List.getElem?_eq_none (by omega)] at this
            have := List.getElem?_eq_none_iff.1 this.symm
            omega
          rw [if_neg h2]
      · rw [if_neg hxw, if_neg hxw]; exact this
    · intro w p hw hp hh
      simp only [putV, Holds, List.getElem?_set] at hh
      by_cases hxw : x = w
      · rw [if_pos hxw] at hh
        split at hh
        · exact hc p hp (by cases hh; rfl)
        · cases hh
      · rw [if_neg hxw] at hh
        exact h.held w p hw hp hh
  | kid q k =>
    refine ⟨?_, ?_, h.vars, h.held⟩
    · intro o ho
      have := h.same o ho
      rw [putB_get, putB_get]
      by_cases hqo : q = o
      · rw [if_pos hqo, if_pos hqo]
        cases h1 : m.1[o]? with
        | none =>
          rw [h1] at this
          cases h2 : m'.1[o]? with
          | none => rfl
          | some b => rw [h2] at this; cases this
        | some b =>
          obtain ⟨b', h2, h3, h4, h5⟩ := h.same.get ho h1
          rw [h2]
          simp [Body.core, h3, h4, h5]
      · rw [if_neg hqo, if_neg hqo]; exact this
    · intro o b ho hb p hp hm
      rw [putB_get] at hb
      by_cases hqo : q = o
      · rw [if_pos hqo] at hb
        cases h1 : m.1[o]? with
        | none => rw [h1] at hb; cases hb
        | some b0 =>
          rw [h1] at hb
          cases hb
          rcases List.mem_or_eq_of_mem_set hm with h2 | h2
          · exact h.av o b0 ho h1 p hp h2
          · exact hc p hp h2.symm
      · rw [if_neg hqo] at hb
        exact h.av o b ho hb p hp hm

theorem Like.peek {U P : Nat → Prop} {m m' : Mem} (h : Like U P m m') {l : Loc} (hl : ∀ p ∈ l.nodes, ¬ P p) (hv : ∀ w ∈ l.vars, U w) :
    peek m l = peek m' l ∧ ∀ p, P p → NestPar.peek m l ≠ .ref p := by
  cases l with
  | var w =>
    have hw := hv w (by simp [Loc.vars])
    refine ⟨?_, ?_⟩
    · simp only [NestPar.peek, curOf, h.vars w hw]
    · intro p hp e
      refine h.held w p hw hp (curOf_holds ?_)
      cases h1 : curOf m.2 w with
      | none => simp [NestPar.peek, h1] at e
      | some c => simp [NestPar.peek, h1] at e; rw [e]
  | kid q k =>
    have hq := hl q (by simp [Loc.nodes])
    cases h1 : m.1[q]? with
    | none =>
      have := h.same q hq
      rw [h1] at this
      cases h2 : m'.1[q]? with
      | none => exact ⟨(by simp only [NestPar.peek, h1, h2]), fun p _ => by simp [NestPar.peek, h1]⟩
      | some b => rw [h2] at this; cases this
    | some b =>
      obtain ⟨b', h2, _, _, h5⟩ := h.same.get hq h1
      refine ⟨by simp only [NestPar.peek, h1, h2, Option.map_some, h5], fun p hp e => ?_⟩
      simp only [NestPar.peek, h1, Option.map_some, Option.getD_some] at e
      cases h6 : b.kids[k]? with
      | none => rw [h6] at e; cases e
      | some c =>
        rw [h6] at e
        simp at e
        subst e
        exact h.av q b hq h1 p hp (List.mem_of_getElem? h6)

theorem Like.eff {U P : Nat → Prop} {m m' : Mem} (h : Like U P m m') {a : Act} (hl : ∀ p ∈ a.nodes, ¬ P p) (hv : ∀ w ∈ a.vars, U w) :
    Like U P (eff m a) (eff m' a) := by
  have hcopy : ∀ s l : Loc, (∀ p ∈ s.nodes ++ l.nodes, ¬ P p) → (∀ w ∈ s.vars ++ l.vars, U w) →
      Like U P (putB m.1 l (NestPar.peek m s), putV m.2 l (NestPar.peek m s)) (putB m'.1 l (NestPar.peek m' s), putV m'.2 l (NestPar.peek m' s)) := by
    intro s l h1 h2
    obtain ⟨h3, h4⟩ := h.peek (l := s) (fun p hp => h1 p (List.mem_append_left _ hp)) (fun w hw => h2 w (List.mem_append_left _ hw))
    rw [← h3]
    exact h.put (fun p hp => h1 p (List.mem_append_right _ hp)) (fun w hw => h2 w (List.mem_append_right _ hw)) h4
  cases a with
  | swap l c =>
    refine h.put (fun p hp => hl p (by simp [Act.nodes, hp])) hv ?_
    rintro p hp rfl
    exact hl p (by simp [Act.nodes, Cell.nodes]) hp
  | copyTo s l => exact hcopy s l hl hv
  | asg s l => exact hcopy s l hl hv
  | _ => exact h

theorem Like.fin {U P : Nat → Prop} : ∀ {t : List Act} {m m' : Mem}, Like U P m m' → (∀ p, P p → ¬ Mentions t p) → (∀ a ∈ t, ∀ w ∈ a.vars, U w) →
    Like U P (Fin m t) (Fin m' t) := by
  intro t
  induction t with
  | nil => intro m m' h _ _; exact h
  | cons a t ih =>
    intro m m' h hm hv
    rw [Fin_cons, Fin_cons]
    refine ih (h.eff (fun p hp hP => hm p hP ⟨a, by simp, hp⟩) (hv a (by simp))) (fun p hp h => hm p hp h.cons) (fun b hb => hv b (by simp [hb]))

theorem Like.ends {U P : Nat → Prop} {t : List Act} {m m' : Mem} {v : Nat} {x : Val} (h : Like U P m m') (hm : ∀ p, P p → ¬ Mentions t p)
    (hv : ∀ a ∈ t, ∀ w ∈ a.vars, U w) (hU : U v) (he : Ends m t v x) : Ends m' t v x := by
  have hf := h.fin hm hv
  obtain ⟨c, h1, n, h2⟩ := he
  refine ⟨c, by rw [← hf.vars v hU]; exact h1, n, ?_⟩
  rw [← valueAt_frame hf.same hf.av n]
  · exact h2
  · rintro p hp rfl
    exact hf.held v p hU hp h1

theorem Good.vars {bs vs v rs} : ∀ {t : List Act} {hd : Bool} {cur : Option Cell}, Good bs vs v rs hd cur t → ∀ a ∈ t, ∀ w ∈ a.vars, w ∈ rs ∨ w = v := by
  intro t
  induction t with
  | nil => intro hd cur _ a ha; cases ha
  | cons a t ih =>
    intro hd cur h b hb w hw
    rcases List.mem_cons.1 hb with rfl | hb
    · have h1 := h.1
      have hdst : ∀ l : Loc, DstOk bs vs v cur t l → w ∈ l.vars → w ∈ rs ∨ w = v := by
        intro l h2 h3
        cases l with
        | var x => simp [Loc.vars] at h3; exact Or.inr (h3.trans h2.1)
        | kid p k => cases h3
      have hsrc : ∀ (l s : Loc), SrcOk bs vs v rs cur l s → w ∈ s.vars → w ∈ rs ∨ w = v := by
        intro l s h2 h3
        cases s with
        | var x => simp [Loc.vars] at h3; subst h3; exact h2.1.imp_right (fun h => h.1)
        | kid p k => cases h3
      cases b with
      | swap l c => exact hdst l h1 hw
      | copyTo s l =>
        rcases List.mem_append.1 hw with h2 | h2
        · exact hsrc l s h1.1 h2
        · exact hdst l h1.2.1 h2
      | asg s l =>
        rcases List.mem_append.1 hw with h2 | h2
        · exact hsrc l s h1.1 h2
        · exact hdst l h1.2.1 h2
      | _ => cases hw
    · exact ih h.2.2 b hb w hw

/-- what a step changes -/
theorem step_changes {bs vs v r a t rest} (h : Inv bs vs (⟨v, r, a :: t⟩ :: rest)) {bs' vs' more} (hs : step bs vs a = .ok (bs', vs', more)) :
    Same (fun p => a.own = some p) bs bs' ∧ ∀ u, u ≠ v → vs'[u]? = vs[u]? := by
  have hj := h.jobs _ (List.mem_cons_self ..)
  have hg := hj.good
  simp only at hg
  have hset : ∀ (o : Nat) (b : Body) (n : Int), body bs o = .ok b → Same Nowhere bs (bs.set o { b with count := n }) := by
    intro o b n hb
    refine setCount_same ?_ n
    unfold body at hb
    cases h1 : bs[o]? with
    | none => rw [h1] at hb; cases hb
    | some b' =>
      rw [h1] at hb
      simp only at hb
      split at hb
      · cases hb; rfl
      · cases hb
  have hweak : ∀ {bs'}, Same Nowhere bs bs' → Same (fun p => a.own = some p) bs bs' := fun h q _ => h q id
  cases a with
  | inc o =>
    simp only [step] at hs
    cases hb : body bs o with
    | error e => rw [hb] at hs; cases hs
    | ok b => rw [hb, res_bind_ok] at hs; cases hs; exact ⟨hweak (hset o b _ hb), fun _ _ => rfl⟩
  | adopt o =>
    simp only [step] at hs
    cases hb : body bs o with
    | error e => rw [hb] at hs; cases hs
    | ok b => rw [hb, res_bind_ok] at hs; cases hs; exact ⟨hweak (hset o b _ hb), fun _ _ => rfl⟩
  | relD o =>
    simp only [step] at hs
    cases hb : body bs o with
    | error e => rw [hb] at hs; cases hs
    | ok b => rw [hb, res_bind_ok] at hs; cases hs; exact ⟨hweak (hset o b _ hb), fun _ _ => rfl⟩
  | chk o =>
    simp only [step] at hs
    cases hb : body bs o with
    | error e => rw [hb] at hs; cases hs
    | ok b =>
      rw [hb, res_bind_ok] at hs
      cases ha : assert (decide (b.count ≠ 0)) with
      | error e => rw [ha] at hs; cases hs
      | ok u => rw [ha, res_bind_ok] at hs; cases hs; exact ⟨fun _ _ => rfl, fun _ _ => rfl⟩
  | relA o =>
    simp only [step] at hs
    cases hb : body bs o with
    | error e => rw [hb] at hs; cases hs
    | ok b =>
      rw [hb, res_bind_ok] at hs
      cases ha : assert (decide (b.count > 0)) with
      | error e => rw [ha] at hs; cases hs
      | ok u => rw [ha, res_bind_ok] at hs; cases hs; exact ⟨fun _ _ => rfl, fun _ _ => rfl⟩
  | copyTo s l =>
    simp only [step] at hs
    cases hb : get bs vs s with
    | error e => rw [hb] at hs; cases hs
    | ok c => rw [hb, res_bind_ok] at hs; cases hs; exact ⟨fun _ _ => rfl, fun _ _ => rfl⟩
  | asg s l =>
    simp only [step] at hs
    cases hb : get bs vs s with
    | error e => rw [hb] at hs; cases hs
    | ok c => rw [hb, res_bind_ok] at hs; cases hs; exact ⟨fun _ _ => rfl, fun _ _ => rfl⟩
  | del o =>
    simp only [step] at hs
    cases hb : body bs o with
    | error e => rw [hb] at hs; cases hs
    | ok b =>
      rw [hb, res_bind_ok] at hs; cases hs
      refine ⟨fun q hq => ?_, fun _ _ => rfl⟩
      rw [List.getElem?_set_ne (fun e => hq (by rw [← e]; rfl))]
  | swap l c =>
    simp only [step] at hs
    cases hb : get bs vs l with
    | error e => rw [hb] at hs; cases hs
    | ok old =>
      rw [hb, res_bind_ok] at hs; cases hs
      cases l with
      | var x =>
        refine ⟨fun _ _ => rfl, fun u hu => ?_⟩
        obtain ⟨rfl, _⟩ := hg.1
        exact List.getElem?_set_ne (fun e => hu e.symm)
      | kid p k =>
        refine ⟨fun q hq => ?_, fun _ _ => rfl⟩
        rw [putB_get, if_neg (fun e => hq (by rw [← e]; rfl))]

/-- the step is like none to the others -/
theorem step_like {bs vs v r a t rest} (h : Inv bs vs (⟨v, r, a :: t⟩ :: rest)) {bs' vs' more} (hs : step bs vs a = .ok (bs', vs', more)) {U : Nat → Prop}
    (hU : ¬ U v) : Like U (fun p => a.own = some p) (bs, vs) (bs', vs') := by
  obtain ⟨h1, h2⟩ := step_changes h hs
  have hj := h.jobs _ (List.mem_cons_self ..)
  refine ⟨h1, ?_, ?_, ?_⟩
  · intro q b _ hb p hp
    exact (hj.own p ⟨a, by simp, hp⟩).2.2 q b hb
  · intro w hw
    exact (h2 w (fun e => hU (e ▸ hw))).symm
  · intro w p hw hp hh
    have := (hj.own p ⟨a, by simp, hp⟩).2.1 w hh
    simp only at this
    exact hU (this ▸ hw)

theorem Fin_quiet {m : Mem} : ∀ {l : List Act}, (∀ a ∈ l, eff m a = m) → Fin m l = m := by
  intro l
  induction l with
  | nil => intro _; rfl
  | cons a l ih => intro h; rw [Fin_cons, h a (by simp)]; exact ih (fun b hb => h b (by simp [hb]))

theorem Fin_rel (m : Mem) (c : Cell) : Fin m (relOf c) = m := by cases c <;> rfl
theorem Fin_add (m : Mem) (c : Cell) : Fin m (addRef c) = m := by cases c <;> rfl
theorem Fin_rels (m : Mem) (cs : List Cell) : Fin m (cs.flatMap relOf) = m := by
  refine Fin_quiet (fun a ha => ?_)
  obtain ⟨c, _, h2⟩ := List.mem_flatMap.1 ha
  cases c with
  | num n => cases h2
  | ref o => simp [relOf] at h2; subst h2; rfl

theorem put_put (m : Mem) (l : Loc) (c c' : Cell) : eff (eff m (.swap l c)) (.swap l c') = eff m (.swap l c') := by
  cases l with
  | var x => simp [eff, putB, putV]
  | kid p k =>
    simp only [eff, putV, Prod.mk.injEq, and_true]
    apply List.ext_getElem?
    intro q
    simp only [putB_get]
    by_cases h : p = q
    · simp only [if_pos h, Option.map_map]
      cases m.1[q]? with
      | none => rfl
      | some b => simp
    · simp only [if_neg h]

theorem get_peek {bs vs} {s : Loc} {c : Cell} (h : get bs vs s = .ok c) : peek (bs, vs) s = c := by
  cases s with
  | var v =>
    simp only [get] at h
    split at h
    · rename_i c' hc
      cases h
      simp [peek, curOf, hc]
    · cases h
  | kid p k =>
    simp only [get, body] at h
    cases h1 : bs[p]? with
    | none => rw [h1] at h; cases h
    | some b =>
      rw [h1] at h
      simp only at h
      split at h
      · rw [res_bind_ok] at h
        cases h2 : b.kids[k]? with
        | none => rw [h2] at h; cases h
        | some c' => rw [h2] at h; cases h; simp [peek, h1, h2]
      · cases h

/-- a step of the call does not change what it is going to make -/
theorem step_ends {bs vs v r a t rest} (h : Inv bs vs (⟨v, r, a :: t⟩ :: rest)) {bs' vs' more} (hs : step bs vs a = .ok (bs', vs', more)) {x : Val}
    (he : Ends (bs, vs) (a :: t) v x) : Ends (bs', vs') (more ++ t) v x := by
  have hj := h.jobs _ (List.mem_cons_self ..)
  have hg := hj.good
  simp only at hg
  have hset : ∀ (o : Nat) (b : Body) (n : Int), body bs o = .ok b → Ends (bs, vs) t v x → Ends (bs.set o { b with count := n }, vs) t v x := by
    intro o b n hb he
    have hb' : bs[o]? = some b := by
      unfold body at hb
      cases h1 : bs[o]? with
      | none => rw [h1] at hb; cases hb
      | some b' =>
        rw [h1] at hb
        simp only at hb
        split at hb
        · cases hb; rfl
        · cases hb
    have hl : Like (fun _ => True) Nowhere (bs, vs) (bs.set o { b with count := n }, vs) := ⟨setCount_same hb' n, Avoids.nowhere bs, fun _ _ => rfl, fun _ _ _ h => absurd h id⟩
    exact hl.ends (fun _ h => absurd h id) (fun _ _ _ _ => trivial) trivial he
  have hfin : ∀ (m m' : Mem) (t t' : List Act), Fin m t = Fin m' t' → Ends m t v x → Ends m' t' v x := by
    intro m m' t t' e h
    unfold Ends at h ⊢
    rw [← e]; exact h
  cases a with
  | inc o =>
    simp only [step] at hs
    cases hb : body bs o with
    | error e => rw [hb] at hs; cases hs
    | ok b => rw [hb, res_bind_ok] at hs; cases hs; exact hset o b _ hb he
  | adopt o =>
    simp only [step] at hs
    cases hb : body bs o with
    | error e => rw [hb] at hs; cases hs
    | ok b => rw [hb, res_bind_ok] at hs; cases hs; exact hset o b _ hb he
  | relD o =>
    simp only [step] at hs
    cases hb : body bs o with
    | error e => rw [hb] at hs; cases hs
    | ok b =>
      rw [hb, res_bind_ok] at hs; cases hs
      refine hfin _ _ _ _ ?_ (hset o b (b.count - 1) hb he)
      rw [Fin_append]
      split <;> rfl
  | chk o =>
    simp only [step] at hs
    cases hb : body bs o with
    | error e => rw [hb] at hs; cases hs
    | ok b =>
      rw [hb, res_bind_ok] at hs
      cases ha : assert (decide (b.count ≠ 0)) with
      | error e => rw [ha] at hs; cases hs
      | ok u => rw [ha, res_bind_ok] at hs; cases hs; exact he
  | relA o =>
    simp only [step] at hs
    cases hb : body bs o with
    | error e => rw [hb] at hs; cases hs
    | ok b =>
      rw [hb, res_bind_ok] at hs
      cases ha : assert (decide (b.count > 0)) with
      | error e => rw [ha] at hs; cases hs
      | ok u => rw [ha, res_bind_ok] at hs; cases hs; exact he
  | copyTo s l =>
    simp only [step] at hs
    cases hb : get bs vs s with
    | error e => rw [hb] at hs; cases hs
    | ok c =>
      rw [hb, res_bind_ok] at hs; cases hs
      refine hfin _ _ _ _ ?_ he
      rw [Fin_append, Fin_append, Fin_add, Fin_cons, eff, get_peek hb]
      rfl
  | asg s l =>
    simp only [step] at hs
    cases hb : get bs vs s with
    | error e => rw [hb] at hs; cases hs
    | ok c =>
      rw [hb, res_bind_ok] at hs; cases hs
      refine hfin _ _ _ _ ?_ he
      simp only [Fin_append, Fin_add, Fin_rel]
      rw [Fin_cons, eff, get_peek hb]
      show _ = Fin (eff (eff (bs, vs) (.swap l (.num 0))) (.swap l c)) t
      rw [put_put]
      rfl
  | del o =>
    have hT0 := h.zero _ (List.mem_cons_self ..) o (Or.inl (List.mem_cons_self ..))
    have hmt : ¬ Mentions t o := hg.1
    simp only [step] at hs
    cases hb : body bs o with
    | error e => rw [hb] at hs; cases hs
    | ok b =>
      have hl : Like (fun _ => True) (· = o) (bs, vs) (bs', vs') := by
        obtain ⟨h1, _⟩ := step_changes h (by simp only [step]; exact hs)
        rw [hb, res_bind_ok] at hs; cases hs
        refine ⟨fun q hq => h1 q (fun e => hq (by simp only [Act.own, Option.some.injEq] at e; exact e.symm)), ?_, fun _ _ => rfl, ?_⟩
        · intro q b' _ hq p hp
          subst hp
          exact (hj.own _ ⟨.del p, List.mem_cons_self .., rfl⟩).2.2 q b' hq
        · intro w p _ hp hh
          subst hp
          have : 1 ≤ V vs p := V_pos hh
          have := (h.tot_ge p).1
          omega
      rw [hb, res_bind_ok] at hs; cases hs
      have he' : Ends (bs, vs) t v x := he
      refine hfin _ _ _ _ ?_ (hl.ends (fun p hp => by subst hp; exact hmt) (fun _ _ _ _ => trivial) trivial he')
      rw [Fin_append, Fin_rels]
  | swap l c =>
    simp only [step] at hs
    cases hb : get bs vs l with
    | error e => rw [hb] at hs; cases hs
    | ok old =>
      rw [hb, res_bind_ok] at hs; cases hs
      refine hfin _ _ _ _ ?_ he
      rw [Fin_append, Fin_rel]
      rfl

end Strpp.NestPar
