import Verif.Proof.NestParCall3
/-! C88: calls end, and what is left when they have ended. -/
set_option linter.unusedSectionVars false
set_option linter.unusedVariables false
set_option linter.unusedSimpArgs false
namespace Strpp.NestPar
open Spec

def Cell.wt : Cell → Int
  | .num _ => 0
  | .ref _ => 3

def Act.wt : Act → Int
  | .inc _ | .adopt _ | .chk _ | .del _ => 1
  | .relD _ => 2
  | .relA _ => 3
  | .swap _ _ => 4
  | .copyTo _ _ => 7
  | .asg _ _ => 16

def optWt : Option Cell → Int
  | some c => c.wt
  | none => 0

def actsWt (t : List Act) : Int := (t.map Act.wt).sum
def jobWt (j : Job) : Int := 1 + actsWt j.todo
def kidsWt (b : Body) : Int := (b.kids.map Cell.wt).sum
def varsWt (vs : List (Option Cell)) : Int := (vs.map optWt).sum
def bodiesWt (bs : List Body) : Int := (bs.map kidsWt).sum
def jobsWt (js : List Job) : Int := (js.map jobWt).sum
/-- a bound on the number of steps that are left -/
def total (s : State) : Int := bodiesWt s.bodies + varsWt s.vars + jobsWt s.jobs

theorem Cell.wt_nonneg (c : Cell) : 0 ≤ c.wt := by cases c <;> simp [Cell.wt]
theorem Act.wt_nonneg (a : Act) : 0 ≤ a.wt := by cases a <;> simp [Act.wt]
theorem optWt_nonneg (c : Option Cell) : 0 ≤ optWt c := by cases c <;> simp [optWt, Cell.wt_nonneg]
theorem actsWt_nonneg (t : List Act) : 0 ≤ actsWt t := sum_nonneg (fun a _ => a.wt_nonneg)
theorem jobWt_nonneg (j : Job) : 0 ≤ jobWt j := by have := actsWt_nonneg j.todo; unfold jobWt; omega
theorem total_nonneg (s : State) : 0 ≤ total s := by
  have h1 : 0 ≤ bodiesWt s.bodies := sum_nonneg (fun b _ => sum_nonneg (fun c _ => c.wt_nonneg))
  have h2 : 0 ≤ varsWt s.vars := sum_nonneg (fun c _ => optWt_nonneg c)
  have h3 : 0 ≤ jobsWt s.jobs := sum_nonneg (fun j _ => jobWt_nonneg j)
  unfold total; omega

theorem actsWt_append (t u : List Act) : actsWt (t ++ u) = actsWt t + actsWt u := by simp [actsWt]
theorem actsWt_cons (a : Act) (t : List Act) : actsWt (a :: t) = a.wt + actsWt t := by simp [actsWt]
theorem actsWt_nil : actsWt [] = 0 := rfl
theorem actsWt_relOf (c : Cell) : actsWt (relOf c) = c.wt := by cases c <;> simp [relOf, actsWt, Act.wt, Cell.wt]
theorem actsWt_addRef (c : Cell) : actsWt (addRef c) ≤ 2 := by cases c <;> simp [addRef, actsWt, Act.wt]
theorem Cell.wt_le (c : Cell) : c.wt ≤ 3 := by cases c <;> simp [Cell.wt]
theorem actsWt_rels (cs : List Cell) : actsWt (cs.flatMap relOf) = (cs.map Cell.wt).sum := by
  induction cs with
  | nil => rfl
  | cons c cs ih => rw [List.flatMap_cons, actsWt_append, ih, actsWt_relOf]; simp

theorem sum_eraseIdx {α : Type} {f : α → Int} : ∀ {l : List α} {k : Nat} {x : α}, l[k]? = some x → ((l.eraseIdx k).map f).sum = (l.map f).sum - f x := by
  intro l
  induction l with
  | nil => intro k x h; simp at h
  | cons a l ih =>
    intro k x h
    cases k with
    | zero => simp at h; subst h; simp; omega
    | succ k =>
      simp at h
      have := ih h
      simp; omega

theorem body_inv {bs : List Body} {o : Nat} {b : Body} (h : NestPar.body bs o = .ok b) : bs[o]? = some b ∧ b.live = true := by
  unfold NestPar.body at h
  split at h
  · rename_i b' hb
    split at h
    · rename_i hl; cases h; exact ⟨hb, hl⟩
    · cases h
  · cases h

theorem get_var_inv {bs : List Body} {vs : List (Option Cell)} {v : Nat} {c : Cell} (h : get bs vs (.var v) = .ok c) : vs[v]? = some (some c) := by
  simp only [get] at h
  split at h
  · rename_i c' hc; cases h; exact hc
  · cases h

theorem get_kid_inv {bs : List Body} {vs : List (Option Cell)} {p k : Nat} {c : Cell} (h : get bs vs (.kid p k) = .ok c) :
    ∃ b, bs[p]? = some b ∧ b.live = true ∧ b.kids[k]? = some c := by
  simp only [get] at h
  cases hb : NestPar.body bs p with
  | error e => rw [hb] at h; cases h
  | ok b =>
    rw [hb, res_bind_ok] at h
    split at h
    · rename_i c' hc; cases h
      exact ⟨b, (body_inv hb).1, (body_inv hb).2, hc⟩
    · cases h

theorem putB_set {bs : List Body} {p k : Nat} {b : Body} {c : Cell} (hp : bs[p]? = some b) : putB bs (.kid p k) c = bs.set p { b with kids := b.kids.set k c } := by
  apply List.ext_getElem?
  intro q
  rw [putB_get]
  by_cases e : p = q
  · subst e
    rw [if_pos rfl, List.getElem?_set_self (List.getElem?_eq_some_iff.1 hp).1, hp]; rfl
  · rw [if_neg e, List.getElem?_set_ne e]

/-- what a step that does not fault does -/
inductive Did (bs : List Body) (vs : List (Option Cell)) : Act → List Body → List (Option Cell) → List Act → Prop
  | count {a o b n more} (h : bs[o]? = some b) (hw : actsWt more + 1 ≤ a.wt) : Did bs vs a (bs.set o { b with count := n }) vs more
  | none {a more} (hw : actsWt more + 1 ≤ a.wt) : Did bs vs a bs vs more
  | var {v c old} (h : vs[v]? = some (some old)) : Did bs vs (.swap (.var v) c) bs (vs.set v (some c)) (relOf old)
  | kid {p k c old b} (h : bs[p]? = some b) (hl : b.live = true) (hk : b.kids[k]? = some old) :
      Did bs vs (.swap (.kid p k) c) (bs.set p { b with kids := b.kids.set k c }) vs (relOf old)
  | del {o b} (h : bs[o]? = some b) : Did bs vs (.del o) (bs.set o { b with live := false, kids := [] }) vs (b.kids.flatMap relOf)

theorem step_did {bs vs a bs' vs' more} (h : step bs vs a = .ok (bs', vs', more)) : Did bs vs a bs' vs' more := by
  have hb : ∀ o : Nat, ∀ f : Body → Res (List Body × List (Option Cell) × List Act), (NestPar.body bs o >>= f) = .ok (bs', vs', more) → ∃ b, bs[o]? = some b ∧ f b = .ok (bs', vs', more) := by
    intro o f h
    cases hb : NestPar.body bs o with
    | error e => rw [hb] at h; cases h
    | ok b => rw [hb, res_bind_ok] at h; exact ⟨b, (body_inv hb).1, h⟩
  have ha : ∀ (p : Bool) (x : Res (List Body × List (Option Cell) × List Act)), (assert p >>= fun _ => x) = .ok (bs', vs', more) → x = .ok (bs', vs', more) := by
    intro p x h
    cases p with
    | false => cases h
    | true => rw [assert_true, res_bind_ok] at h; exact h
  have hg : ∀ (l : Loc) (f : Cell → Res (List Body × List (Option Cell) × List Act)), (get bs vs l >>= f) = .ok (bs', vs', more) → ∃ c, get bs vs l = .ok c ∧ f c = .ok (bs', vs', more) := by
    intro l f h
    cases hb : get bs vs l with
    | error e => rw [hb] at h; cases h
    | ok b => rw [hb, res_bind_ok] at h; exact ⟨b, rfl, h⟩
  cases a with
  | inc o => obtain ⟨b, h1, h2⟩ := hb o _ h; cases h2; exact .count h1 (by simp [actsWt, Act.wt])
  | adopt o => obtain ⟨b, h1, h2⟩ := hb o _ h; cases h2; exact .count h1 (by simp [actsWt, Act.wt])
  | chk o => obtain ⟨b, h1, h2⟩ := hb o _ h; cases ha _ _ h2; exact .none (by simp [actsWt, Act.wt])
  | relA o => obtain ⟨b, h1, h2⟩ := hb o _ h; cases ha _ _ h2; exact .none (by simp [actsWt, Act.wt])
  | relD o =>
    obtain ⟨b, h1, h2⟩ := hb o _ h; cases h2
    refine .count h1 ?_
    split <;> simp [actsWt, Act.wt]
  | del o => obtain ⟨b, h1, h2⟩ := hb o _ h; cases h2; exact .del h1
  | copyTo s l =>
    obtain ⟨c, h1, h2⟩ := hg s _ h; cases h2
    refine .none ?_
    have := actsWt_addRef c
    rw [actsWt_append]; simp only [actsWt_cons, actsWt_nil, Act.wt]; omega
  | asg s l =>
    obtain ⟨c, h1, h2⟩ := hg s _ h; cases h2
    refine .none ?_
    have := actsWt_addRef c
    have := c.wt_le
    simp only [actsWt_append, actsWt_cons, actsWt_nil, Act.wt, actsWt_relOf]; omega
  | swap l c =>
    obtain ⟨old, h1, h2⟩ := hg l _ h; cases h2
    cases l with
    | var v => exact .var (get_var_inv h1)
    | kid p k =>
      obtain ⟨b, h3, h4, h5⟩ := get_kid_inv h1
      rw [putB_set h3]
      exact .kid h3 h4 h5

theorem step_wt {bs vs a bs' vs' more} (hs : step bs vs a = .ok (bs', vs', more)) :
    bodiesWt bs' + varsWt vs' + actsWt more + 1 ≤ bodiesWt bs + varsWt vs + a.wt := by
  cases step_did hs with
  | @count _ o b n _ h hw =>
    have : bodiesWt (bs.set o { b with count := n }) = bodiesWt bs - kidsWt b + kidsWt { b with count := n } := sum_set h
    have h2 : kidsWt { b with count := n } = kidsWt b := rfl
    omega
  | none hw => omega
  | @var v c old h =>
    have : varsWt (vs.set v (some c)) = varsWt vs - optWt (some old) + optWt (some c) := sum_set h
    simp only [optWt] at this
    have := c.wt_le
    rw [actsWt_relOf]; simp only [Act.wt]; omega
  | @kid p k c old b h hl hk =>
    have : bodiesWt (bs.set p { b with kids := b.kids.set k c }) = bodiesWt bs - kidsWt b + kidsWt { b with kids := b.kids.set k c } := sum_set h
    have h2 : kidsWt { b with kids := b.kids.set k c } = kidsWt b - old.wt + c.wt := sum_set hk
    have := c.wt_le
    rw [actsWt_relOf]; simp only [Act.wt]; omega
  | @del o b h =>
    have : bodiesWt (bs.set o { b with live := false, kids := [] }) = bodiesWt bs - kidsWt b + kidsWt { b with live := false, kids := [] } := sum_set h
    have h2 : kidsWt { b with live := false, kids := [] } = 0 := rfl
    rw [actsWt_rels]; simp only [Act.wt]
    have h3 : kidsWt b = (b.kids.map Cell.wt).sum := rfl
    omega

/-- what a step of a call does -/
theorem tick_inv {s s' : State} {i : Nat} (h : tick s i = .ok s') : s.jobs[i]? = none ∧ s' = s ∨
    (∃ v r, s.jobs[i]? = some ⟨v, r, []⟩ ∧ s' = { s with jobs := s.jobs.eraseIdx i }) ∨
    (∃ v r a t bs vs more, s.jobs[i]? = some ⟨v, r, a :: t⟩ ∧ step s.bodies s.vars a = .ok (bs, vs, more) ∧ s' = ⟨bs, vs, s.jobs.set i ⟨v, r, more ++ t⟩⟩) := by
  unfold tick at h
  split at h
  · rename_i hj; cases h; exact Or.inl ⟨hj, rfl⟩
  · rename_i v r hj; cases h; exact Or.inr (Or.inl ⟨v, r, hj, rfl⟩)
  · rename_i v r a t hj
    cases hs : step s.bodies s.vars a with
    | error e => rw [hs] at h; cases h
    | ok x =>
      obtain ⟨bs, vs, more⟩ := x
      rw [hs, res_bind_ok] at h
      cases h
      exact Or.inr (Or.inr ⟨v, r, a, t, bs, vs, more, hj, hs, rfl⟩)

theorem tick_total {s s' : State} {i : Nat} (hi : i < s.jobs.length) (h : tick s i = .ok s') : total s' + 1 ≤ total s := by
  rcases tick_inv h with ⟨h1, _⟩ | ⟨v, r, h1, rfl⟩ | ⟨v, r, a, t, bs, vs, more, h1, h2, rfl⟩
  · rw [List.getElem?_eq_getElem hi] at h1; cases h1
  · have : jobsWt (s.jobs.eraseIdx i) = jobsWt s.jobs - jobWt ⟨v, r, []⟩ := sum_eraseIdx h1
    have h3 : jobWt ⟨v, r, []⟩ = 1 := rfl
    simp only [total]; omega
  · have : jobsWt (s.jobs.set i ⟨v, r, more ++ t⟩) = jobsWt s.jobs - jobWt ⟨v, r, a :: t⟩ + jobWt ⟨v, r, more ++ t⟩ := sum_set h1
    have h3 := step_wt h2
    simp only [jobWt, actsWt_append, actsWt_cons] at this
    simp only [total]; omega

/-! ### What else holds of every history -/

/-- nothing is in a deleted body -/
def Empty (bs : List Body) : Prop := ∀ (o : Nat) (b : Body), bs[o]? = some b → b.live = false → b.kids = []

theorem Empty.set {bs : List Body} (h : Empty bs) {o : Nat} {b' : Body} (hb : b'.live = false → b'.kids = []) : Empty (bs.set o b') := by
  intro q b hq hl
  by_cases e : o = q
  · subst e
    have hlt := (List.getElem?_eq_some_iff.1 hq).1
    rw [List.length_set] at hlt
    rw [List.getElem?_set_self hlt] at hq
    cases hq; exact hb hl
  · rw [List.getElem?_set_ne e] at hq; exact h q b hq hl

theorem Empty.append {bs : List Body} (h : Empty bs) {b' : Body} (hb : b'.live = true) : Empty (bs ++ [b']) := by
  intro q b hq hl
  by_cases e : q < bs.length
  · rw [List.getElem?_append_left e] at hq; exact h q b hq hl
  · rw [List.getElem?_append_right (by omega)] at hq
    have := List.mem_of_getElem? hq
    simp at this; subst this; rw [hb] at hl; cases hl

theorem step_empty {bs vs a bs' vs' more} (hs : step bs vs a = .ok (bs', vs', more)) (he : Empty bs) : Empty bs' := by
  cases step_did hs with
  | @count _ o b n _ h hw => exact he.set (fun hl => he o b h hl)
  | none hw => exact he
  | var h => exact he
  | @kid p k c old b h hl hk => exact he.set (fun hl' => by simp [hl] at hl')
  | @del o b h => exact he.set (fun _ => rfl)

theorem step_gone {bs vs a bs' vs' more} (hs : step bs vs a = .ok (bs', vs', more)) {u : Nat} (he : vs[u]? = some none) : vs'[u]? = some none := by
  cases step_did hs with
  | count h hw => exact he
  | none hw => exact he
  | @var v c old h =>
    by_cases e : v = u
    · subst e; rw [he] at h; cases h
    · rw [List.getElem?_set_ne e]; exact he
  | kid h hl hk => exact he
  | del h => exact he

theorem start_empty {s s' : State} {c : Call} (h : start s c = .ok s') (he : Empty s.bodies) : Empty s'.bodies := by
  cases c with
  | number n => cases h; exact he
  | str t => cases h; exact he.append rfl
  | array ws => cases h; exact he.append rfl
  | copy w => cases h; exact he
  | assign v w => cases h; exact he
  | destroy v =>
    simp only [start] at h
    split at h
    · cases h; exact he
    · cases h
  | elem w i =>
    simp only [start] at h
    cases hp : ptrOf s w with
    | error e => rw [hp] at h; cases h
    | ok p => rw [hp, res_bind_ok] at h; cases h; exact he
  | setElem v i w =>
    simp only [start] at h
    cases hp : ptrOf s v with
    | error e => rw [hp] at h; cases h
    | ok p =>
      rw [hp, res_bind_ok] at h
      cases hb : body s.bodies p with
      | error e => rw [hb] at h; cases h
      | ok b =>
        rw [hb, res_bind_ok] at h
        cases hi : decide (i < b.kids.length) with
        | false => rw [hi] at h; cases h
        | true =>
          rw [hi, assert_true, res_bind_ok] at h
          split at h
          · cases h; exact he
          · cases h; exact he.append rfl
  | push v w =>
    simp only [start] at h
    cases hp : ptrOf s v with
    | error e => rw [hp] at h; cases h
    | ok p =>
      rw [hp, res_bind_ok] at h
      cases hb : body s.bodies p with
      | error e => rw [hb] at h; cases h
      | ok b =>
        rw [hb, res_bind_ok] at h
        split at h
        · cases h; exact he.set (fun hl => by simp [(body_inv hb).2] at hl)
        · cases h; exact he.append rfl
  | edit v t =>
    simp only [start] at h
    cases hp : ptrOf s v with
    | error e => rw [hp] at h; cases h
    | ok p =>
      rw [hp, res_bind_ok] at h
      cases hb : body s.bodies p with
      | error e => rw [hb] at h; cases h
      | ok b =>
        rw [hb, res_bind_ok] at h
        split at h
        · cases h; exact he.set (fun hl => by simp [(body_inv hb).2] at hl)
        · cases h; exact he.append rfl

theorem history_empty {s : State} {A : View} (h : History s A) : Empty s.bodies := by
  induction h with
  | start => intro o b h; simp [init] at h
  | call c h1 h2 h3 ih => exact start_empty h3 ih
  | tick i h1 h2 ih =>
    rcases tick_inv h2 with ⟨_, rfl⟩ | ⟨v, r, _, rfl⟩ | ⟨v, r, a, t, bs, vs, more, _, h4, rfl⟩
    · exact ih
    · exact ih
    · exact step_empty h4 ih

/-- the variables that are gone -/
def Gone (s : State) (A : View) : Prop := ∀ (u : Nat), A[u]? = some none → s.vars[u]? = some none

theorem gone_append {s : State} {A : View} (hl : A.length = s.vars.length) (h : Gone s A) {x : Val} {c : Cell} {u : Nat} (hu : (A ++ [some x])[u]? = some none) :
    (s.vars ++ [some c])[u]? = some none := by
  by_cases e : u < A.length
  · rw [List.getElem?_append_left e] at hu
    rw [List.getElem?_append_left (by omega)]; exact h u hu
  · rw [List.getElem?_append_right (by omega)] at hu
    have := List.mem_of_getElem? hu
    simp at this

theorem gone_set {s : State} {A : View} (h : Gone s A) {x : Val} {v u : Nat} (hu : (A.set v (some x))[u]? = some none) : s.vars[u]? = some none := by
  by_cases e : v = u
  · subst e
    have hlt := (List.getElem?_eq_some_iff.1 hu).1
    rw [List.length_set] at hlt
    rw [List.getElem?_set_self hlt] at hu; cases hu
  · rw [List.getElem?_set_ne e] at hu; exact h u hu

theorem start_gone {s s' : State} {A : View} {c : Call} (h : start s c = .ok s') (hl : A.length = s.vars.length) (he : Gone s A) : Gone s' (A.call c) := by
  cases c with
  | number n => cases h; exact fun u hu => gone_append hl he hu
  | str t => cases h; exact fun u hu => gone_append hl he hu
  | array ws => cases h; exact fun u hu => gone_append hl he hu
  | copy w => cases h; exact fun u hu => gone_append hl he hu
  | assign v w => cases h; exact fun u hu => gone_set he hu
  | destroy v =>
    simp only [start] at h
    split at h
    · cases h
      intro u hu
      simp only [View.call] at hu
      by_cases e : v = u
      · subst e
        have hlt := (List.getElem?_eq_some_iff.1 hu).1
        rw [List.length_set] at hlt
        exact List.getElem?_set_self (by omega)
      · rw [List.getElem?_set_ne e] at hu
        show (s.vars.set v none)[u]? = some none
        rw [List.getElem?_set_ne e]; exact he u hu
    · cases h
  | elem w i =>
    simp only [start] at h
    cases hp : ptrOf s w with
    | error e => rw [hp] at h; cases h
    | ok p => rw [hp, res_bind_ok] at h; cases h; exact fun u hu => gone_append hl he hu
  | setElem v i w =>
    simp only [start] at h
    cases hp : ptrOf s v with
    | error e => rw [hp] at h; cases h
    | ok p =>
      rw [hp, res_bind_ok] at h
      cases hb : body s.bodies p with
      | error e => rw [hb] at h; cases h
      | ok b =>
        rw [hb, res_bind_ok] at h
        cases hi : decide (i < b.kids.length) with
        | false => rw [hi] at h; cases h
        | true =>
          rw [hi, assert_true, res_bind_ok] at h
          split at h
          · cases h; exact fun u hu => gone_set he hu
          · cases h; exact fun u hu => gone_set he hu
  | push v w =>
    simp only [start] at h
    cases hp : ptrOf s v with
    | error e => rw [hp] at h; cases h
    | ok p =>
      rw [hp, res_bind_ok] at h
      cases hb : body s.bodies p with
      | error e => rw [hb] at h; cases h
      | ok b =>
        rw [hb, res_bind_ok] at h
        split at h
        · cases h; exact fun u hu => gone_set he hu
        · cases h; exact fun u hu => gone_set he hu
  | edit v t =>
    simp only [start] at h
    cases hp : ptrOf s v with
    | error e => rw [hp] at h; cases h
    | ok p =>
      rw [hp, res_bind_ok] at h
      cases hb : body s.bodies p with
      | error e => rw [hb] at h; cases h
      | ok b =>
        rw [hb, res_bind_ok] at h
        split at h
        · cases h; exact fun u hu => gone_set he hu
        · cases h; exact fun u hu => gone_set he hu

theorem history_gone {s : State} {A : View} (h : History s A) : Gone s A := by
  induction h with
  | start => intro u h; simp at h
  | call c h1 h2 h3 ih => exact start_gone h3 (history_J h1).len ih
  | tick i h1 h2 ih =>
    rcases tick_inv h2 with ⟨_, rfl⟩ | ⟨v, r, _, rfl⟩ | ⟨v, r, a, t, bs, vs, more, _, h4, rfl⟩
    · exact ih
    · exact ih
    · exact fun u hu => step_gone h4 (ih u hu)

theorem part_alive {s : State} {A : View} (h : J s A) {v p : Nat} (hp : Part s v p) : Alive s.bodies p := by
  induction hp with
  | root hr => exact h.inv.alive_held hr
  | kid _ hb hk _ => exact h.inv.alive_kid hb hk

/-- all bodies have a value of some depth -/
theorem Inv.fit_all {bs vs js} (h : Inv bs vs js) : ∃ n, ∀ o, Alive bs o → (valueAt bs n (.ref o)).isSome := by
  obtain ⟨n, hn⟩ := fits_all (bs := bs) (cs := ((List.range bs.length).filter (fun o => (bs[o]?.map (·.live)) == some true)).map .ref) (by
    intro c hc
    obtain ⟨o, ho, rfl⟩ := List.mem_map.1 hc
    obtain ⟨_, h2⟩ := List.mem_filter.1 ho
    cases hb : bs[o]? with
    | none => rw [hb] at h2; simp at h2
    | some b =>
      rw [hb] at h2
      simp at h2
      exact h.fit o ⟨b, hb, h2⟩)
  refine ⟨n, fun o ho => hn _ (List.mem_map.2 ⟨o, List.mem_filter.2 ⟨by simp; exact ho.lt, ?_⟩, rfl⟩)⟩
  obtain ⟨b, h1, h2⟩ := ho
  simp [h1, h2]

/-- with no call in progress, each body is part of the value of a variable -/
theorem quiet_part {s : State} {A : View} (h : J s A) (he : Empty s.bodies) (hq : s.jobs = []) {o : Nat} (ho : Alive s.bodies o) : ∃ v, Part s v o := by
  apply Classical.byContradiction
  intro hn
  obtain ⟨N, hN⟩ := h.inv.fit_all
  have key : ∀ n, ∃ q, Alive s.bodies q ∧ (¬ ∃ v, Part s v q) ∧ ¬ (valueAt s.bodies n (.ref q)).isSome := by
    intro n
    induction n with
    | zero => exact ⟨o, ho, hn, by simp [valueAt]⟩
    | succ n ih =>
      obtain ⟨q, h1, h2, h3⟩ := ih
      obtain ⟨b, hb, hl⟩ := h1
      have hT : Tot s.bodies s.vars s.jobs q ≠ 0 := by
        intro e
        obtain ⟨j, hj, _⟩ := h.inv.lost q b hb hl e
        rw [hq] at hj; cases hj
      have hV := V_nonneg s.vars q
      have hK := K_nonneg s.bodies q
      have hT2 : Tot s.bodies s.vars s.jobs q = V s.vars q + K s.bodies q := by
        rw [hq]; simp [Tot, JW]
      rcases (show 0 < V s.vars q ∨ 0 < K s.bodies q by omega) with h4 | h4
      · obtain ⟨v, hv⟩ := V_exists h4
        exact absurd ⟨v, Part.root hv⟩ h2
      · obtain ⟨p, b', hp, hk⟩ := K_exists h4
        have hl' : b'.live = true := by
          cases e : b'.live with
          | true => rfl
          | false => rw [he p b' hp e] at hk; cases hk
        refine ⟨p, ⟨b', hp, hl'⟩, ?_, ?_⟩
        · rintro ⟨v, hv⟩
          exact h2 ⟨v, Part.kid hv hp hk⟩
        · rw [valueAt_ref hp hl', Option.isSome_map]
          intro hs
          exact h3 (mapM_isSome_mem hs hk)
  obtain ⟨q, h1, _, h3⟩ := key N
  exact h3 (hN q h1)

/-- a call that changes a body when it is started has it for itself -/
theorem start_changed {s s' : State} {A : View} (h : J s A) {c : Call} (hl : Legal s A c) (hs : start s c = .ok s') {p : Nat} (hp : p < s.bodies.length)
    (hne : s'.bodies[p]? ≠ s.bodies[p]?) : ∃ v b, Holds s.vars v p ∧ s.bodies[p]? = some b ∧ b.count ≤ 1 ∧ Idle s v := by
  have happ : ∀ b : Body, (s.bodies ++ [b])[p]? = s.bodies[p]? := fun b => List.getElem?_append_left hp
  have hold : ∀ v q, ptrOf s v = .ok q → Holds s.vars v q := by
    intro v q h
    unfold ptrOf at h
    split at h
    · rename_i o ho; cases h; exact ho
    · cases h
  cases c with
  | number n => cases hs; exact absurd rfl hne
  | str t => cases hs; exact absurd (happ _) hne
  | array ws => cases hs; exact absurd (happ _) hne
  | copy w => cases hs; exact absurd rfl hne
  | assign v w => cases hs; exact absurd rfl hne
  | destroy v =>
    simp only [start] at hs
    split at hs
    · cases hs; exact absurd rfl hne
    · cases hs
  | elem w i =>
    simp only [start] at hs
    cases hq : ptrOf s w with
    | error e => rw [hq] at hs; cases hs
    | ok q => rw [hq, res_bind_ok] at hs; cases hs; exact absurd rfl hne
  | setElem v i w =>
    simp only [start] at hs
    cases hq : ptrOf s v with
    | error e => rw [hq] at hs; cases hs
    | ok q =>
      rw [hq, res_bind_ok] at hs
      cases hb : body s.bodies q with
      | error e => rw [hb] at hs; cases hs
      | ok b =>
        rw [hb, res_bind_ok] at hs
        cases hi : decide (i < b.kids.length) with
        | false => rw [hi] at hs; cases hs
        | true =>
          rw [hi, assert_true, res_bind_ok] at hs
          split at hs
          · cases hs; exact absurd rfl hne
          · cases hs; exact absurd (happ _) hne
  | push v w =>
    simp only [start] at hs
    cases hq : ptrOf s v with
    | error e => rw [hq] at hs; cases hs
    | ok q =>
      rw [hq, res_bind_ok] at hs
      cases hb : body s.bodies q with
      | error e => rw [hb] at hs; cases hs
      | ok b =>
        rw [hb, res_bind_ok] at hs
        split at hs
        · rename_i hc
          cases hs
          by_cases e : q = p
          · subst e; exact ⟨v, b, hold v q hq, (body_inv hb).1, hc, hl.2.2.2.1⟩
          · exact absurd (List.getElem?_set_ne e) hne
        · cases hs; exact absurd (happ _) hne
  | edit v t =>
    simp only [start] at hs
    cases hq : ptrOf s v with
    | error e => rw [hq] at hs; cases hs
    | ok q =>
      rw [hq, res_bind_ok] at hs
      cases hb : body s.bodies q with
      | error e => rw [hb] at hs; cases hs
      | ok b =>
        rw [hb, res_bind_ok] at hs
        split at hs
        · rename_i hc
          cases hs
          by_cases e : q = p
          · subst e; exact ⟨v, b, hold v q hq, (body_inv hb).1, hc, hl.2.1⟩
          · exact absurd (List.getElem?_set_ne e) hne
        · cases hs; exact absurd (happ _) hne

theorem writes_owns {j : Job} {p : Nat} (h : Writes j p) : Owns j.todo p := by
  unfold Writes at h
  split at h
  · rename_i q k c t e; subst h; rw [e]; exact ⟨Act.swap (.kid q k) c, by simp, rfl⟩
  · rename_i q t e; subst h; rw [e]; exact ⟨Act.del q, by simp, rfl⟩
  · exact absurd h id

theorem reads_mentions {j : Job} {p : Nat} (h : Reads j p) : Mentions j.todo p := by
  unfold Reads at h
  split at h
  · rename_i q k c t e; subst h; rw [e]; exact ⟨_, List.mem_cons_self .., by simp [Act.nodes, Loc.nodes]⟩
  · rename_i q k c t e; subst h; rw [e]; exact ⟨_, List.mem_cons_self .., by simp [Act.nodes, Loc.nodes]⟩
  · rename_i q k c t e; subst h; rw [e]; exact ⟨_, List.mem_cons_self .., by simp [Act.nodes, Loc.nodes]⟩
  · exact absurd h id

theorem counts_mentions {j : Job} {p : Nat} (h : Counts j p) : Mentions j.todo p := by
  unfold Counts at h
  split at h
  all_goals first
    | (rename_i q t e; subst h; rw [e]; exact ⟨_, List.mem_cons_self .., by simp [Act.nodes]⟩)
    | exact absurd h id

end Strpp.NestPar
