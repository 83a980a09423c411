import Verif.Proof.RefCount
import Verif.Spec.Error
/-! The invariant of Errors used in several threads. -/
set_option linter.unusedSimpArgs false
set_option linter.unusedVariables false
namespace Strpp.Err
open Spec
open RC (Pc Job)

/-- what a call in progress is going to store -/
def pend (j : Job) : Option (Nat × Option Nat) :=
  match j.pc with
  | .addRef d o => some (d, some o)
  | .chk d o => some (d, some o)
  | .store d p => some (d, p)
  | _ => none

/-- calls that Error never makes -/
def odd (j : Job) : Bool :=
  match j.pc with
  | .unshare _ _ => true
  | .write _ _ => true
  | _ => false

def infoBody (x : Info) : Body := Body.make x.setmsg x.text x.params

/-- a pointer and the value expected of it -/
def Ptr (bodies : List Body) : Option Nat → Option Info → Prop
  | none, none => True
  | some o, some x => bodies[o]? = some (infoBody x)
  | _, _ => False

def Var (bodies : List Body) : Option (Option (Option Nat)) → Option (Option (Option Info)) → Prop
  | none, none => True
  | some none, some none => True
  | some (some p), some (some x) => Ptr bodies p x
  | _, _ => False

structure J (s : State) (V : View) : Prop where
  rc : RC.Inv s.rc
  len : s.bodies.length = s.rc.objs.length
  odds : ∀ j ∈ s.rc.jobs, odd j = false
  pends : ∀ j ∈ s.rc.jobs, ∀ d p, pend j = some (d, p) → ∃ x, V[d]? = some (some x) ∧ Ptr s.bodies p x
  settled : ∀ v, (∀ j ∈ s.rc.jobs, ∀ p, pend j ≠ some (v, p)) → Var s.bodies (s.rc.vars[v]?) (V[v]?)

theorem Ptr.more {bodies : List Body} {p : Option Nat} {x : Option Info} (h : Ptr bodies p x) (b : Body) :
    Ptr (bodies ++ [b]) p x := by
  cases p <;> cases x <;> simp only [Ptr] at *
  exact RC.get_append h

theorem Var.more {bodies : List Body} {a : Option (Option (Option Nat))} {x : Option (Option (Option Info))}
    (h : Var bodies a x) (b : Body) : Var (bodies ++ [b]) a x := by
  rcases a with _ | _ | a <;> rcases x with _ | _ | x <;> simp only [Var] at *
  exact h.more b

theorem Var.mono {bodies bodies' : List Body} (hb : ∀ p x, Ptr bodies p x → Ptr bodies' p x)
    {a : Option (Option (Option Nat))} {x : Option (Option (Option Info))} (h : Var bodies a x) : Var bodies' a x := by
  rcases a with _ | _ | a <;> rcases x with _ | _ | x <;> simp only [Var] at *
  exact hb _ _ h

theorem pend_writes {vars : List (Option (Option Nat))} {j : Job} {d : Nat} {p : Option Nat} (h : RC.JobOk vars j)
    (hp : pend j = some (d, p)) : j.writes = some d := by
  obtain ⟨rd, wr, pc⟩ := j
  cases pc <;> simp only [pend] at hp <;> cases hp <;> simp only [RC.JobOk] at h <;> exact h.1

/-- a variable no call writes is settled -/
theorem J.var {s : State} {V : View} (h : J s V) {v : Nat} (hv : Readable s v) : Var s.bodies (s.rc.vars[v]?) (V[v]?) :=
  h.settled v fun j hj p e => hv j hj (pend_writes (h.rc.jobs j hj) e)

theorem J.live {s : State} {V : View} (h : J s V) {v : Nat} (hv : Readable s v) {x : Option Info}
    (hx : V[v]? = some (some x)) : ∃ p, s.rc.vars[v]? = some (some p) ∧ Ptr s.bodies p x := by
  have h1 := h.var hv
  rw [hx] at h1
  rcases hc : s.rc.vars[v]? with _ | _ | p <;> rw [hc] at h1 <;> simp only [Var] at h1
  exact ⟨p, rfl, h1⟩

theorem J.length {s : State} {V : View} (h : J s V) : s.rc.vars.length = V.length := by
  rcases Nat.lt_trichotomy s.rc.vars.length V.length with hl | hl | hl
  · exfalso
    have h1 := h.var (v := s.rc.vars.length) (fun j hj e => by have := h.rc.bound j hj _ (Or.inl e); omega)
    rw [List.getElem?_eq_none (Nat.le_refl _), List.getElem?_eq_getElem hl] at h1
    rcases V[s.rc.vars.length] with _ | _ <;> simp only [Var] at h1
  · exact hl
  · exfalso
    rcases Classical.em (∃ j ∈ s.rc.jobs, ∃ p, pend j = some (V.length, p)) with ⟨j, hj, p, hp⟩ | hn
    · obtain ⟨x, hx, _⟩ := h.pends j hj _ _ hp
      rw [List.getElem?_eq_none (Nat.le_refl _)] at hx; cases hx
    · have h1 := h.settled V.length (fun j hj p e => hn ⟨j, hj, p, e⟩)
      rw [List.getElem?_eq_none (Nat.le_refl _), List.getElem?_eq_getElem hl] at h1
      generalize s.rc.vars[V.length] = a at h1
      rcases a with _ | _ <;> simp only [Var] at h1

/-- a new variable without a call -/
theorem J.newVar {s : State} {V : View} (h : J s V) : J { s with rc := { s.rc with vars := s.rc.vars ++ [some none] } } (V ++ [some none]) := by
  refine ⟨h.rc.newVar, h.len, h.odds, ?_, ?_⟩
  · intro j hj d p hp
    obtain ⟨x, hx, h2⟩ := h.pends j hj d p hp
    exact ⟨x, RC.get_append hx, h2⟩
  · intro v hv
    have h1 := h.settled v hv
    simp only [RC.get_push, h.length]
    split
    · trivial
    · exact h1

/-- a new variable, written by a call -/
theorem J.newJob {s : State} {V : View} (h : J s V) (rd : Option Nat) (o : Nat) (objs : List RC.Obj) (bodies : List Body)
    (x : Option Info)
    (hi : RC.Inv ⟨objs, s.rc.vars ++ [some none], s.rc.jobs ++ [⟨rd, some s.rc.vars.length, .addRef s.rc.vars.length o⟩]⟩)
    (hlen : bodies.length = objs.length)
    (hb : ∀ p x, Ptr s.bodies p x → Ptr bodies p x) (hx : Ptr bodies (some o) x) :
    J ⟨⟨objs, s.rc.vars ++ [some none], s.rc.jobs ++ [⟨rd, some s.rc.vars.length, .addRef s.rc.vars.length o⟩]⟩, bodies⟩
      (V ++ [some x]) := by
  refine ⟨hi, hlen, ?_, ?_, ?_⟩
  · intro j hj
    rcases List.mem_append.1 hj with hj | hj
    · exact h.odds j hj
    · rw [List.mem_singleton] at hj; subst hj; rfl
  · intro j hj d p hp
    rcases List.mem_append.1 hj with hj | hj
    · obtain ⟨x, hx, h2⟩ := h.pends j hj d p hp
      exact ⟨x, RC.get_append hx, hb _ _ h2⟩
    · rw [List.mem_singleton] at hj; subst hj
      simp only [pend] at hp
      cases hp
      exact ⟨x, by rw [h.length]; simp, hx⟩
  · intro v hv
    have hne : v ≠ s.rc.vars.length := by
      intro e
      exact hv _ (List.mem_append_right _ (List.mem_singleton_self _)) (some o) (by rw [e]; rfl)
    have h1 := h.settled v (fun j hj => hv j (List.mem_append_left _ hj))
    simp only [RC.get_push]
    rw [if_neg hne, if_neg (by rw [← h.length]; exact hne)]
    exact h1.mono hb

/-- an assignment -/
theorem J.assign {s : State} {V : View} (h : J s V) (rd : Option Nat) (d : Nat) (p : Option Nat) (x y : Option Info) (pc : Pc)
    (hpc : pend ⟨rd, some d, pc⟩ = some (d, p)) (ho : odd ⟨rd, some d, pc⟩ = false)
    (hi : RC.Inv (s.rc.add ⟨rd, some d, pc⟩)) (hd : V[d]? = some (some y)) (hid : Idle s d)
    (hx : Ptr s.bodies p x) : J ⟨s.rc.add ⟨rd, some d, pc⟩, s.bodies⟩ (V.set d (some x)) := by
  refine ⟨hi, h.len, ?_, ?_, ?_⟩
  · intro j hj
    rcases List.mem_append.1 hj with hj | hj
    · exact h.odds j hj
    · rw [List.mem_singleton] at hj; subst hj; exact ho
  · intro j hj e q hq
    rcases List.mem_append.1 hj with hj | hj
    · obtain ⟨z, hz, h2⟩ := h.pends j hj e q hq
      have hne : d ≠ e := fun he => (hid j hj).1 (by rw [he]; exact pend_writes (h.rc.jobs j hj) hq)
      exact ⟨z, by rw [List.getElem?_set_ne hne]; exact hz, h2⟩
    · rw [List.mem_singleton] at hj; subst hj
      rw [hpc] at hq; cases hq
      have := RC.lt_of_get hd
      exact ⟨x, by simp [this], hx⟩
  · intro v hv
    have hne : d ≠ v := by
      intro e
      exact hv _ (List.mem_append_right _ (List.mem_singleton_self _)) p (by rw [← e]; exact hpc)
    rw [List.getElem?_set_ne hne]
    exact h.settled v (fun j hj => hv j (List.mem_append_left _ hj))

theorem start_J {s : State} {V : View} (h : J s V) (c : Call) (hl : Legal s V c) : J (start s c) (V.call c) := by
  cases c with
  | none => exact h.newVar
  | make m d p =>
    have h1 := RC.start_inv h.rc .construct
    refine h.newJob none s.rc.objs.length _ _ (some ⟨m, d, p⟩) h1 (by simp [h.len]) (fun p x hp => hp.more _) ?_
    simp only [Ptr, ← h.len]
    simp [infoBody]
  | copy src =>
    obtain ⟨⟨x, hx⟩, hr⟩ := hl
    obtain ⟨p, hp, hpx⟩ := h.live hr hx
    have h1 := RC.start_inv h.rc (.copy src)
    have hc := (RC.canRead_iff s.rc src).2 hr
    simp only [start, View.call, hx, Option.getD_some]
    simp only [RC.start, hp, hc, if_true] at h1 ⊢
    cases p with
    | none =>
      cases x with
      | none => exact h.newVar
      | some x => exact absurd hpx (by simp [Ptr])
    | some o => exact h.newJob (some src) o _ _ x h1 h.len (fun _ _ h => h) hpx
  | assign dst src =>
    obtain ⟨⟨x, hx⟩, ⟨y, hy⟩, hr, hw⟩ := hl
    obtain ⟨p, hp, hpx⟩ := h.live hr hx
    obtain ⟨q, hq, _⟩ := h.live (fun j hj => (hw j hj).1) hy
    have h1 := RC.start_inv h.rc (.assign dst src)
    have hc := (RC.canRead_iff s.rc src).2 hr
    have hc' := (RC.canWrite_iff s.rc dst).2 hw
    simp only [start, View.call, hx, Option.getD_some]
    simp only [RC.start, hp, hq, hc, hc', Bool.and_self, if_true] at h1 ⊢
    cases p with
    | none => exact h.assign (some src) dst none x y _ rfl rfl h1 hy hw hpx
    | some o => exact h.assign (some src) dst (some o) x y _ rfl rfl h1 hy hw hpx
  | destroy v =>
    obtain ⟨⟨x, hx⟩, hw⟩ := hl
    obtain ⟨p, hp, hpx⟩ := h.live (fun j hj => (hw j hj).1) hx
    have h1 := RC.start_inv h.rc (.destroy v)
    have hc := (RC.canWrite_iff s.rc v).2 hw
    simp only [start, View.call]
    simp only [RC.start, hp, hc, if_true] at h1 ⊢
    have hlt := RC.lt_of_get hp
    have hlt' := RC.lt_of_get hx
    have key : ∀ (jobs : List Job), (∀ j ∈ jobs, j ∈ s.rc.jobs ∨ (pend j = none ∧ odd j = false)) →
        (∀ j ∈ s.rc.jobs, j ∈ jobs) → RC.Inv ⟨s.rc.objs, s.rc.vars.set v none, jobs⟩ →
        J ⟨⟨s.rc.objs, s.rc.vars.set v none, jobs⟩, s.bodies⟩ (V.set v none) := by
      intro jobs hj hj' hi
      refine ⟨hi, h.len, ?_, ?_, ?_⟩
      · intro j hm
        rcases hj j hm with hj | hj
        · exact h.odds j hj
        · exact hj.2
      · intro j hm d q hq
        rcases hj j hm with hj | hj
        · obtain ⟨z, hz, h2⟩ := h.pends j hj d q hq
          have hne : v ≠ d := fun he => (hw j hj).1 (by rw [he]; exact pend_writes (h.rc.jobs j hj) hq)
          exact ⟨z, by rw [List.getElem?_set_ne hne]; exact hz, h2⟩
        · rw [hj.1] at hq; cases hq
      · intro w hv
        by_cases he : v = w
        · subst he
          simp only [List.getElem?_set_self hlt, List.getElem?_set_self hlt', Var]
        · simp only [List.getElem?_set_ne he]
          exact h.settled w (fun j hj => hv j (hj' j hj))
    cases p with
    | none => exact key _ (fun j hj => Or.inl hj) (fun j hj => hj) h1
    | some o =>
      refine key _ (fun j hj => ?_) (fun j hj => List.mem_append_left _ hj) h1
      rcases List.mem_append.1 hj with hj | hj
      · exact Or.inl hj
      · rw [List.mem_singleton] at hj; subst hj; exact Or.inr ⟨rfl, rfl⟩

theorem mem_mid {α : Type} {pre post : List α} {x k : α} (h : k ∈ pre ++ post) : k ∈ pre ++ x :: post := by
  rcases List.mem_append.1 h with h | h
  · exact List.mem_append_left _ h
  · exact List.mem_append_right _ (List.mem_cons_of_mem _ h)

theorem of_mem_mid {α : Type} {pre post : List α} {x k : α} (h : k ∈ pre ++ x :: post) : k = x ∨ k ∈ pre ++ post := by
  rcases List.mem_append.1 h with h | h
  · exact Or.inr (List.mem_append_left _ h)
  · rcases List.mem_cons.1 h with h | h
    · exact Or.inl h
    · exact Or.inr (List.mem_append_right _ h)

theorem mem_self {α : Type} {pre post : List α} {x : α} : x ∈ pre ++ x :: post :=
  List.mem_append_right _ (List.mem_cons_self ..)

theorem J.move {objs objs' : List RC.Obj} {vars : List (Option (Option Nat))} {pre post : List Job} {j j' : Job}
    {bodies : List Body} {V : View} (h : J ⟨⟨objs, vars, pre ++ j :: post⟩, bodies⟩ V) (hi : RC.Inv ⟨objs', vars, pre ++ j' :: post⟩)
    (hl : objs'.length = objs.length) (hp : pend j' = pend j) (ho : odd j' = false) :
    J ⟨⟨objs', vars, pre ++ j' :: post⟩, bodies⟩ V := by
  refine ⟨hi, h.len.trans hl.symm, ?_, ?_, ?_⟩
  · intro k hk
    rcases of_mem_mid hk with rfl | hk
    · exact ho
    · exact h.odds k (mem_mid hk)
  · intro k hk d p hq
    rcases of_mem_mid hk with rfl | hk
    · exact h.pends j mem_self d p (hp ▸ hq)
    · exact h.pends k (mem_mid hk) d p hq
  · intro v hv
    refine h.settled v fun k hk p => ?_
    rcases of_mem_mid hk with rfl | hk
    · rw [← hp]; exact hv j' mem_self p
    · exact hv k (mem_mid hk) p

theorem J.drop {objs objs' : List RC.Obj} {vars : List (Option (Option Nat))} {pre post : List Job} {j : Job}
    {bodies : List Body} {V : View} (h : J ⟨⟨objs, vars, pre ++ j :: post⟩, bodies⟩ V) (hi : RC.Inv ⟨objs', vars, pre ++ post⟩)
    (hl : objs'.length = objs.length) (hp : pend j = none) : J ⟨⟨objs', vars, pre ++ post⟩, bodies⟩ V := by
  refine ⟨hi, h.len.trans hl.symm, fun k hk => h.odds k (mem_mid hk), fun k hk d p hq => h.pends k (mem_mid hk) d p hq, ?_⟩
  intro v hv
  refine h.settled v fun k hk p => ?_
  rcases of_mem_mid hk with rfl | hk
  · rw [hp]; nofun
  · exact hv k hk p

theorem J.store {objs : List RC.Obj} {vars : List (Option (Option Nat))} {pre post rest : List Job} {j : Job} {d : Nat}
    {p : Option Nat} {bodies : List Body} {V : View} (h : J ⟨⟨objs, vars, pre ++ j :: post⟩, bodies⟩ V)
    (hi : RC.Inv ⟨objs, vars.set d (some p), rest⟩) (hp : pend j = some (d, p))
    (hr : ∀ k ∈ rest, k ∈ pre ++ post ∨ (pend k = none ∧ odd k = false)) (hr' : ∀ k ∈ pre ++ post, k ∈ rest) (hd : d < vars.length) :
    J ⟨⟨objs, vars.set d (some p), rest⟩, bodies⟩ V := by
  obtain ⟨x, hx, hpx⟩ := h.pends j mem_self d p hp
  refine ⟨hi, h.len, ?_, ?_, ?_⟩
  · intro k hk
    rcases hr k hk with hk | hk
    · exact h.odds k (mem_mid hk)
    · exact hk.2
  · intro k hk e q hq
    rcases hr k hk with hk | hk
    · exact h.pends k (mem_mid hk) e q hq
    · rw [hk.1] at hq; cases hq
  · intro v hv
    by_cases he : d = v
    · subst he
      simp only [List.getElem?_set_self hd, hx, Var]
      exact hpx
    · simp only [List.getElem?_set_ne he]
      refine h.settled v fun k hk q => ?_
      rcases of_mem_mid hk with rfl | hk
      · rw [hp]; intro e; cases e; exact he rfl
      · exact hv k (hr' k hk) q

theorem tick_J {s s' : State} {V : View} (h : J s V) (i : Nat) (ht : tick s i = .ok s') : J s' V := by
  unfold tick at ht
  obtain ⟨rc', hi', hinv⟩ := RC.tick_inv h.rc i
  rw [hi', res_bind_ok] at ht
  cases ht
  unfold RC.tick at hi'
  obtain ⟨⟨objs, vars, jobs⟩, bodies⟩ := s
  cases hj : jobs[i]? with
  | none => simp only [hj] at hi'; cases hi'; exact h
  | some j =>
    obtain ⟨pre, post, rfl, rfl⟩ := RC.split_at hj
    simp only [hj, RC.goto, RC.finish, RC.set_mid, RC.erase_mid] at hi'
    have hok := h.rc.jobs j mem_self
    have hodd := h.odds j mem_self
    have hbind : ∀ {α β : Type} {m : Res α} {f : α → Res β} {b : β}, (m >>= f) = .ok b → ∃ a, m = .ok a ∧ f a = .ok b := by
      intro α β m f b hh
      cases m with
      | error e => cases hh
      | ok a => exact ⟨a, rfl, hh⟩
    obtain ⟨reads, writes, pc⟩ := j
    cases pc with
    | addRef dst o =>
      obtain ⟨x, _, h1⟩ := hbind hi'
      cases h1
      exact h.move hinv (by simp) rfl rfl
    | chk dst o =>
      obtain ⟨x, _, h1⟩ := hbind hi'
      obtain ⟨_, _, h1⟩ := hbind h1
      cases h1
      exact h.move hinv rfl rfl rfl
    | store dst p =>
      obtain ⟨_, q, hq⟩ := hok
      simp only at hq
      simp only [hq] at hi'
      have hlt := RC.lt_of_get hq
      cases q with
      | none =>
        cases hi'
        exact h.store hinv rfl (fun k hk => Or.inl hk) (fun k hk => hk) hlt
      | some o =>
        cases hi'
        refine h.store hinv rfl (fun k hk => ?_) (fun k hk => mem_mid hk) hlt
        rcases of_mem_mid hk with rfl | hk
        · exact Or.inr ⟨rfl, rfl⟩
        · exact Or.inl hk
    | relAssert o =>
      obtain ⟨x, _, h1⟩ := hbind hi'
      obtain ⟨_, _, h1⟩ := hbind h1
      cases h1
      exact h.move hinv rfl rfl rfl
    | relDec o =>
      obtain ⟨x, _, h1⟩ := hbind hi'
      split at h1
      · cases h1; exact h.move hinv (by simp) rfl rfl
      · cases h1; exact h.drop hinv (by simp) rfl
    | del o =>
      obtain ⟨x, _, h1⟩ := hbind hi'
      cases h1
      exact h.drop hinv (by simp) rfl
    | unshare dst o => cases hodd
    | write dst o => cases hodd

theorem init_J : J init [] := by
  refine ⟨RC.init_inv, rfl, nofun, nofun, fun v _ => ?_⟩
  simp [init, RC.init, Var]

theorem history_J {s : State} {V : View} (h : History s V) : J s V := by
  induction h with
  | start => exact init_J
  | call c _ hl ih => exact start_J ih c hl
  | tick i _ ht ih => exact tick_J ih i ht

end Strpp.Err
