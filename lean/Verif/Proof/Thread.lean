import Verif.Spec.Thread
import Mathlib.Data.List.Nodup
/-! The invariant of the thread machine. -/
namespace Strpp.Th

/-- within the latch -/
def crit : Pc → Bool
  | .rsCreate _ | .rsInsert _ | .rsLeave _ | .tpAssert _ | .tpLeave _ | .teState _ | .teFind _ | .teCount _ | .teCast _ | .teLeave _
  | .reFind _ | .reState _ | .reDec _ | .reErase _ | .reLeave _ _ | .joFind _ | .joErase _ | .joDec _ | .joLeave _ _
  | .jaSize | .jaNone | .jaTest | .jaScan | .jaErase _ _ | .jaAssert _ _ | .jaDec _ | .jaLeave _ | .cuFind _ | .cuLeave _ _
  | .exState _ | .exFind | .exCount | .exCast | .exLeave => true
  | _ => false

/-- places in ThreadProc -/
def procOf : Pc → Option Nat
  | .tpEnter o | .tpAssert o | .tpLeave o | .tpStarted o | .teEnter o | .teState o | .teFind o | .teCount o | .teCast o | .teLeave o => some o
  | _ => none

/-- places in exit -/
def inExit : Pc → Bool
  | .cuEnter true | .cuFind true | .cuLeave true _ | .exEnter _ | .exState _ | .exFind | .exCount | .exCast | .exLeave => true
  | _ => false

/-- places in resume, join, the destructor -/
def opOn : Pc → Option Nat
  | .rsEnter o | .rsCreate o | .rsInsert o | .rsLeave o | .dsCheck o | .reEnter o | .reFind o | .reState o | .reDec o | .reErase o
  | .reLeave o _ | .reClear o | .joAssert o | .joWait o | .joEnter o | .joFind o | .joErase o | .joDec o | .joLeave o _ => some o
  | _ => none

inductive Phase | unstarted | running | ending | done
deriving DecidableEq

def phase : Pc → Phase
  | .unstarted => .unstarted
  | .done => .done
  | .teFind _ | .teCount _ | .teCast _ | .teLeave _ => .ending
  | _ => .running

/-- what is to be added to the number of ended threads in the list to get the count -/
def adj : Pc → Int
  | .teFind _ | .teCount _ | .reErase _ => -1
  | .joDec _ | .jaAssert _ _ | .jaDec _ => 1
  | _ => 0

def hadj (s : State) : Int :=
  match s.holder with
  | none => 0
  | some a => adj (s.pc a)

def InMap (s : State) (o : Nat) : Prop := ∃ t, (t, o) ∈ s.threads

/-- is the Thread of an entry ended? -/
def isEnded (s : State) (e : Id × Nat) : Bool := (s.obj e.2).state == .ended

/-- the number of entries whose Thread has ended -/
def cnt (s : State) : Int := (s.threads.filter (isEnded s)).length

/-- what is so of a Thread, by where its thread is -/
def ObjOk (s : State) (o : Nat) : Phase → Prop
  | .unstarted => (s.obj o).os = .none ∧ (s.obj o).state ≠ .ended ∧ ¬ InMap s o
  | .running => (s.obj o).alive = true ∧ (s.obj o).os = .running ∧ (s.obj o).state ≠ .ended ∧ (InMap s o ∨ ∃ a, s.holder = some a ∧ s.pc a = .rsInsert o)
  | .ending => (s.obj o).alive = true ∧ (s.obj o).os = .running ∧ (s.obj o).state = .ended ∧ InMap s o
  | .done => (s.obj o).state = .ended ∧ ((s.obj o).os = .terminated ∨ (s.obj o).os = .joined)

/-- what a thread may count on where it is -/
def Loc (s : State) : Pc → Prop
  | .rsEnter o | .rsCreate o => s.pc (.worker o) = .unstarted
  | .rsInsert o => phase (s.pc (.worker o)) = .running ∧ ¬ InMap s o
  | .rsLeave o => s.pc (.worker o) ≠ .unstarted
  | .joAssert o | .joWait o => s.pc (.worker o) ≠ .unstarted
  | .joEnter o | .joFind o => (s.obj o).os = .joined
  | .joErase o => (s.obj o).os = .joined ∧ InMap s o
  | .joDec o | .joLeave o _ => (s.obj o).os = .joined ∧ ¬ InMap s o
  | .dsCheck o | .reEnter o | .reFind o => (s.obj o).state = .ended
  | .reState o | .reDec o | .reErase o => s.pc (.worker o) = .done ∧ InMap s o
  | .reLeave o _ | .reClear o => s.pc (.worker o) = .done ∧ ¬ InMap s o
  | .jaErase t o => (t, o) ∈ s.threads ∧ s.pc (.worker o) = .done
  | .jaAssert t o => s.pc (.worker o) = .done ∧ ¬ InMap s o ∧ ∀ e ∈ s.threads, e.1 ≠ t
  | .jaDec o | .jaLeave o => s.pc (.worker o) = .done ∧ ¬ InMap s o
  | .jaScan => s.ended ≠ 0
  | _ => True

structure Inv (s : State) : Prop where
  lock : ∀ a, crit (s.pc a) = true ↔ s.holder = some a
  own : ∀ a o, procOf (s.pc a) = some o → a = .worker o
  noexit : ∀ a, inExit (s.pc a) = false
  unborn : ∀ o, s.n ≤ o → s.pc (.worker o) = .unstarted
  born : ∀ o, o < s.n → s.pc (.worker o) = .unstarted → (s.obj o).alive = true
  objs : ∀ o, ObjOk s o (phase (s.pc (.worker o)))
  osid : ∀ o, s.pc (.worker o) ≠ .unstarted → (∃ k, (s.obj o).osId = some (.made k)) ∧ ((s.obj o).alive = true → (s.obj o).id = (s.obj o).osId)
  ids : ∀ o o', s.pc (.worker o) ≠ .unstarted → s.pc (.worker o') ≠ .unstarted → (s.obj o).alive = true → (s.obj o').alive = true → (s.obj o).id = (s.obj o').id → o = o'
  entry : ∀ t o, (t, o) ∈ s.threads → (s.obj o).alive = true ∧ (s.obj o).id = some t ∧ s.pc (.worker o) ≠ .unstarted
  keys : (s.threads.map Prod.fst).Nodup
  user : ∀ a o, opOn (s.pc a) = some o → (s.obj o).user = some a ∧ (s.obj o).alive = true ∧ o < s.n
  loc : ∀ a, Loc s (s.pc a)
  count : s.ended = cnt s + hadj s
  waiting : ∀ a, s.pc a = .jaWaiting → s.ended = 0 ∨ ∃ b o, s.holder = some b ∧ s.pc b = .teCast o
  nofault : s.fault = none

@[simp] theorem upd_same {α β : Type} [DecidableEq α] (f : α → β) (a : α) (v : β) : upd f a v a = v := by simp [upd]
theorem upd_other {α β : Type} [DecidableEq α] (f : α → β) (a b : α) (v : β) (h : b ≠ a) : upd f a v b = f b := by simp [upd, h]

theorem inv_init : Inv init := by
  refine ⟨fun a => ?_, fun a o => ?_, fun a => ?_, fun o _ => rfl, fun o h => ?_, fun o => ?_, fun o h => ?_, fun o o' h => ?_, fun t o h => ?_, ?_, fun a o h => ?_, fun a => ?_, ?_, fun a h => ?_, rfl⟩
  · cases a <;> simp [init, crit]
  · cases a <;> simp [init, procOf]
  · cases a <;> simp [init, inExit]
  · simp [init] at h
  · simp [init, phase, ObjOk, InMap]
  · simp [init] at h
  · simp [init] at h
  · simp [init] at h
  · simp [init]
  · cases a <;> simp [init, opOn] at h
  · cases a <;> simp [init, Loc]
  · simp [init, cnt, hadj]
  · cases a <;> simp [init] at h

/-- Steps that change nothing but where `a` is, the latch, the count and who uses a Thread -/
theorem inv_local {s s' : State} (h : Inv s) (a : Actor) (p p' : Pc) (hp : s.pc a = p) (hp' : s'.pc a = p') (hn : s'.n = s.n) (hpc : ∀ b, b ≠ a → s'.pc b = s.pc b)
    (hh : ∀ b, b ≠ a → (s'.holder = some b ↔ s.holder = some b)) (hobj : ∀ o, ∃ u, s'.obj o = { s.obj o with user := u } ∧ ∀ b, b ≠ a → (s.obj o).user = some b → u = some b)
    (hth : s'.threads = s.threads) (hf : s'.fault = none) (hphase : phase p' = phase p)
    (hrs : ∀ o, p ≠ .rsInsert o)
    (hcrit : crit p' = true ↔ s'.holder = some a) (hproc : procOf p' = none ∨ procOf p' = procOf p ∨ ∃ o, procOf p' = some o ∧ a = .worker o) (hex : inExit p' = false)
    (huser : ∀ o, opOn p' = some o → (s'.obj o).user = some a ∧ (s.obj o).alive = true ∧ o < s.n) (hloc : Loc s' p') (hcount : s'.ended = cnt s + hadj s')
    (hscan : ∀ b, b ≠ a → s.pc b = .jaScan → s'.ended = s.ended)
    (hwait : ∀ b, s'.pc b = .jaWaiting → s'.ended = 0 ∨ ∃ c o, s'.holder = some c ∧ s'.pc c = .teCast o) : Inv s' := by
  have hu : ∀ o, (s'.obj o).alive = (s.obj o).alive ∧ (s'.obj o).id = (s.obj o).id ∧ (s'.obj o).state = (s.obj o).state ∧ (s'.obj o).os = (s.obj o).os ∧ (s'.obj o).osId = (s.obj o).osId := by
    intro o
    obtain ⟨u, h1, -⟩ := hobj o
    rw [h1]; exact ⟨rfl, rfl, rfl, rfl, rfl⟩
  have hph : ∀ b, phase (s'.pc b) = phase (s.pc b) := by
    intro b
    by_cases hb : b = a
    · rw [hb, hp', hp, hphase]
    · rw [hpc b hb]
  have hun : ∀ b, s'.pc b = .unstarted ↔ s.pc b = .unstarted := by
    intro b
    have key : ∀ q, q = Pc.unstarted ↔ phase q = .unstarted := by intro q; cases q <;> simp [phase]
    rw [key, key, hph]
  have hdone : ∀ b, s'.pc b = .done ↔ s.pc b = .done := by
    intro b
    have key : ∀ q, q = Pc.done ↔ phase q = .done := by intro q; cases q <;> simp [phase]
    rw [key, key, hph]
  have hmap : ∀ o, InMap s' o ↔ InMap s o := fun o => by simp only [InMap, hth]
  have hcnt : cnt s' = cnt s := by
    unfold cnt
    rw [hth]
    have : isEnded s' = isEnded s := by funext e; simp only [isEnded, (hu e.2).2.2.1]
    rw [this]
  refine ⟨fun b => ?_, fun b o hb => ?_, fun b => ?_, fun o ho => ?_, fun o ho h1 => ?_, fun o => ?_, fun o ho => ?_, fun o o' h1 h2 h3 h4 h5 => ?_, fun t o ht => ?_, ?_, fun b o hb => ?_,
    fun b => ?_, ?_, hwait, hf⟩
  · by_cases hb : b = a
    · rw [hb, hp']; exact hcrit
    · rw [hpc b hb, hh b hb]; exact h.lock b
  · by_cases hba : b = a
    · rw [hba, hp'] at hb
      rcases hproc with h1 | h1 | ⟨o', h1, h2⟩
      · rw [h1] at hb; cases hb
      · rw [hba]; exact h.own a o (by rw [hp, ← h1]; exact hb)
      · rw [h1] at hb; cases hb; rw [hba, h2]
    · rw [hpc b hba] at hb; exact h.own b o hb
  · by_cases hba : b = a
    · rw [hba, hp']; exact hex
    · rw [hpc b hba]; exact h.noexit b
  · rw [hun]; exact h.unborn o (by omega)
  · rw [(hu o).1]; exact h.born o (by omega) ((hun _).mp h1)
  · have := h.objs o
    rw [hph]
    revert this
    cases hq : phase (s.pc (.worker o)) with
    | running =>
      simp only [ObjOk, (hu o).1, (hu o).2.2.1, (hu o).2.2.2.1, hmap]
      rintro ⟨h1, h2, h3, h4⟩
      refine ⟨h1, h2, h3, h4.imp id ?_⟩
      rintro ⟨b, h5, h6⟩
      have hba : b ≠ a := by
        intro hba
        rw [hba, hp] at h6
        exact hrs o h6
      exact ⟨b, (hh b hba).mpr h5, by rw [hpc b hba]; exact h6⟩
    | _ => simp only [ObjOk, (hu o).1, (hu o).2.2.1, (hu o).2.2.2.1, hmap]; exact fun h => h
  · rw [ne_eq, hun] at ho
    have := h.osid o ho
    rw [(hu o).1, (hu o).2.1, (hu o).2.2.2.2]; exact this
  · rw [ne_eq, hun] at h1 h2
    rw [(hu o).1] at h3
    rw [(hu o').1] at h4
    rw [(hu o).2.1, (hu o').2.1] at h5
    exact h.ids o o' h1 h2 h3 h4 h5
  · rw [hth] at ht
    have := h.entry t o ht
    rw [(hu o).1, (hu o).2.1, ne_eq, hun]; exact this
  · rw [hth]; exact h.keys
  · by_cases hba : b = a
    · rw [hba, hp'] at hb
      have := huser o hb
      rw [hba, (hu o).1, hn]; exact this
    · rw [hpc b hba] at hb
      obtain ⟨h1, h2, h3⟩ := h.user b o hb
      obtain ⟨u, g1, g2⟩ := hobj o
      rw [(hu o).1, hn]
      exact ⟨by rw [g1]; exact g2 b hba h1, h2, h3⟩
  · by_cases hba : b = a
    · rw [hba, hp']; exact hloc
    · have := h.loc b
      rw [hpc b hba]
      revert this
      cases hq : s.pc b with
      | jaScan =>
        simp only [Loc]
        rw [hscan b hba hq]; exact fun h => h
      | _ => simp only [Loc, hmap, ne_eq, hun, hdone, hth, hph, (hu _).2.2.2.1, (hu _).2.2.1]; exact fun h => h
  · rw [hcount, hcnt]

theorem phase_unstarted {q : Pc} : q = .unstarted ↔ phase q = .unstarted := by cases q <;> simp [phase]
theorem phase_done {q : Pc} : q = .done ↔ phase q = .done := by cases q <;> simp [phase]

/-- Steps that change one Thread, and where `a` is -/
theorem inv_obj {s s' : State} (h : Inv s) (a : Actor) (o : Nat) (p p' : Pc) (hp : s.pc a = p) (hp' : s'.pc a = p') (hn : s'.n = s.n) (hpc : ∀ b, b ≠ a → s'.pc b = s.pc b)
    (hh : ∀ b, b ≠ a → (s'.holder = some b ↔ s.holder = some b)) (hobj : ∀ o', o' ≠ o → s'.obj o' = s.obj o') (hth : s'.threads = s.threads) (hf : s'.fault = none)
    (hphase : phase p' = phase p ∨ (a = .worker o ∧ crit p = true)) (hun : phase p ≠ .unstarted ∧ phase p' ≠ .unstarted) (hnd : phase p ≠ .done) (hrs : ∀ o, p ≠ .rsInsert o) (hcrit : crit p' = true ↔ s'.holder = some a)
    (hproc : procOf p' = none ∨ procOf p' = procOf p) (hex : inExit p' = false) (hobjs : ObjOk s' o (phase (s'.pc (.worker o))))
    (hosid : s.pc (.worker o) ≠ .unstarted ∧ (s'.obj o).osId = (s.obj o).osId ∧ ((s'.obj o).alive = true → (s.obj o).alive = true ∧ (s'.obj o).id = (s.obj o).id))
    (hentry : InMap s o → (s'.obj o).alive = true)
    (hjoined : (s.obj o).os = .joined → (s'.obj o).os = .joined) (hended : (s.obj o).state = .ended → (s'.obj o).state = .ended)
    (huser' : ∀ b, b ≠ a → (s.obj o).user = some b → (s'.obj o).user = some b ∧ (s'.obj o).alive = (s.obj o).alive)
    (huser : ∀ o', opOn p' = some o' → (s'.obj o').user = some a ∧ (s'.obj o').alive = true ∧ o' < s.n) (hloc : Loc s' p') (hcount : s'.ended = cnt s' + hadj s')
    (hend : s'.ended = s.ended) (hnw : p ≠ .jaWaiting ∧ p' ≠ .jaWaiting) (hnc : ∀ o, p ≠ .teCast o) : Inv s' := by
  have hu : ∀ b, s'.pc b = .unstarted ↔ s.pc b = .unstarted := by
    intro b
    by_cases hb : b = a
    · rw [hb, hp, hp', phase_unstarted, phase_unstarted]
      exact ⟨fun h => absurd h hun.2, fun h => absurd h hun.1⟩
    · rw [hpc b hb]
  have hdone : ∀ b, s.pc b = .done → s'.pc b = .done := by
    intro b hb
    by_cases hba : b = a
    · rw [hba, hp] at hb
      rw [hb] at hnd
      exact absurd rfl hnd
    · rw [hpc b hba]; exact hb
  have hph : ∀ o', o' ≠ o → phase (s'.pc (.worker o')) = phase (s.pc (.worker o')) := by
    intro o' ho
    by_cases hb : Actor.worker o' = a
    · rw [hb, hp, hp']
      exact hphase.resolve_right (fun g => ho (by rw [g.1] at hb; injection hb))
    · rw [hpc _ hb]
  have hmap : ∀ o, InMap s' o ↔ InMap s o := fun o => by simp only [InMap, hth]
  have hj : ∀ o', (s.obj o').os = .joined → (s'.obj o').os = .joined := by
    intro o' g
    by_cases ho : o' = o
    · rw [ho] at g ⊢; exact hjoined g
    · rw [hobj o' ho]; exact g
  have he : ∀ o', (s.obj o').state = .ended → (s'.obj o').state = .ended := by
    intro o' g
    by_cases ho : o' = o
    · rw [ho] at g ⊢; exact hended g
    · rw [hobj o' ho]; exact g
  have hal : ∀ o', (s'.obj o').alive = true → (s.obj o').alive = true ∧ (s'.obj o').id = (s.obj o').id := by
    intro o' g
    by_cases ho : o' = o
    · rw [ho] at g ⊢; exact hosid.2.2 g
    · rw [hobj o' ho] at g ⊢; exact ⟨g, rfl⟩
  refine ⟨fun b => ?_, fun b o' hb => ?_, fun b => ?_, fun o' ho => ?_, fun o' ho h1 => ?_, fun o' => ?_, fun o' ho => ?_, fun o1 o2 h1 h2 h3 h4 h5 => ?_, fun t o' ht => ?_, ?_, fun b o' hb => ?_,
    fun b => ?_, hcount, fun b hb => ?_, hf⟩
  · by_cases hb : b = a
    · rw [hb, hp']; exact hcrit
    · rw [hpc b hb, hh b hb]; exact h.lock b
  · by_cases hba : b = a
    · rw [hba, hp'] at hb
      rcases hproc with h1 | h1
      · rw [h1] at hb; cases hb
      · rw [hba]; exact h.own a o' (by rw [hp, ← h1]; exact hb)
    · rw [hpc b hba] at hb; exact h.own b o' hb
  · by_cases hba : b = a
    · rw [hba, hp']; exact hex
    · rw [hpc b hba]; exact h.noexit b
  · rw [hu]; exact h.unborn o' (by omega)
  · have g := h.born o' (by omega) ((hu _).mp h1)
    by_cases hoo : o' = o
    · rw [hoo] at h1; exact absurd ((hu _).mp h1) hosid.1
    · rw [hobj o' hoo]; exact g
  · by_cases hoo : o' = o
    · rw [hoo]; exact hobjs
    · have := h.objs o'
      rw [hph o' hoo]
      revert this
      cases hq : phase (s.pc (.worker o')) with
      | running =>
        simp only [ObjOk, hobj o' hoo, hmap]
        rintro ⟨h1, h2, h3, h4⟩
        refine ⟨h1, h2, h3, h4.imp id ?_⟩
        rintro ⟨b, h5, h6⟩
        have hba : b ≠ a := by
          intro hba
          rw [hba, hp] at h6
          exact hrs o' h6
        exact ⟨b, (hh b hba).mpr h5, by rw [hpc b hba]; exact h6⟩
      | _ => simp only [ObjOk, hobj o' hoo, hmap]; exact fun h => h
  · rw [ne_eq, hu] at ho
    have := h.osid o' ho
    by_cases hoo : o' = o
    · rw [hoo] at this ⊢
      rw [hosid.2.1]
      exact ⟨this.1, fun g => by rw [(hosid.2.2 g).2]; exact this.2 (hosid.2.2 g).1⟩
    · rw [hobj o' hoo]; exact this
  · rw [ne_eq, hu] at h1 h2
    rw [(hal o1 h3).2, (hal o2 h4).2] at h5
    exact h.ids o1 o2 h1 h2 (hal o1 h3).1 (hal o2 h4).1 h5
  · rw [hth] at ht
    have := h.entry t o' ht
    rw [ne_eq, hu]
    by_cases hoo : o' = o
    · rw [hoo] at this ht ⊢
      have g := hentry ⟨t, ht⟩
      exact ⟨g, by rw [(hosid.2.2 g).2]; exact this.2.1, this.2.2⟩
    · rw [hobj o' hoo]; exact this
  · rw [hth]; exact h.keys
  · by_cases hba : b = a
    · rw [hba, hp'] at hb
      have := huser o' hb
      rw [hba, hn]; exact this
    · rw [hpc b hba] at hb
      obtain ⟨h1, h2, h3⟩ := h.user b o' hb
      rw [hn]
      by_cases hoo : o' = o
      · rw [hoo] at h1 h2 ⊢
        obtain ⟨g1, g2⟩ := huser' b hba h1
        exact ⟨g1, by rw [g2]; exact h2, by rw [← hoo]; exact h3⟩
      · rw [hobj o' hoo]; exact ⟨h1, h2, h3⟩
  · by_cases hba : b = a
    · rw [hba, hp']; exact hloc
    · have := h.loc b
      rw [hpc b hba]
      revert this
      cases hq : s.pc b with
      | jaScan => simp only [Loc, hend]; exact fun h => h
      | rsInsert o' =>
        simp only [Loc, hmap]
        refine fun g => ⟨?_, g.2⟩
        by_cases hw : Actor.worker o' = a
        · have hb : s.holder = some b := (h.lock b).mp (by rw [hq]; rfl)
          rcases hphase with h1 | ⟨-, h1⟩
          · rw [hw, hp', h1, ← hp, ← hw]; exact g.1
          · have := (h.lock a).mp (by rw [hp]; exact h1)
            rw [hb] at this
            exact absurd (Option.some.inj this) hba
        · rw [hpc _ hw]; exact g.1
      | rsEnter o' => simp only [Loc, hu]; exact fun h => h
      | rsCreate o' => simp only [Loc, hu]; exact fun h => h
      | rsLeave o' => simp only [Loc, ne_eq, hu]; exact fun h => h
      | joAssert o' => simp only [Loc, ne_eq, hu]; exact fun h => h
      | joWait o' => simp only [Loc, ne_eq, hu]; exact fun h => h
      | joEnter o' => exact hj _
      | joFind o' => exact hj _
      | joErase o' => simp only [Loc, hmap]; exact fun g => ⟨hj _ g.1, g.2⟩
      | joDec o' => simp only [Loc, hmap]; exact fun g => ⟨hj _ g.1, g.2⟩
      | joLeave o' f => simp only [Loc, hmap]; exact fun g => ⟨hj _ g.1, g.2⟩
      | dsCheck o' => exact he _
      | reEnter o' => exact he _
      | reFind o' => exact he _
      | reState o' => simp only [Loc, hmap]; exact fun g => ⟨hdone _ g.1, g.2⟩
      | reDec o' => simp only [Loc, hmap]; exact fun g => ⟨hdone _ g.1, g.2⟩
      | reErase o' => simp only [Loc, hmap]; exact fun g => ⟨hdone _ g.1, g.2⟩
      | reLeave o' f => simp only [Loc, hmap]; exact fun g => ⟨hdone _ g.1, g.2⟩
      | reClear o' => simp only [Loc, hmap]; exact fun g => ⟨hdone _ g.1, g.2⟩
      | jaErase t o' => simp only [Loc, hth]; exact fun g => ⟨g.1, hdone _ g.2⟩
      | jaAssert t o' => simp only [Loc, hmap, hth]; exact fun g => ⟨hdone _ g.1, g.2⟩
      | jaDec o' => simp only [Loc, hmap]; exact fun g => ⟨hdone _ g.1, g.2⟩
      | jaLeave o' => simp only [Loc, hmap]; exact fun g => ⟨hdone _ g.1, g.2⟩
      | _ => simp only [Loc]; exact fun h => h
  · have hba : b ≠ a := by
      intro hba
      rw [hba, hp'] at hb
      exact hnw.2 hb
    rw [hpc b hba] at hb
    rw [hend]
    refine (h.waiting b hb).imp id ?_
    rintro ⟨c, o', g1, g2⟩
    have hca : c ≠ a := by
      intro hca
      rw [hca, hp] at g2
      exact hnc o' g2
    exact ⟨c, o', (hh c hca).mpr g1, by rw [hpc c hca]; exact g2⟩

/-! ### The list of threads -/

theorem filter_key {P : Id × Nat → Bool} {t : Id} {o : Nat} (hP : P (t, o) = true) : ∀ m : List (Id × Nat), (m.map Prod.fst).Nodup → (t, o) ∈ m →
    ((m.filter (fun e => e.1 != t)).filter P).length + 1 = (m.filter P).length := by
  intro m
  induction m with
  | nil => intro _ h; cases h
  | cons e m ih =>
    intro hnd hm
    rw [List.map_cons, List.nodup_cons] at hnd
    rcases List.mem_cons.mp hm with rfl | hm
    · have hall : m.filter (fun e => e.1 != t) = m := by
        rw [List.filter_eq_self]
        intro f hf
        simp only [bne_iff_ne, ne_eq]
        exact fun hft => hnd.1 (List.mem_map.mpr ⟨f, hf, hft⟩)
      simp [hall, hP]
    · have hne : e.1 ≠ t := fun het => hnd.1 (List.mem_map.mpr ⟨(t, o), hm, het.symm⟩)
      rw [List.filter_cons_of_pos (by simpa using hne)]
      by_cases hPe : P e = true
      · rw [List.filter_cons_of_pos hPe, List.filter_cons_of_pos hPe]
        simp only [List.length_cons]
        have := ih hnd.2 hm
        omega
      · rw [List.filter_cons_of_neg hPe, List.filter_cons_of_neg hPe]
        exact ih hnd.2 hm

theorem find_some {m : List (Id × Nat)} {t : Id} : (find m (some t)).isSome = true ↔ ∃ o, (t, o) ∈ m := by
  unfold find
  rw [Option.isSome_map, List.find?_isSome]
  constructor
  · rintro ⟨⟨t', o⟩, h1, h2⟩
    simp only [beq_iff_eq] at h2
    subst h2
    exact ⟨o, h1⟩
  · rintro ⟨o, h⟩
    exact ⟨(t, o), h, by simp⟩

/-- the list has a Thread under its own id, if at all -/
theorem find_own {s : State} (h : Inv s) {o : Nat} (hst : s.pc (.worker o) ≠ .unstarted) (hal : (s.obj o).alive = true) : (find s.threads (s.obj o).id).isSome = true ↔ InMap s o := by
  obtain ⟨⟨k, hk⟩, hid⟩ := h.osid o hst
  have hid := (hid hal).trans hk
  rw [hid, find_some]
  constructor
  · rintro ⟨o', ho'⟩
    obtain ⟨h1, h2, h3⟩ := h.entry _ _ ho'
    have := h.ids o o' hst h3 hal h1 (by rw [hid, h2])
    exact ⟨_, by rw [this]; exact ho'⟩
  · rintro ⟨t, ht⟩
    have := (h.entry _ _ ht).2.1
    rw [hid] at this
    cases this
    exact ⟨o, ht⟩

/-- where nobody but `a` is within the latch -/
theorem others_out {s : State} (h : Inv s) {a : Actor} (ha : s.holder = some a) {b : Actor} (hb : b ≠ a) : crit (s.pc b) = false := by
  cases hc : crit (s.pc b) with
  | false => rfl
  | true =>
    have := (h.lock b).mp hc
    rw [ha] at this
    cases this
    exact absurd rfl hb

/-- Erasing the entry of a Thread whose thread has ended -/
theorem inv_erase {s s' : State} (h : Inv s) (a : Actor) (t : Id) (o : Nat) (p p' : Pc) (hp : s.pc a = p) (hcp : crit p = true) (hpp : phase p = .running) (hm : (t, o) ∈ s.threads)
    (hd : s.pc (.worker o) = .done) (hs' : s' = { s with threads := erase s.threads (some t), pc := upd s.pc a p' })
    (hcp' : crit p' = true) (hpp' : phase p' = .running) (hproc : procOf p' = none) (hex : inExit p' = false) (hrs : ∀ o, p ≠ .rsInsert o)
    (hop : ∀ o', opOn p' = some o' → opOn p = some o') (hadj : adj p' = adj p + 1) (hloc : ¬ InMap s' o → (∀ e ∈ s'.threads, e.1 ≠ t) → Loc s' p') : Inv s' := by
  have hha : s.holder = some a := (h.lock a).mp (by rw [hp]; exact hcp)
  have hwa : ∀ o', Actor.worker o' = a → phase (s.pc (.worker o')) = .running := fun o' g => by rw [g, hp]; exact hpp
  have hpcw : ∀ b, phase (s'.pc b) = phase (s.pc b) := by
    intro b
    rw [hs']
    by_cases hb : b = a
    · rw [hb]; simp only [upd_same]; rw [hp, hpp, hpp']
    · simp only [upd_other _ _ _ _ hb]
  have hu : ∀ b, s'.pc b = .unstarted ↔ s.pc b = .unstarted := fun b => by rw [phase_unstarted, phase_unstarted, hpcw]
  have hdn : ∀ b, s'.pc b = .done ↔ s.pc b = .done := fun b => by rw [phase_done, phase_done, hpcw]
  have hobj : s'.obj = s.obj := by rw [hs']
  have hpa : s'.pc a = p' := by rw [hs']; exact upd_same _ _ _
  have hpb : ∀ b, b ≠ a → s'.pc b = s.pc b := fun b hb => by rw [hs']; exact upd_other _ _ _ _ hb
  have hhs : s'.holder = s.holder := by rw [hs']
  have hth : s'.threads = s.threads.filter (fun e => e.1 != t) := by rw [hs']; rfl
  have hmem : ∀ e, e ∈ s'.threads ↔ e ∈ s.threads ∧ e.1 ≠ t := fun e => by rw [hth]; simp
  have hsub : ∀ o', InMap s' o' → InMap s o' := fun o' ⟨t', g⟩ => ⟨t', ((hmem _).mp g).1⟩
  have hkeep : ∀ o', o' ≠ o → InMap s o' → InMap s' o' := by
    rintro o' hne ⟨t', g⟩
    refine ⟨t', (hmem _).mpr ⟨g, ?_⟩⟩
    intro (htt : t' = t)
    subst htt
    obtain ⟨a1, a2, a3⟩ := h.entry _ _ g
    obtain ⟨b1, b2, b3⟩ := h.entry _ _ hm
    exact hne (h.ids _ _ a3 b3 a1 b1 (by rw [a2, b2]))
  have hno : ¬ InMap s' o := by
    rintro ⟨t', g⟩
    obtain ⟨g1, g2⟩ := (hmem _).mp g
    have e1 := (h.entry _ _ g1).2.1
    have e2 := (h.entry _ _ hm).2.1
    rw [e1] at e2
    cases e2
    exact g2 rfl
  have hend : isEnded s (t, o) = true := by
    have := h.objs o
    rw [hd] at this
    simp only [isEnded, this.1, beq_self_eq_true]
  refine ⟨fun b => ?_, fun b o' hb => ?_, fun b => ?_, fun o' ho => ?_, fun o' ho h1 => ?_, fun o' => ?_, fun o' ho => ?_, fun o1 o2 h1 h2 h3 h4 h5 => ?_, fun t' o' ht => ?_, ?_, fun b o' hb => ?_,
    fun b => ?_, ?_, fun b hb => ?_, by rw [hs']; exact h.nofault⟩
  · by_cases hb : b = a
    · rw [hb, hpa, hhs, hha]; simp [hcp']
    · rw [hpb b hb, hhs]; exact h.lock b
  · by_cases hba : b = a
    · rw [hba, hpa, hproc] at hb; cases hb
    · rw [hpb b hba] at hb; exact h.own b o' hb
  · by_cases hba : b = a
    · rw [hba, hpa]; exact hex
    · rw [hpb b hba]; exact h.noexit b
  · rw [hu]; exact h.unborn o' (by rw [hs'] at ho; exact ho)
  · rw [hobj]; exact h.born o' (by rw [hs'] at ho; exact ho) ((hu _).mp h1)
  · have := h.objs o'
    rw [hpcw]
    by_cases hoo : o' = o
    · subst hoo
      rw [hd] at this ⊢
      simp only [phase, ObjOk, hobj] at this ⊢
      exact this
    · revert this
      cases hq : phase (s.pc (.worker o')) with
      | unstarted => simp only [ObjOk, hobj]; exact fun g => ⟨g.1, g.2.1, fun g' => g.2.2 (hsub _ g')⟩
      | running =>
        simp only [ObjOk, hobj]
        rintro ⟨h1, h2, h3, h4⟩
        refine ⟨h1, h2, h3, h4.imp (hkeep _ hoo) ?_⟩
        rintro ⟨b, h5, h6⟩
        have hba : b ≠ a := by
          intro hba
          rw [hba, hp] at h6
          exact hrs o' h6
        exact ⟨b, by rw [hhs]; exact h5, by rw [hpb b hba]; exact h6⟩
      | ending => simp only [ObjOk, hobj]; exact fun g => ⟨g.1, g.2.1, g.2.2.1, hkeep _ hoo g.2.2.2⟩
      | done => simp only [ObjOk, hobj]; exact fun g => g
  · rw [hobj]; exact h.osid o' (fun g => ho ((hu _).mpr g))
  · rw [hobj] at h3 h4 h5; exact h.ids o1 o2 (fun g => h1 ((hu _).mpr g)) (fun g => h2 ((hu _).mpr g)) h3 h4 h5
  · rw [hobj, ne_eq, hu]; exact h.entry t' o' ((hmem _).mp ht).1
  · rw [hth]; exact h.keys.sublist (List.Sublist.map _ List.filter_sublist)
  · have hn : s'.n = s.n := by rw [hs']
    rw [hobj, hn]
    by_cases hba : b = a
    · rw [hba, hpa] at hb
      rw [hba]; exact h.user a o' (by rw [hp]; exact hop o' hb)
    · rw [hpb b hba] at hb; exact h.user b o' hb
  · by_cases hba : b = a
    · rw [hba, hpa]; exact hloc hno (fun e he => ((hmem e).mp he).2)
    · have hout := others_out h hha hba
      have := h.loc b
      rw [hpb b hba]
      revert this hout
      cases hq : s.pc b with
      | reClear o' => simp only [Loc, hdn]; exact fun _ g => ⟨g.1, fun g' => g.2 (hsub _ g')⟩
      | _ => simp [Loc, crit, hu, hobj]
  · have hl := filter_key hend _ h.keys hm
    have hc : cnt s' + 1 = cnt s := by
      have : isEnded s' = isEnded s := by funext e; simp only [isEnded, hobj]
      simp only [cnt, hth, this]
      omega
    have hcount := h.count
    have e1 : Th.hadj s' = adj p' := by simp only [Th.hadj, hhs, hha, hpa]
    have e2 : Th.hadj s = adj p := by simp only [Th.hadj, hha, hp]
    have e3 : s'.ended = s.ended := by rw [hs']
    rw [e3, e1]
    rw [e2] at hcount
    omega
  · have hba : b ≠ a := by
      intro hba
      rw [hba, hpa] at hb
      rw [hb] at hcp'
      cases hcp'
    rw [hpb b hba] at hb
    have e3 : s'.ended = s.ended := by rw [hs']
    rw [e3]
    refine (h.waiting b hb).imp id ?_
    rintro ⟨c, o', g1, g2⟩
    rw [hha] at g1
    cases g1
    rw [hp] at g2
    rw [g2] at hpp
    cases hpp

end Strpp.Th
