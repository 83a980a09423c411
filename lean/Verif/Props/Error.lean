import Verif.Proof.Error
import Verif.Props.RefCount
/-! C65: Errors are values, whatever the threads do. -/
namespace Strpp.Err
open Spec

/-- C65. No step of a call in progress faults: no deleted Body is used or deleted again, no assertion fails. -/
theorem C65_no_fault {s : State} {V : View} (h : History s V) (i : Nat) : ∃ s', tick s i = .ok s' := by
  obtain ⟨rc, h1, _⟩ := RC.tick_inv (history_J h).rc i
  exact ⟨⟨rc, s.bodies⟩, by unfold tick; rw [h1, res_bind_ok]⟩

/-- C65. An Error that no thread is writing, made of a number, a text and parameters (itself, or by copying and assigning
Errors, however many times): asking it gives back the text and the parameters, and the number with the two error bits set,
or zero if the number is zero; whatever has become of the other Errors. -/
theorem C65_value {s : State} {V : View} (h : History s V) {v : Nat} (hv : Readable s v) {x : Info}
    (hx : V[v]? = some (some (some x))) :
    defaultText s v = .ok x.text ∧ parameters s v = .ok x.params ∧
    errNum s v = .ok (if x.setmsg = 0#32 then 0#32 else x.setmsg ||| 0xC000000#32) ∧
    int32 s v = .ok (if x.setmsg = 0#32 then 0#32 else x.setmsg ||| 0xC000000#32) := by
  have hJ := history_J h
  obtain ⟨p, hp, hpx⟩ := hJ.live hv hx
  cases p with
  | none => exact absurd hpx (by simp [Ptr])
  | some o =>
    simp only [Ptr] at hpx
    obtain ⟨_, _, _, ho, _⟩ := RC.obj_ok hJ.rc o (by have := RC.V_pos hp; omega)
    have hb : body s v = .ok (some (infoBody x)) := by
      unfold body
      rw [hp]
      simp only [ho, res_bind_ok, hpx]
    have hn : (infoBody x).num = if x.setmsg = 0#32 then 0#32 else x.setmsg ||| 0xC000000#32 := by
      simp only [infoBody, Body.make, ErrNum.ofInt32, bne_iff_ne, ne_eq, ite_not, ErrNum.ERR_FLAG, ErrNum.ERR_CUST]
      split
      · rfl
      · rw [BitVec.or_assoc]; rfl
    unfold defaultText parameters errNum int32
    simp only [hb, res_bind_ok]
    exact ⟨rfl, rfl, by rw [hn], by rw [ErrNum.toInt32, hn]⟩

/-- C65. An Error made of nothing that no thread is writing has number zero ("no error"), no text and no parameters. -/
theorem C65_no_error {s : State} {V : View} (h : History s V) {v : Nat} (hv : Readable s v) (hx : V[v]? = some (some none)) :
    defaultText s v = .ok 0 ∧ parameters s v = .ok 0 ∧ errNum s v = .ok 0#32 ∧ int32 s v = .ok 0#32 := by
  obtain ⟨p, hp, hpx⟩ := (history_J h).live hv hx
  cases p with
  | some o => exact absurd hpx (by simp [Ptr])
  | none =>
    have hb : body s v = .ok none := by unfold body; rw [hp]
    unfold defaultText parameters errNum int32
    simp only [hb, res_bind_ok]
    exact ⟨trivial, trivial, rfl, trivial⟩

/-- C65. The calls in progress end, and the values are not affected by their ending. -/
theorem C65_calls_end {s : State} {V : View} (h : History s V) : ∃ s', History s' V ∧ s'.rc.jobs = [] := by
  have key : ∀ w (s : State), History s V → RC.work s.rc ≤ w → ∃ s', History s' V ∧ s'.rc.jobs = [] := by
    intro w
    induction w with
    | zero =>
      intro s h hw
      refine ⟨s, h, ?_⟩
      rcases hj : s.rc.jobs with _ | ⟨j, js⟩
      · rfl
      · exfalso
        have : 0 < RC.rank j.pc := by cases j.pc <;> simp [RC.rank]
        simp only [RC.work, hj, List.map_cons, List.sum_cons] at hw
        omega
    | succ w ih =>
      intro s h hw
      rcases hj : s.rc.jobs with _ | ⟨j, js⟩
      · exact ⟨s, h, hj⟩
      · obtain ⟨rc, h1, _⟩ := RC.tick_inv (history_J h).rc 0
        have h2 : tick s 0 = .ok ⟨rc, s.bodies⟩ := by unfold tick; rw [h1, res_bind_ok]
        have h3 := RC.C17_calls_end s.rc rc 0 (by rw [hj]; simp) h1
        exact ih _ (History.tick 0 h h2) (by simp only; omega)
  exact key _ s h (Nat.le_refl _)

/-- C65. When no call is in progress, the number of Bodies in memory is at most the number of Error variables, because each
is referred to by one; in particular there is none when all the variables are gone. -/
theorem C65_released {s : State} {V : View} (h : History s V) (hq : s.rc.jobs = []) (o : Nat) (x : RC.Obj)
    (hx : s.rc.objs[o]? = some x) :
    x.live = true ↔ ∃ (v : Nat) (i : Info), V[v]? = some (some (some i)) ∧ RC.Refers s.rc v o := by
  have hJ := history_J h
  have hr : ∀ v, Readable s v := fun v j hj => by rw [hq] at hj; cases hj
  have h1 := hJ.rc.objs o
  rw [hx, hq] at h1
  obtain ⟨a, b, c⟩ := h1
  simp only [RC.P, RC.Z, List.countP_nil, Nat.add_zero] at a b c
  constructor
  · intro hl
    have hpos : 0 < RC.V s.rc.vars o := by
      rcases Nat.eq_zero_or_pos (RC.V s.rc.vars o) with e | e
      · have := (b hl).1 e; omega
      · exact e
    unfold RC.V at hpos
    rw [List.countP_pos_iff] at hpos
    obtain ⟨w, hw, hwe⟩ := hpos
    rw [beq_iff_eq] at hwe
    subst hwe
    obtain ⟨v, hv⟩ := List.mem_iff_getElem?.1 hw
    have h2 := hJ.var (hr v)
    rw [hv] at h2
    rcases hV : V[v]? with _ | _ | _ | i <;> rw [hV] at h2 <;> simp only [Var, Ptr] at h2
    exact ⟨v, i, hV, hv⟩
  · rintro ⟨v, i, _, hv⟩
    cases hl : x.live with
    | true => rfl
    | false => have := (c hl).1; have := RC.V_pos hv; omega

/-- C65. When all the variables are gone and no call is in progress, every Body has been deleted. -/
theorem C65_all_released {s : State} {V : View} (h : History s V) (hq : s.rc.jobs = []) (hV : ∀ w ∈ V, w = none)
    (o : Nat) (x : RC.Obj) (hx : s.rc.objs[o]? = some x) : x.live = false := by
  cases hl : x.live with
  | false => rfl
  | true =>
    obtain ⟨v, i, h1, _⟩ := (C65_released h hq o x hx).1 hl
    have := hV _ (List.mem_of_getElem? h1)
    cases this

theorem live_iff (V : View) (v : Nat) : (∃ x, V[v]? = some (some x)) ↔ (V[v]?.getD none).isSome = true := by
  rcases V[v]? with _ | _ | x <;> simp

instance (V : View) (v : Nat) : Decidable (∃ x, V[v]? = some (some x)) := decidable_of_iff _ (live_iff V v).symm
instance (s : State) (v : Nat) : Decidable (Readable s v) := inferInstanceAs (Decidable (∀ j ∈ s.rc.jobs, j.writes ≠ some v))
instance (s : State) (v : Nat) : Decidable (Idle s v) :=
  inferInstanceAs (Decidable (∀ j ∈ s.rc.jobs, j.writes ≠ some v ∧ j.reads ≠ some v))

instance (s : State) (V : View) : (c : Call) → Decidable (Legal s V c)
  | .none => inferInstanceAs (Decidable True)
  | .make _ _ _ => inferInstanceAs (Decidable True)
  | .copy src => inferInstanceAs (Decidable ((∃ x, V[src]? = some (some x)) ∧ Readable s src))
  | .assign dst src => inferInstanceAs (Decidable
      ((∃ x, V[src]? = some (some x)) ∧ (∃ x, V[dst]? = some (some x)) ∧ Readable s src ∧ Idle s dst))
  | .destroy v => inferInstanceAs (Decidable ((∃ x, V[v]? = some (some x)) ∧ Idle s v))

/-- run a list of starts of calls (if legal) and of steps of the calls in progress -/
def tryRun : State → View → List (Sum Call Nat) → Option (State × View)
  | s, V, [] => some (s, V)
  | s, V, .inl c :: cs => if Legal s V c then tryRun (start s c) (V.call c) cs else none
  | s, V, .inr i :: cs =>
    match tick s i with
    | .ok s => tryRun s V cs
    | .error _ => none

theorem tryRun_history {s s' : State} {V V' : View} (cs : List (Sum Call Nat)) (h : History s V)
    (hr : tryRun s V cs = some (s', V')) : History s' V' := by
  induction cs generalizing s V with
  | nil => cases hr; exact h
  | cons e cs ih =>
    cases e with
    | inl c =>
      simp only [tryRun] at hr
      split at hr
      · rename_i hl; exact ih (History.call c h hl) hr
      · cases hr
    | inr i =>
      simp only [tryRun] at hr
      split at hr
      · rename_i ht; exact ih (History.tick i h ht) hr
      · cases hr

/-- Non-vacuity: an Error is made and copied by two threads at once, one of which assigns "no error" to its copy while
another destroys the original. The remaining copy has the number, the text and the parameters; the history is one of those
the theorems speak of. -/
example : tryRun init []
    [.inl (.make 5#32 100 200), .inr 0, .inr 0, .inr 0, .inl .none, .inl (.copy 0), .inl (.copy 0), .inr 1, .inr 0, .inr 1,
     .inr 0, .inr 1, .inr 0, .inl (.assign 2 1), .inl (.destroy 0), .inr 1, .inr 0, .inr 1, .inr 0, .inr 0] =
    some (⟨⟨[⟨1, true⟩], [none, some none, some none, some (some 0)], []⟩, [⟨0xC000005#32, 100, 200⟩]⟩,
      [none, some none, some none, some (some ⟨5#32, 100, 200⟩)]) := by decide +kernel

end Strpp.Err
