import Verif.Proof.RxStack
/-! C63: what an `RxResult` remembers. -/
set_option linter.unusedSimpArgs false
namespace Strpp.Rx
open Spec

/-- The calls, on an `RxResult` -/
def RVal.call (r : RVal) : Call → Res (Nat × RVal)
  | .set i v => do
    let r ← r.captureSet i v
    .ok (0, r)
  | .push o => do
    let r ← r.pushZero o
    .ok (0, r)
  | .incr o => r.incr o
  | .pop => do
    let r ← r.pop
    .ok (0, r)

def RVal.calls (r : RVal) : List Call → Res (List Nat × RVal)
  | [] => .ok ([], r)
  | c :: cs => do
    let x ← r.call c
    let y ← RVal.calls x.2 cs
    .ok (x.1 :: y.1, y.2)

/-- What can be asked of `r` is answered according to `b` -/
structure Shows (r : RVal) (b : Board) : Prop where
  succeeded : r.succeeded = b.last.isSome
  offset : r.offset = b.first
  captureMax : r.captureMax = b.groups
  start : r.capture 0 = .ok b.first
  stop : r.capture 1 = .ok (b.last.getD 0)
  slot : ∀ k : Nat, 2 ≤ k → k < 2 * b.groups → r.capture k = .ok (b.slot k)
  beyond : ∀ k : Nat, 2 ≤ k → 2 * b.groups ≤ k → r.capture k = .error .assertion
  counterNum : r.counterNum = b.stack.length
  counterGet : ∀ i (x : Nat × Nat), b.stack[i]? = some x → r.counterGet i = .ok x.2
  top : r.top = match b.stack with
    | [] => .error .assertion
    | x :: _ => .ok x

structure Rep (r : RVal) (b : Board) : Prop where
  first : r.cap0 = b.first
  last : r.cap1 = b.last
  caps : ∃ c, r.captures = some c ∧ Holds c b

theorem Rep.shows {r b} (h : Rep r b) : Shows r b := by
  obtain ⟨h1, h2, c, hc, hH⟩ := h
  have hg := hH.groups
  have hu := hH.used
  have hb := hH.base
  have hp := hH.pos
  have hfit := hH.fits
  refine ⟨by unfold RVal.succeeded; rw [h2], h1, by unfold RVal.captureMax; rw [hc]; exact hg, ?_, ?_, ?_, ?_, ?_, ?_, ?_⟩
  · unfold RVal.capture; rw [if_pos (by omega), if_pos rfl, h1]
  · unfold RVal.capture; rw [if_pos (by omega), if_neg (by omega), h2]
  · intro k hk1 hk2
    unfold RVal.capture
    rw [if_neg (by omega), hc]
    dsimp only
    unfold Caps.capture
    rw [decide_eq_false (by omega), decide_eq_false (by omega)]
    simp only [Bool.or_self, Bool.not_false, assert_true, res_bind_ok]
    rw [decide_eq_false (by omega), Bool.false_or, Bool.false_or]
    rcases hH.vals with ⟨v1, v2, v3⟩ | hF
    · rw [v1, if_pos (by rfl), v3]
    · have hl := hF.len
      rw [if_neg (by simp only [beq_iff_eq]; omega)]
      refine at_ok ?_
      rw [show ((k : Int) - 2).toNat = k - 2 by omega, hF.slots _ (by omega), show k - 2 + 2 = k by omega]
  · intro k hk1 hk2
    unfold RVal.capture
    rw [if_neg (by omega), hc]
    dsimp only
    unfold Caps.capture
    rw [decide_eq_true (show (k : Int) ≥ (c.captureMax : Int) * 2 by omega), Bool.or_true]
    rfl
  · unfold RVal.counterNum; rw [hc]; dsimp only; omega
  · intro i x hx
    have hi : i < b.stack.length := (List.getElem?_eq_some_iff.1 hx).1
    unfold RVal.counterGet
    rw [hc]
    dsimp only
    unfold Caps.counterGet
    rcases hH.vals with ⟨-, v2, -⟩ | hF
    · rw [v2] at hi; simp at hi
    · have hl := hF.len
      rw [if_pos (by omega), rd_eq_ok, ← (hF.stack i x hx).2]
      congr 1; omega
  · unfold RVal.top
    rw [hc]
    dsimp only
    unfold Caps.top
    cases hst : b.stack with
    | nil =>
      rw [hst, List.length_nil] at hu
      rw [decide_eq_false (by omega)]
      rfl
    | cons x st =>
      have hl : b.stack.length = st.length + 1 := by rw [hst]; rfl
      rcases hH.vals with ⟨-, v2, -⟩ | hF
      · rw [v2] at hst; cases hst
      · obtain ⟨g1, g2⟩ := hF.stack 0 x (by rw [hst]; rfl)
        rw [decide_eq_true (by omega), assert_true, res_bind_ok, at_ok (v := x.1) (by rw [← g1]; congr 1; omega), res_bind_ok,
          at_ok (v := x.2) (by rw [← g2]; congr 1; omega), res_bind_ok]

theorem Rep.call {r b} (h : Rep r b) (k : Call) :
    match b.call k with
    | none => r.call k = .error .assertion
    | some (n, b') => ∃ r', r.call k = .ok (n, r') ∧ Rep r' b' := by
  obtain ⟨h1, h2, c, hc, hH⟩ := h
  cases k with
  | set i v =>
    show match b.call (.set i v) with
      | none => (r.captureSet i v >>= fun r => (.ok (0, r) : Res (Nat × RVal))) = _
      | some (n, b') => ∃ r', (r.captureSet i v >>= fun r => (.ok (0, r) : Res (Nat × RVal))) = _ ∧ _
    unfold RVal.captureSet
    by_cases hi : i ≤ 1
    · rw [if_pos hi]
      simp only [Board.call, res_bind_ok]
      by_cases h0 : i = 0
      · rw [if_pos h0, if_pos h0]
        exact ⟨_, rfl, rfl, h2, c, hc, ⟨hH.1, hH.2, hH.3, hH.4, hH.5, hH.6, hH.7.imp id fun h => ⟨h.1, h.2, h.3⟩⟩⟩
      · rw [if_neg h0, if_neg h0, if_pos hi]
        exact ⟨_, rfl, h1, rfl, c, hc, ⟨hH.1, hH.2, hH.3, hH.4, hH.5, hH.6, hH.7.imp id fun h => ⟨h.1, h.2, h.3⟩⟩⟩
    · rw [if_neg hi, hc]
      dsimp only
      have := hH.captureSet i v (by omega)
      have hkeep : ∀ n b', b.call (.set i v) = some (n, b') → n = 0 ∧ b'.first = b.first ∧ b'.last = b.last := by
        intro n b' hb'
        simp only [Board.call] at hb'
        rw [if_neg (by omega), if_neg (by omega)] at hb'
        split at hb'
        · cases hb'; exact ⟨rfl, rfl, rfl⟩
        · cases hb'
      cases hb : b.call (.set i v) with
      | none => rw [hb] at this; dsimp only at this ⊢; rw [this]; rfl
      | some x =>
        obtain ⟨n, b'⟩ := x
        rw [hb] at this
        obtain ⟨c', g1, g2⟩ := this
        obtain ⟨rfl, k1, k2⟩ := hkeep n b' hb
        dsimp only
        rw [g1]
        exact ⟨_, rfl, h1.trans k1.symm, h2.trans k2.symm, c', rfl, g2⟩
  | push o =>
    show match b.call (.push o) with
      | none => (r.pushZero o >>= fun r => (.ok (0, r) : Res (Nat × RVal))) = _
      | some (n, b') => ∃ r', (r.pushZero o >>= fun r => (.ok (0, r) : Res (Nat × RVal))) = _ ∧ _
    unfold RVal.pushZero
    rw [hc]
    have := hH.pushZero o
    have hkeep : ∀ n b', b.call (.push o) = some (n, b') → n = 0 ∧ b'.first = b.first ∧ b'.last = b.last := by
      intro n b' hb'
      simp only [Board.call] at hb'
      split at hb'
      · cases hb'; exact ⟨rfl, rfl, rfl⟩
      · cases hb'
    cases hb : b.call (.push o) with
    | none => rw [hb] at this; dsimp only at this ⊢; rw [this]; rfl
    | some x =>
      obtain ⟨n, b'⟩ := x
      rw [hb] at this
      obtain ⟨c', g1, g2⟩ := this
      obtain ⟨rfl, k1, k2⟩ := hkeep n b' hb
      dsimp only
      rw [g1]
      exact ⟨_, rfl, h1.trans k1.symm, h2.trans k2.symm, c', rfl, g2⟩
  | incr o =>
    show match b.call (.incr o) with
      | none => r.incr o = _
      | some (n, b') => ∃ r', r.incr o = _ ∧ _
    unfold RVal.incr
    rw [hc]
    have := hH.incr o
    have hkeep : ∀ n b', b.call (.incr o) = some (n, b') → b'.first = b.first ∧ b'.last = b.last := by
      intro n b' hb'
      simp only [Board.call] at hb'
      split at hb'
      · cases hb'
      · cases hb'; exact ⟨rfl, rfl⟩
    cases hb : b.call (.incr o) with
    | none => rw [hb] at this; dsimp only at this ⊢; rw [this]; rfl
    | some x =>
      obtain ⟨n, b'⟩ := x
      rw [hb] at this
      obtain ⟨c', g1, g2⟩ := this
      obtain ⟨k1, k2⟩ := hkeep n b' hb
      dsimp only
      rw [g1]
      exact ⟨_, rfl, h1.trans k1.symm, h2.trans k2.symm, c', rfl, g2⟩
  | pop =>
    show match b.call .pop with
      | none => (r.pop >>= fun r => (.ok (0, r) : Res (Nat × RVal))) = _
      | some (n, b') => ∃ r', (r.pop >>= fun r => (.ok (0, r) : Res (Nat × RVal))) = _ ∧ _
    unfold RVal.pop
    rw [hc]
    have := hH.pop
    have hkeep : ∀ n b', b.call .pop = some (n, b') → n = 0 ∧ b'.first = b.first ∧ b'.last = b.last := by
      intro n b' hb'
      simp only [Board.call] at hb'
      split at hb'
      · cases hb'
      · cases hb'; exact ⟨rfl, rfl, rfl⟩
    cases hb : b.call .pop with
    | none => rw [hb] at this; dsimp only at this ⊢; rw [this]; rfl
    | some x =>
      obtain ⟨n, b'⟩ := x
      rw [hb] at this
      obtain ⟨c', g1, g2⟩ := this
      obtain ⟨rfl, k1, k2⟩ := hkeep n b' hb
      dsimp only
      rw [g1]
      exact ⟨_, rfl, h1.trans k1.symm, h2.trans k2.symm, c', rfl, g2⟩

theorem Rep.calls {r b} (h : Rep r b) (cs : List Call) :
    match b.calls cs with
    | none => r.calls cs = .error .assertion
    | some (ns, b') => ∃ r', r.calls cs = .ok (ns, r') ∧ Rep r' b' := by
  induction cs generalizing r b with
  | nil => exact ⟨r, rfl, h⟩
  | cons k cs ih =>
    have h1 := h.call k
    simp only [Board.calls]
    show match (match b.call k with | none => none | some (n, b) => _ : Option (List Nat × Board)) with
      | none => (r.call k >>= fun x => RVal.calls x.2 cs >>= fun y => (.ok (x.1 :: y.1, y.2) : Res (List Nat × RVal))) = _
      | some (ns, b') => ∃ r', (r.call k >>= fun x => RVal.calls x.2 cs >>= fun y => (.ok (x.1 :: y.1, y.2) : Res (List Nat × RVal))) = _ ∧ _
    cases hb : b.call k with
    | none => rw [hb] at h1; dsimp only at h1 ⊢; rw [h1]; rfl
    | some x =>
      obtain ⟨n, b1⟩ := x
      rw [hb] at h1
      obtain ⟨r1, h1, h2⟩ := h1
      have h3 := ih h2
      dsimp only
      rw [h1, res_bind_ok]
      cases hb1 : b1.calls cs with
      | none => rw [hb1] at h3; dsimp only at h3 ⊢; rw [h3]; rfl
      | some x =>
        obtain ⟨ns, b2⟩ := x
        rw [hb1] at h3
        obtain ⟨r2, h3, h4⟩ := h3
        dsimp only
        rw [h3]
        exact ⟨r2, rfl, h4⟩

theorem rep_new (cm pm : Nat) (h1 : cm ≤ 127) (h2 : 1 ≤ pm) : Rep (RVal.new cm pm) (Board.new cm pm) :=
  ⟨rfl, rfl, _, rfl, holds_new cm pm h1 h2⟩

/-- Any history of calls on an `RxResult`: they return what the calls on the board return, they abort exactly if one of them is not
allowed there, and in the end everything that can be asked is answered according to the board -/
theorem C63_history (cm pm : Nat) (h1 : cm ≤ 127) (h2 : 1 ≤ pm) (cs : List Call) :
    match (Board.new cm pm).calls cs with
    | none => (RVal.new cm pm).calls cs = .error .assertion
    | some (ns, b) => ∃ r, (RVal.new cm pm).calls cs = .ok (ns, r) ∧ Shows r b := by
  have := (rep_new cm pm h1 h2).calls cs
  split
  · rename_i h; rw [h] at this; exact this
  · rename_i ns b h
    rw [h] at this
    obtain ⟨r, h1, h2⟩ := this
    exact ⟨r, h1, h2.shows⟩

theorem sameFrom_spec {r o : RVal} {b d : Board} (hr : Shows r b) (ho : Shows o d) (he : b.stack.length = d.stack.length) :
    ∀ (k i : Nat), i + k = b.stack.length →
      r.sameFrom o k i = .ok (((b.stack.drop i).map Prod.snd) == ((d.stack.drop i).map Prod.snd)) := by
  intro k
  induction k with
  | zero =>
    intro i hi
    rw [List.drop_eq_nil_of_le (by omega), List.drop_eq_nil_of_le (by omega)]
    rfl
  | succ k ih =>
    intro i hi
    have h1 : i < b.stack.length := by omega
    have h2 : i < d.stack.length := by omega
    have g1 := hr.counterGet i _ (List.getElem?_eq_getElem h1)
    have g2 := ho.counterGet i _ (List.getElem?_eq_getElem h2)
    rw [List.drop_eq_getElem_cons h1, List.drop_eq_getElem_cons h2, List.map_cons, List.map_cons]
    unfold RVal.sameFrom
    rw [g1, res_bind_ok, g2, res_bind_ok]
    by_cases h : b.stack[i].2 = d.stack[i].2
    · rw [if_neg (by simpa using h), ih (i + 1) (by omega), h]
      simp
    · rw [if_pos (by simpa using h)]
      simp [h]

/-- Comparing two results: the same number of counters, with the same counts (the offsets are not compared) -/
theorem C63_countersSame {r o : RVal} {b d : Board} (hr : Shows r b) (ho : Shows o d) :
    r.countersSame o = .ok (b.stack.map Prod.snd == d.stack.map Prod.snd) := by
  unfold RVal.countersSame
  rw [hr.counterNum, ho.counterNum]
  by_cases h : b.stack.length = d.stack.length
  · rw [if_neg (by simpa using h), sameFrom_spec hr ho h _ 0 (by omega)]
    rfl
  · rw [if_pos (by simpa using h)]
    have : (b.stack.map Prod.snd == d.stack.map Prod.snd) = false := by
      rw [beq_eq_false_iff_ne]
      intro he
      have := congrArg List.length he
      simp only [List.length_map] at this
      exact h this
    rw [this]

/-- A result that has failed: no counters, and nothing was captured -/
theorem C63_failed : RVal.fail.succeeded = false ∧ RVal.fail.counterNum = 0 ∧ RVal.fail.captureMax = 1 ∧
    ∀ k : Int, RVal.fail.capture k = .ok 0 := by
  refine ⟨rfl, rfl, rfl, fun k => ?_⟩
  unfold RVal.capture
  split
  · split <;> rfl
  · rfl

/-- More than 127 counters cannot be counted: after the 128th there are none -/
theorem C63_limit : ((RVal.new 128 1).calls (List.replicate 128 (.push 7))).map (fun x => x.2.counterNum) = .ok 0 := by decide +kernel

/-- Two counters, the upper one is counted up twice and dropped, a group is captured -/
example : ((Board.new 3 2).calls [.push 5, .push 6, .incr 8, .incr 9, .set 2 4, .set 3 9, .pop, .incr 12]).map (fun x => (x.1, x.2.stack, x.2.slot 2, x.2.slot 3))
    = some ([0, 0, 1, 2, 0, 0, 0, 1], [(12, 1)], 4, 9) := by decide

end Strpp.Rx
