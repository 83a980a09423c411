import Verif.Model.RxMatch
import Verif.Spec.RxStack
import Verif.Proof.RxResult
/-! `RxResult` implements `Board`. -/
set_option linter.unusedSimpArgs false
set_option linter.unusedVariables false
namespace Strpp.Rx
open Spec

/-- The array holds captures and counters -/
structure Full (c : Caps) (b : Board) : Prop where
  len : c.values.length = 2 * b.groups - 2 + 2 * b.room
  slots : ∀ k, k < 2 * b.groups - 2 → c.values[k]? = some (b.slot (k + 2))
  stack : ∀ (i : Nat) (x : Nat × Nat), b.stack[i]? = some x →
    c.values[2 * b.groups - 2 + 2 * b.stack.length - 2 * i - 2]? = some x.1 ∧
    c.values[2 * b.groups - 2 + 2 * b.stack.length - 2 * i - 1]? = some x.2

/-- `c` holds the captures and counters of `b` -/
structure Holds (c : Caps) (b : Board) : Prop where
  groups : c.captureMax = b.groups
  pos : 1 ≤ b.groups
  room : c.counterMax = b.room
  few : b.room ≤ 127
  used : c.used = 2 * b.stack.length
  fits : b.stack.length ≤ b.room
  vals : (c.values = [] ∧ b.stack = [] ∧ ∀ k, b.slot k = 0) ∨ Full c b

theorem holds_new (cm pm : Nat) (h1 : cm ≤ 127) (h2 : 1 ≤ pm) : Holds (Caps.new cm pm) (Board.new cm pm) :=
  ⟨rfl, h2, Nat.mod_eq_of_lt (by omega), h1, rfl, by simp [Board.new], .inl ⟨rfl, rfl, fun _ => rfl⟩⟩

theorem Holds.base {c b} (h : Holds c b) : c.base = 2 * b.groups - 2 := by
  unfold Caps.base; rw [h.groups, Nat.mul_comm]

/-- after `reserve` -/
theorem Holds.reserve {c b} (h : Holds c b) : Holds c.reserve b ∧ Full c.reserve b := by
  have hp := h.pos
  have key : Full c.reserve b ∧ c.reserve.captureMax = c.captureMax ∧ c.reserve.counterMax = c.counterMax ∧ c.reserve.used = c.used := by
    unfold Caps.reserve
    split
    · rename_i hl
      refine ⟨h.vals.resolve_left ?_, rfl, rfl, rfl⟩
      rintro ⟨h1, -⟩
      rw [h1] at hl; simp at hl
    · rename_i hl
      have hv : c.values = [] := List.length_eq_zero_iff.1 (by omega)
      rcases h.vals with ⟨-, h1, h2⟩ | hF
      · refine ⟨⟨?_, ?_, ?_⟩, rfl, rfl, rfl⟩
        · rw [List.length_replicate, h.groups, h.room]; omega
        · intro k hk
          rw [h2, List.getElem?_replicate, if_pos (by rw [h.groups, h.room]; omega)]
        · rw [h1]; intro i x hx; simp at hx
      · have hl := hF.len
        rw [hv, List.length_nil] at hl
        have h0 : (c.captureMax - 1) * 2 + c.counterMax * 2 = 0 := by rw [h.groups, h.room]; omega
        rw [h0, List.replicate_zero, ← hv]
        exact ⟨hF, rfl, rfl, rfl⟩
  obtain ⟨hF, k1, k2, k3⟩ := key
  exact ⟨⟨k1.trans h.groups, hp, k2.trans h.room, h.few, k3.trans h.used, h.fits, .inr hF⟩, hF⟩

theorem put_ok {c : Caps} {i v : Nat} (h : i < c.values.length) : c.put i v = .ok { c with values := c.values.set i v } := if_pos h

theorem at_ok {c : Caps} {i v : Nat} (h : c.values[i]? = some v) : c.at i = .ok v := by unfold Caps.at; rw [h]

theorem Holds.pushZero {c b} (h : Holds c b) (o : Nat) :
    match b.call (.push o) with
    | none => c.pushZero o = .error .assertion
    | some (_, b') => ∃ c', c.pushZero o = .ok c' ∧ Holds c' b' := by
  obtain ⟨hr, hF⟩ := h.reserve
  have hu := hr.used
  have hm := hr.room
  have hb := hr.base
  have hfew := h.few
  have hlen := hF.len
  simp only [Board.call]
  unfold Caps.pushZero
  by_cases hl : b.stack.length < b.room
  · rw [if_pos hl]
    dsimp only
    rw [decide_eq_true (by omega), assert_true, res_bind_ok, put_ok (by omega), res_bind_ok]
    have h2 : (c.reserve.used + 1) % 256 = c.reserve.used + 1 := Nat.mod_eq_of_lt (by omega)
    have h3 : (c.reserve.used + 2) % 256 = c.reserve.used + 2 := Nat.mod_eq_of_lt (by omega)
    have hb' : (Caps.base { c.reserve with values := c.reserve.values.set (c.reserve.base + c.reserve.used) o }) = c.reserve.base := rfl
    dsimp only
    rw [hb', h2, put_ok (by simp only [List.length_set]; omega), res_bind_ok]
    refine ⟨_, rfl, hr.groups, hr.pos, hr.room, hr.few, ?_, ?_, .inr ⟨?_, ?_, ?_⟩⟩
    · simp only [List.length_cons]; omega
    · simp only [List.length_cons]; omega
    · simp only [List.length_set]; exact hlen
    · intro k hk
      dsimp only at hk ⊢
      rw [List.getElem?_set_ne (by omega), List.getElem?_set_ne (by omega)]
      exact hF.slots k hk
    · intro i x hx
      dsimp only at hx ⊢
      cases i with
      | zero =>
        simp only [List.getElem?_cons_zero, Option.some.injEq] at hx
        subst hx
        simp only [List.length_cons]
        refine ⟨?_, ?_⟩
        · rw [List.getElem?_set_ne (by omega)]
          rw [show 2 * b.groups - 2 + 2 * (b.stack.length + 1) - 2 * 0 - 2 = c.reserve.base + c.reserve.used by omega,
            List.getElem?_set_self (by omega)]
        · rw [show 2 * b.groups - 2 + 2 * (b.stack.length + 1) - 2 * 0 - 1 = c.reserve.base + (c.reserve.used + 1) by omega,
            List.getElem?_set_self (by rw [List.length_set]; omega)]
      | succ i =>
        rw [List.getElem?_cons_succ] at hx
        have hi : i < b.stack.length := (List.getElem?_eq_some_iff.1 hx).1
        obtain ⟨h4, h5⟩ := hF.stack i x hx
        simp only [List.length_cons]
        rw [List.getElem?_set_ne (by omega), List.getElem?_set_ne (by omega), List.getElem?_set_ne (by omega), List.getElem?_set_ne (by omega),
          show 2 * b.groups - 2 + 2 * (b.stack.length + 1) - 2 * (i + 1) - 2 = 2 * b.groups - 2 + 2 * b.stack.length - 2 * i - 2 by omega,
          show 2 * b.groups - 2 + 2 * (b.stack.length + 1) - 2 * (i + 1) - 1 = 2 * b.groups - 2 + 2 * b.stack.length - 2 * i - 1 by omega]
        exact ⟨h4, h5⟩
  · rw [if_neg hl]
    dsimp only
    rw [decide_eq_false (by omega)]
    rfl

theorem Holds.incr {c b} (h : Holds c b) (o : Nat) :
    match b.call (.incr o) with
    | none => c.incr o = .error .assertion
    | some (n, b') => ∃ c', c.incr o = .ok (n, c') ∧ Holds c' b' := by
  obtain ⟨hr, hF⟩ := h.reserve
  have hu := hr.used
  have hm := hr.room
  have hb := hr.base
  have hlen := hF.len
  have hfit := hr.fits
  simp only [Board.call]
  unfold Caps.incr
  cases hst : b.stack with
  | nil =>
    rw [hst, List.length_nil] at hu
    dsimp only
    rw [decide_eq_false (by omega)]
    rfl
  | cons x r =>
    obtain ⟨o0, n⟩ := x
    have hl : b.stack.length = r.length + 1 := by rw [hst]; rfl
    obtain ⟨h1, h2⟩ := hF.stack 0 (o0, n) (by rw [hst]; rfl)
    dsimp only at h1 h2 ⊢
    rw [decide_eq_true (by omega), assert_true, res_bind_ok, put_ok (by omega), res_bind_ok]
    dsimp only [Caps.base]
    have hb2 : c.reserve.captureMax * 2 - 2 = 2 * b.groups - 2 := hb
    rw [hb2]
    rw [at_ok (v := n) (by
      dsimp only
      rw [List.getElem?_set_ne (by omega), ← h2]
      congr 1; omega), res_bind_ok, put_ok (by simp only [List.length_set]; omega), res_bind_ok]
    refine ⟨_, rfl, hr.groups, hr.pos, hr.room, hr.few, ?_, ?_, .inr ⟨?_, ?_, ?_⟩⟩
    · simp only [List.length_cons]; omega
    · simp only [List.length_cons]; omega
    · simp only [List.length_set]; exact hlen
    · intro k hk
      dsimp only at hk ⊢
      rw [List.getElem?_set_ne (by omega), List.getElem?_set_ne (by omega)]
      exact hF.slots k hk
    · intro i x hx
      dsimp only at hx ⊢
      simp only [List.length_cons]
      cases i with
      | zero =>
        simp only [List.getElem?_cons_zero, Option.some.injEq] at hx
        subst hx
        refine ⟨?_, ?_⟩
        · rw [List.getElem?_set_ne (by omega)]
          rw [show 2 * b.groups - 2 + 2 * (r.length + 1) - 2 * 0 - 2 = 2 * b.groups - 2 + c.reserve.used - 2 by omega,
            List.getElem?_set_self (by omega)]
        · rw [show 2 * b.groups - 2 + 2 * (r.length + 1) - 2 * 0 - 1 = 2 * b.groups - 2 + c.reserve.used - 1 by omega,
            List.getElem?_set_self (by rw [List.length_set]; omega)]
      | succ i =>
        have hi : i < r.length := (List.getElem?_eq_some_iff.1 (by simpa using hx)).1
        obtain ⟨h4, h5⟩ := hF.stack (i + 1) x (by rw [hst]; exact hx)
        rw [List.getElem?_set_ne (by omega), List.getElem?_set_ne (by omega), List.getElem?_set_ne (by omega), List.getElem?_set_ne (by omega), ← hl]
        exact ⟨h4, h5⟩

theorem Holds.pop {c b} (h : Holds c b) :
    match b.call .pop with
    | none => c.pop = .error .assertion
    | some (_, b') => ∃ c', c.pop = .ok c' ∧ Holds c' b' := by
  obtain ⟨hr, hF⟩ := h.reserve
  have hu := hr.used
  have hlen := hF.len
  have hfit := hr.fits
  simp only [Board.call]
  unfold Caps.pop
  cases hst : b.stack with
  | nil =>
    rw [hst, List.length_nil] at hu
    dsimp only
    rw [decide_eq_false (by omega)]
    rfl
  | cons x r =>
    have hl : b.stack.length = r.length + 1 := by rw [hst]; rfl
    dsimp only
    rw [decide_eq_true (by omega), assert_true, res_bind_ok]
    refine ⟨_, rfl, hr.groups, hr.pos, hr.room, hr.few, ?_, ?_, .inr ⟨hlen, hF.slots, ?_⟩⟩
    · dsimp only; omega
    · dsimp only; omega
    · intro i x hx
      dsimp only at hx ⊢
      obtain ⟨h4, h5⟩ := hF.stack (i + 1) x (by rw [hst]; exact hx)
      rw [hl] at h4 h5
      rw [show 2 * b.groups - 2 + 2 * r.length - 2 * i - 2 = 2 * b.groups - 2 + 2 * (r.length + 1) - 2 * (i + 1) - 2 by omega,
          show 2 * b.groups - 2 + 2 * r.length - 2 * i - 1 = 2 * b.groups - 2 + 2 * (r.length + 1) - 2 * (i + 1) - 1 by omega]
      exact ⟨h4, h5⟩

theorem Holds.captureSet {c b} (h : Holds c b) (i : Int) (v : Nat) (hi : 1 < i) :
    match b.call (.set i v) with
    | none => c.captureSet i v = .error .assertion
    | some (_, b') => ∃ c', c.captureSet i v = .ok c' ∧ Holds c' b' := by
  obtain ⟨hr, hF⟩ := h.reserve
  have hlen := hF.len
  have hp := h.pos
  have hg := h.groups
  have hfit := h.fits
  simp only [Board.call]
  rw [if_neg (by omega), if_neg (by omega)]
  unfold Caps.captureSet
  by_cases hl : i < 2 * b.groups
  · rw [if_pos hl]
    have hc : (decide (i < 1) || decide (i ≥ (c.captureMax : Int) * 2)) = false := by
      rw [decide_eq_false (by omega), decide_eq_false (by omega)]; rfl
    rw [hc]
    dsimp only
    have hc2 : (decide (i < 2) || decide (i ≥ (c.captureMax : Int) * 2)) = false := by
      rw [decide_eq_false (by omega), decide_eq_false (by omega)]; rfl
    rw [Bool.not_false, assert_true, res_bind_ok]
    rw [if_neg (by rw [hc2]; simp), put_ok (by omega)]
    refine ⟨_, rfl, hr.groups, hr.pos, hr.room, hr.few, hr.used, hr.fits, .inr ⟨?_, ?_, ?_⟩⟩
    · simp only [List.length_set]; exact hlen
    · intro k hk
      dsimp only at hk ⊢
      by_cases hk2 : (i - 2).toNat = k
      · rw [hk2, List.getElem?_set_self (by omega), if_pos (by omega)]
      · rw [List.getElem?_set_ne hk2, if_neg (by omega)]
        exact hF.slots k hk
    · intro j x hx
      dsimp only at hx ⊢
      have hj : j < b.stack.length := (List.getElem?_eq_some_iff.1 hx).1
      rw [List.getElem?_set_ne (by omega), List.getElem?_set_ne (by omega)]
      exact hF.stack j x hx
  · rw [if_neg hl]
    dsimp only
    rw [decide_eq_true (show i ≥ (c.captureMax : Int) * 2 by omega), Bool.or_true]
    rfl

end Strpp.Rx
