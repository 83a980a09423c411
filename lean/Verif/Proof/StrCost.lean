import Verif.Model.StrCost
import Verif.Spec.StrCost
import Verif.Props.StrVal
/-! Proofs about how far indexing a string walks (C102). -/
set_option linter.unusedSimpArgs false
set_option linter.unusedVariables false
namespace Strpp.SV

open Spec Arr

section
variable {b : SBody} {cs : List UCS4}

theorem fwdRounds_spec (h : BDen b cs) (ep : Nat) : ∀ (n k : Nat), k + n ≤ cs.length → bpos cs (k + n) ≤ ep →
    fwdRounds b.arr.mem ep n (bpos cs k) = n := by
  intro n
  induction n with
  | zero => intro k _ _; rfl
  | succ n ih =>
    intro k hk hep
    have h1 := bpos_strict cs (show k < k + (n + 1) by omega) hk
    have h2 := bpos_strict cs (show k < k + 1 by omega) (by omega)
    rw [fwdRounds, if_pos (by omega), h.lenAt k (by omega)]
    have e : bpos cs k + (bpos cs (k + 1) - bpos cs k) = bpos cs (k + 1) := by omega
    have e2 : k + (n + 1) = k + 1 + n := by omega
    simp only [e]
    rw [ih (k + 1) (by omega) (by rw [← e2]; exact hep)]
    omega

theorem bwdRounds_spec (h : BDen b cs) (up : Nat) : ∀ (n k : Nat), k + n ≤ cs.length → up ≤ bpos cs k →
    bwdRounds b.arr.mem up n (bpos cs (k + n)) = n := by
  intro n
  induction n with
  | zero => intro k _ _; rfl
  | succ n ih =>
    intro k hk hup
    have h1 := bpos_strict cs (show k < k + (n + 1) by omega) hk
    rw [bwdRounds, if_pos (by omega)]
    have e2 : k + (n + 1) = k + n + 1 := by omega
    rw [e2, h.backup (k + n) (by omega)]
    simp only [Int.toNat_natCast]
    rw [ih k (by omega) hup]
    omega

theorem countRounds_spec (h : BDen b cs) : ∀ (d k fuel : Nat), k + d = cs.length → d < fuel →
    countRounds b.arr.mem (encodeAll cs).length fuel (bpos cs k) = d := by
  intro d
  induction d with
  | zero =>
    intro k fuel hk hf
    obtain ⟨f, rfl⟩ : ∃ f, fuel = f + 1 := ⟨fuel - 1, by omega⟩
    rw [countRounds, if_neg (by rw [bpos_end cs k (by omega)]; omega)]
  | succ d ih =>
    intro k fuel hk hf
    obtain ⟨f, rfl⟩ : ∃ f, fuel = f + 1 := ⟨fuel - 1, by omega⟩
    have hlt : k < cs.length := by omega
    have hb : bpos cs k < (encodeAll cs).length := by
      rw [← bpos_end cs cs.length (Nat.le_refl _)]; exact bpos_strict cs hlt (Nat.le_refl _)
    rw [countRounds, if_pos hb, h.get k hlt]
    have h1 : (cs[k] == 0xFFFFFFFF#32) = false := by
      rw [beq_eq_false_iff_ne]
      intro he
      exact h.good_at k hlt (Or.inr he)
    have h2 := bpos_le_end cs (k + 1)
    simp only
    rw [if_neg (by simp only [h1, Bool.false_or]; simpa using h2), ih (k + 1) f (by omega) (by omega)]
    omega

theorem searchRounds_spec (h : BDen b cs) (hnc : b.nc = cs.length) (k : Nat) (hk : k ≤ cs.length) (m : Mark) (hm : MarkOk cs m) :
    searchRounds b k (searchFrom b k m) = walk cs.length m.cn k := by
  have hn := h.num
  have hcap := h.small
  have hcl := encodeAll_length_ge cs
  have hbk := bpos_le_end cs k
  have hend := bpos_end cs cs.length (Nat.le_refl _)
  unfold searchFrom walk
  by_cases hpos : m.cn = 0
  · rw [if_neg (by omega), if_pos hpos]
    unfold searchRounds
    simp only [Int.natCast_zero, Int.sub_zero]
    rw [hnc, wrap_nat (by omega), wrap_of_nonneg hk (by omega)]
    split
    · have := fwdRounds_spec h (b.arr.num - 1) k 0 (by omega) (by rw [Nat.zero_add]; omega)
      rw [bpos_zero] at this
      rw [Nat.sub_zero, this]; omega
    · have := bwdRounds_spec h 0 (cs.length - k) k (by omega) (by omega)
      rw [show k + (cs.length - k) = cs.length by omega, hend] at this
      rw [hn, Nat.add_sub_cancel, this]; omega
  · rw [if_pos (by omega), if_neg hpos]
    rcases hm with ⟨hm1, hm2⟩ | ⟨hm1, hm2, hm3, hm4⟩
    · by_cases hge : m.cn ≤ k
      · rw [if_pos hge, if_pos hge]
        unfold searchRounds
        simp only
        rw [hnc, wrap_of_nonneg hge (by omega), wrap_of_nonneg hk (by omega)]
        split
        · have := fwdRounds_spec h (b.arr.num - 1) (k - m.cn) m.cn (by omega) (by rw [show m.cn + (k - m.cn) = k by omega]; omega)
          rw [hm2, this]; omega
        · have := bwdRounds_spec h m.bn (cs.length - k) k (by omega) (by rw [hm2]; exact bpos_mono cs hge)
          rw [show k + (cs.length - k) = cs.length by omega, hend] at this
          rw [hn, Nat.add_sub_cancel, this]; omega
      · rw [if_neg hge, if_neg hge]
        unfold searchRounds
        simp only [Int.natCast_zero, Int.sub_zero]
        rw [wrap_nat (by omega), wrap_of_nonneg (by omega) (by omega)]
        split
        · have := fwdRounds_spec h m.bn k 0 (by omega) (by rw [Nat.zero_add, hm2]; exact bpos_mono cs (by omega))
          rw [bpos_zero] at this
          rw [Nat.sub_zero, this]; omega
        · have := bwdRounds_spec h 0 (m.cn - k) k (by omega) (by omega)
          rw [show k + (m.cn - k) = m.cn by omega, ← hm2] at this
          rw [this]; omega
    · rw [if_neg (by omega), if_neg (by omega)]
      unfold searchRounds
      simp only [Int.natCast_zero, Int.sub_zero]
      rw [if_pos (by rw [wrap_nat (by omega), wrap_of_nonneg (by omega) (by omega)]; omega)]
      have := fwdRounds_spec h m.bn k 0 (by omega) (by rw [Nat.zero_add]; omega)
      rw [bpos_zero] at this
      rw [Nat.sub_zero, this]; omega

theorem nthRounds_spec (h : BDen b cs) (k : Nat) (hk : k ≤ cs.length) (m : Mark) (hm : MarkOk cs m) :
    nthRounds b k m = if k = 0 ∨ b.nc = b.arr.num - 1 then 0 else (if b.nc = 0 then cs.length else 0) + walk cs.length m.cn k := by
  have hn := h.num
  unfold nthRounds
  by_cases h0 : k = 0 ∨ b.nc = b.arr.num - 1
  · rw [if_pos (by simpa using h0), if_pos h0]
  · rw [if_neg (by simpa using h0), if_neg h0]
    obtain ⟨b', e1, e2, e3, e4⟩ := h.count
    have hc := countRounds_spec h cs.length 0 (b.arr.num + 1) (by omega) (by have := encodeAll_length_ge cs; omega)
    rw [bpos_zero] at hc
    rw [e1]
    simp only
    rw [searchRounds_spec e2 e3 k hk m hm]
    congr 1
    have e5 : b.arr.num - 1 = (encodeAll cs).length := by omega
    by_cases hz : b.nc = 0
    · rw [if_pos (by simp [hz]; omega), if_pos hz, e5, hc]
    · rw [if_neg (by simp [hz]), if_neg hz]

end

theorem sumTo_succ (f : Nat → Nat) : ∀ n, sumTo f (n + 1) = f 0 + sumTo (fun k => f (k + 1)) n
  | 0 => by simp [sumTo]
  | n + 1 => by
    have := sumTo_succ f n
    rw [sumTo, this, sumTo]
    omega

theorem sumTo_congr {f g : Nat → Nat} : ∀ n, (∀ k, k < n → f k = g k) → sumTo f n = sumTo g n
  | 0, _ => rfl
  | n + 1, h => by rw [sumTo, sumTo, sumTo_congr n (fun k hk => h k (by omega)), h n (by omega)]

theorem sumTo_add_one (f : Nat → Nat) : ∀ n, sumTo (fun k => f k + 1) n = sumTo f n + n
  | 0 => rfl
  | n + 1 => by rw [sumTo, sumTo, sumTo_add_one f n]; omega

/-- from both ends -/
theorem sum_min : ∀ n, 4 * sumTo (fun k => min k (n - k)) n ≤ n * n ∧ n * n ≤ 4 * sumTo (fun k => min k (n - k)) n + 1
  | 0 => by simp [sumTo]
  | 1 => by simp [sumTo]
  | n + 2 => by
    have ih := sum_min n
    have e : sumTo (fun k => min k (n + 2 - k)) (n + 2) = sumTo (fun k => min k (n - k)) n + (n + 1) := by
      rw [sumTo_succ]
      have e1 : sumTo (fun k => min (k + 1) (n + 2 - (k + 1))) (n + 1) = sumTo (fun k => min k (n - k) + 1) (n + 1) :=
        sumTo_congr _ (fun k hk => by omega)
      rw [e1, sumTo_add_one, sumTo]
      simp
    have e2 : (n + 2) * (n + 2) = n * n + 4 * n + 4 := by
      rw [Nat.mul_add, Nat.add_mul]; omega
    rw [e, e2]
    omega

theorem scan_sum (σ : Str) : ∀ n, σ.scanRounds n = sumTo σ.getRounds n
  | 0 => rfl
  | n + 1 => by rw [Str.scanRounds, sumTo, scan_sum σ n]

end Strpp.SV
