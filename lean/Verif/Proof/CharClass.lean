import Verif.Model.CharClass
import Verif.Spec.CharClass
import Verif.Proof.Utf8Seq
namespace Strpp
open Spec

/-- The outcome of the search on strictly increasing keys. -/
theorem bsLoop_spec (keys : List Nat) (ch : Nat) (lo hi : Int)
    (hlo : 0 ≤ lo) (hhi : hi < keys.length) (hle : lo ≤ hi + 1)
    (hl : ∀ i : Nat, (i : Int) < lo → ∀ k, keys[i]? = some k → k < ch)
    (hh : ∀ i : Nat, hi < (i : Int) → ∀ k, keys[i]? = some k → ch < k)
    (sorted : ∀ (i j : Nat) (a b : Nat), i < j → keys[i]? = some a → keys[j]? = some b → a < b) :
    (∃ i : Nat, bsLoop keys ch lo hi = .ok (true, (i : Int)) ∧ keys[i]? = some ch) ∨
    (∃ i : Int, bsLoop keys ch lo hi = .ok (false, i) ∧ -1 ≤ i ∧ i < keys.length ∧
      (∀ j : Nat, (j : Int) ≤ i → ∀ k, keys[j]? = some k → k < ch) ∧
      (∀ j : Nat, i < (j : Int) → ∀ k, keys[j]? = some k → ch < k)) := by
  rw [bsLoop]
  by_cases h : hi ≥ lo
  · rw [if_pos h]
    obtain ⟨m, hm⟩ : ∃ m : Nat, (lo + hi) / 2 = (m : Int) := ⟨((lo + hi) / 2).toNat, by omega⟩
    have hmlt : m < keys.length := by omega
    have hmk : keys[m]? = some keys[m] := List.getElem?_eq_getElem hmlt
    have hr : rdI keys ((lo + hi) / 2) = .ok keys[m] := by rw [hm]; exact rdI_ok keys m _ hmk
    simp only [hr, res_bind_ok]
    split
    · rename_i hlt
      refine bsLoop_spec keys ch lo ((lo + hi) / 2 - 1) hlo (by omega) (by omega) hl ?_ sorted
      intro i hi' k hk
      rcases Nat.lt_trichotomy i m with h1 | h1 | h1
      · omega
      · subst h1; rw [hmk] at hk; cases hk; exact hlt
      · exact Nat.lt_trans hlt (sorted m i _ _ h1 hmk hk)
    · split
      · rename_i hgt
        refine bsLoop_spec keys ch ((lo + hi) / 2 + 1) hi (by omega) hhi (by omega) ?_ hh sorted
        intro i hi' k hk
        rcases Nat.lt_trichotomy i m with h1 | h1 | h1
        · exact Nat.lt_trans (sorted i m _ _ h1 hk hmk) hgt
        · subst h1; rw [hmk] at hk; cases hk; exact hgt
        · omega
      · left
        refine ⟨m, by rw [hm], ?_⟩
        rw [hmk]; congr 1; omega
  · rw [if_neg h]
    right
    refine ⟨hi, rfl, by omega, hhi, ?_, hh⟩
    intro j hj
    exact hl j (by omega)
termination_by (hi - lo + 1).toNat
decreasing_by all_goals omega

/-- A table of ranges, in order and disjoint. -/
def rangesSorted : List CaseRange → Bool
  | [] => true
  | [r] => r.first ≤ r.last
  | r :: r' :: rs => r.first ≤ r.last && r.last < r'.first && rangesSorted (r' :: rs)

theorem rangesSorted_tail (r : CaseRange) (rs : List CaseRange) (h : rangesSorted (r :: rs) = true) :
    rangesSorted rs = true := by
  cases rs with
  | nil => rfl
  | cons r' rs => simp only [rangesSorted, Bool.and_eq_true] at h; exact h.2

theorem rangesSorted_nonempty (tbl : List CaseRange) (h : rangesSorted tbl = true) : ∀ r ∈ tbl, r.first ≤ r.last := by
  induction tbl with
  | nil => simp
  | cons r rs ih =>
    intro x hx
    rcases List.mem_cons.mp hx with rfl | hx
    · cases rs with
      | nil => simpa [rangesSorted] using h
      | cons r' rs => simp only [rangesSorted, Bool.and_eq_true, decide_eq_true_eq] at h; exact h.1.1
    · exact ih (rangesSorted_tail _ _ h) x hx

theorem rangesSorted_pair (tbl : List CaseRange) (h : rangesSorted tbl = true) :
    ∀ (i j : Nat) (a b : CaseRange), i < j → tbl[i]? = some a → tbl[j]? = some b → a.last < b.first := by
  induction tbl with
  | nil => intro i j a b _ ha; simp at ha
  | cons r rs ih =>
    intro i j a b hij ha hb
    obtain ⟨j, rfl⟩ : ∃ k, j = k + 1 := ⟨j - 1, by omega⟩
    rw [List.getElem?_cons_succ] at hb
    have ih' := ih (rangesSorted_tail _ _ h)
    cases i with
    | succ i => rw [List.getElem?_cons_succ] at ha; exact ih' i j a b (by omega) ha hb
    | zero =>
      simp only [List.getElem?_cons_zero, Option.some.injEq] at ha
      subst ha
      cases rs with
      | nil => simp at hb
      | cons r' rs =>
        simp only [rangesSorted, Bool.and_eq_true, decide_eq_true_eq] at h
        have hne := rangesSorted_nonempty (r' :: rs) h.2 r' (by simp)
        cases j with
        | zero => simp only [List.getElem?_cons_zero, Option.some.injEq] at hb; subst hb; exact h.1.2
        | succ j =>
          have := ih' 0 (j + 1) r' b (by omega) (by simp) hb
          omega

/-- With disjoint ranges, any range containing the character determines the conversion. -/
theorem convert_of_mem (tbl : List CaseRange) (hs : rangesSorted tbl = true) (ch : UCS4) (i : Nat) (r : CaseRange)
    (hi : tbl[i]? = some r) (h1 : r.first ≤ ch.toNat) (h2 : ch.toNat ≤ r.last) :
    convert tbl ch = ch + BitVec.ofInt 32 r.delta := by
  unfold convert
  cases hf : tbl.find? (fun r => r.first ≤ ch.toNat && ch.toNat ≤ r.last) with
  | none =>
    have := List.find?_eq_none.mp hf r (List.mem_of_getElem? hi)
    simp [h1, h2] at this
  | some r' =>
    have hp := List.find?_some hf
    simp only [Bool.and_eq_true, decide_eq_true_eq] at hp
    obtain ⟨j, hj⟩ := List.mem_iff_getElem?.mp (List.mem_of_find?_eq_some hf)
    rcases Nat.lt_trichotomy i j with h | h | h
    · have := rangesSorted_pair tbl hs i j r r' h hi hj; omega
    · subst h; rw [hi] at hj; cases hj; rfl
    · have := rangesSorted_pair tbl hs j i r' r h hj hi; omega

theorem convert_none (tbl : List CaseRange) (ch : UCS4)
    (h : ∀ (i : Nat) (r : CaseRange), tbl[i]? = some r → ¬ (r.first ≤ ch.toNat ∧ ch.toNat ≤ r.last)) : convert tbl ch = ch := by
  unfold convert
  cases hf : tbl.find? (fun r => r.first ≤ ch.toNat && ch.toNat ≤ r.last) with
  | none => rfl
  | some r' =>
    have hp := List.find?_some hf
    simp only [Bool.and_eq_true, decide_eq_true_eq] at hp
    obtain ⟨j, hj⟩ := List.mem_iff_getElem?.mp (List.mem_of_find?_eq_some hf)
    exact absurd hp (h j r' hj)

/-- The memoised binary search computes the table conversion, whatever the memo, and stores a valid index. -/
theorem caseConv_spec (tbl : List CaseRange) (hs : rangesSorted tbl = true) (memo : Int) (hm0 : 0 ≤ memo)
    (hm : memo < tbl.length) (ch : UCS4) :
    ∃ w, caseConv tbl memo ch = .ok (convert tbl ch, w) ∧ ∀ m', w = some m' → 0 ≤ m' ∧ m' < tbl.length := by
  obtain ⟨m, rfl⟩ : ∃ m : Nat, memo = (m : Int) := ⟨memo.toNat, by omega⟩
  have hmlt : m < tbl.length := by omega
  have hmi : tbl[m]? = some tbl[m] := List.getElem?_eq_getElem hmlt
  have hr : rdI tbl (m : Int) = .ok tbl[m] := rdI_ok tbl m _ hmi
  unfold caseConv
  rw [hr]
  simp only [res_bind_ok]
  split
  · rename_i hin
    simp only [Bool.and_eq_true, decide_eq_true_eq] at hin
    rw [convert_of_mem tbl hs ch m _ hmi hin.1 hin.2]
    exact ⟨none, rfl, by intro _ h; cases h⟩
  · have hne := rangesSorted_nonempty tbl hs
    have hpair := rangesSorted_pair tbl hs
    have hkeys : ∀ (i : Nat) (k : Nat), (tbl.map (·.first))[i]? = some k → ∃ r, tbl[i]? = some r ∧ r.first = k := by
      intro i k hk
      rw [List.getElem?_map] at hk
      cases hx : tbl[i]? with
      | none => rw [hx] at hk; simp at hk
      | some r => rw [hx] at hk; exact ⟨r, rfl, by simpa using hk⟩
    have hkeys2 : ∀ (i : Nat) r, tbl[i]? = some r → (tbl.map (·.first))[i]? = some r.first := by
      intro i r h; rw [List.getElem?_map, h]; rfl
    have hb := bsLoop_spec (tbl.map (·.first)) ch.toNat 0 ((tbl.length : Int) - 1) (by omega)
      (by rw [List.length_map]; omega) (by omega) (by intro i h; omega)
      (by
        intro i h k hk
        obtain ⟨r, hr', -⟩ := hkeys i k hk
        have : i < tbl.length := by
          rcases Nat.lt_or_ge i tbl.length with h | h
          · exact h
          · rw [List.getElem?_eq_none h] at hr'; cases hr'
        omega)
      (by
        intro i j a b hij ha hb
        obtain ⟨ra, ha', rfl⟩ := hkeys i a ha
        obtain ⟨rb, hb', rfl⟩ := hkeys j b hb
        have h1 := hpair i j ra rb hij ha' hb'
        have h2 := hne ra (List.mem_of_getElem? ha')
        omega)
    rcases hb with ⟨i, hbl, hk⟩ | ⟨i, hbl, h1, h2, h3, h4⟩
    · rw [hbl]
      obtain ⟨r, hri, hrf⟩ := hkeys i _ hk
      have hlt : i < tbl.length := by
        rcases Nat.lt_or_ge i tbl.length with h | h
        · exact h
        · rw [List.getElem?_eq_none h] at hri; cases hri
      simp only [res_bind_ok, if_true, rdI_ok tbl i r hri]
      have := hne r (List.mem_of_getElem? hri)
      rw [convert_of_mem tbl hs ch i r hri (by omega) (by omega)]
      refine ⟨some i, rfl, ?_⟩
      intro m' h; cases h; omega
    · rw [hbl]
      simp only [res_bind_ok, Bool.false_eq_true, if_false]
      rw [List.length_map] at h2
      by_cases hi0 : i ≥ 0
      · rw [if_pos hi0]
        obtain ⟨n, rfl⟩ : ∃ n : Nat, i = (n : Int) := ⟨i.toNat, by omega⟩
        have hlt : n < tbl.length := by omega
        have hni : tbl[n]? = some tbl[n] := List.getElem?_eq_getElem hlt
        simp only [rdI_ok tbl n _ hni, res_bind_ok]
        split
        · rename_i hin
          simp only [Bool.and_eq_true, decide_eq_true_eq] at hin
          rw [convert_of_mem tbl hs ch n _ hni hin.1 hin.2]
          refine ⟨some n, rfl, ?_⟩
          intro m' h; cases h; omega
        · rename_i hout
          simp only [Bool.and_eq_true, decide_eq_true_eq] at hout
          refine ⟨none, ?_, by intro _ h; cases h⟩
          rw [convert_none]
          intro j r hj hin
          rcases Nat.lt_trichotomy j n with h | h | h
          · have := hpair j n r _ h hj hni
            have := h3 n (by omega) _ (hkeys2 n _ hni)
            omega
          · subst h; rw [hni] at hj; cases hj; exact hout hin
          · have := h4 j (by omega) _ (hkeys2 j _ hj)
            omega
      · rw [if_neg hi0]
        refine ⟨none, ?_, by intro _ h; cases h⟩
        rw [convert_none]
        intro j r hj hin
        have := h4 j (by omega) _ (hkeys2 j _ hj)
        omega

theorem upper_sorted : rangesSorted unicodeToUpper = true := by decide +kernel
theorem lower_sorted : rangesSorted unicodeToLower = true := by decide +kernel
theorem upper_length : unicodeToUpper.length = 406 := by decide +kernel
theorem lower_length : unicodeToLower.length = 396 := by decide +kernel

theorem toUpper_spec (memo : Int) (h0 : 0 ≤ memo) (h : memo < 406) (ch : UCS4) :
    ∃ w, ucs4ToUpper memo ch = .ok (convert unicodeToUpper ch, w) ∧ ∀ m', w = some m' → 0 ≤ m' ∧ m' < 406 := by
  have := caseConv_spec unicodeToUpper upper_sorted memo h0 (by rw [upper_length]; exact h) ch
  rw [upper_length] at this; exact this

theorem toLower_spec (memo : Int) (h0 : 0 ≤ memo) (h : memo < 396) (ch : UCS4) :
    ∃ w, ucs4ToLower memo ch = .ok (convert unicodeToLower ch, w) ∧ ∀ m', w = some m' → 0 ≤ m' ∧ m' < 396 := by
  have := caseConv_spec unicodeToLower lower_sorted memo h0 (by rw [lower_length]; exact h) ch
  rw [lower_length] at this; exact this

/-! ### Digits -/

theorem digitLoop_mem (rs : List (Nat × Nat)) (hs : rs.Pairwise (fun a b => a.1 ≤ a.2 ∧ a.2 < b.1))
    (r : Nat × Nat) (hr : r ∈ rs) (ch : Nat) (h1 : r.1 ≤ ch) (h2 : ch ≤ r.2) (k : Int) (hk : 0 ≤ k) :
    ∃ i, digitLoop ch rs k = (9 - ((r.2 : Int) - ch), some i) ∧ 0 ≤ i ∧ i < k + rs.length := by
  induction rs generalizing k with
  | nil => simp at hr
  | cons x rs ih =>
    rw [List.pairwise_cons] at hs
    simp only [List.length_cons]
    by_cases hx : r = x
    · subst hx
      refine ⟨k, ?_, hk, by omega⟩
      unfold digitLoop
      rw [if_neg (by omega), if_pos h2]
    · rcases List.mem_cons.mp hr with h | h
      · exact absurd h hx
      · have hlt := hs.1 r h
        unfold digitLoop
        rw [if_neg (by omega), if_neg (by omega)]
        obtain ⟨i, h3, h4, h5⟩ := ih hs.2 h (k + 1) (by omega)
        exact ⟨i, h3, h4, by omega⟩

theorem digitLoop_not_mem (rs : List (Nat × Nat)) (ch : Nat) (h : ∀ r ∈ rs, ¬ (r.1 ≤ ch ∧ ch ≤ r.2)) (k : Int) :
    digitLoop ch rs k = (if ∃ r ∈ rs, ch < r.1 then -1 else digitSpecial ch, none) := by
  induction rs generalizing k with
  | nil => simp [digitLoop]
  | cons x rs ih =>
    have hx := h x (by simp)
    unfold digitLoop
    by_cases h1 : ch < x.1
    · rw [if_pos h1, if_pos ⟨x, by simp, h1⟩]
    · rw [if_neg h1, if_neg (by omega), ih (fun r hr => h r (by simp [hr]))]
      by_cases h2 : ∃ r ∈ rs, ch < r.1
      · obtain ⟨r, hr, hlt⟩ := h2
        rw [if_pos ⟨r, hr, hlt⟩, if_pos ⟨r, by simp [hr], hlt⟩]
      · rw [if_neg h2, if_neg]
        rintro ⟨r, hr, hlt⟩
        rcases List.mem_cons.mp hr with rfl | hr
        · exact h1 hlt
        · exact h2 ⟨r, hr, hlt⟩

theorem digit_sorted : ucs4DigitRanges.Pairwise (fun a b => a.1 ≤ a.2 ∧ a.2 < b.1) := by decide +kernel

/-- The decimal value by the code's table alone (no memo, no special cases): the range containing `ch`, counting down
from 9 at its end. -/
def digitOf (ch : Nat) : Int :=
  match ucs4DigitRanges.find? (fun r => r.1 ≤ ch && ch ≤ r.2) with
  | some r => 9 - ((r.2 : Int) - ch)
  | none => -1

theorem digit_spec (memo : Int) (h0 : 0 ≤ memo) (h : memo < 20) (ch : UCS4) :
    ∃ w, ucs4Digit memo ch = .ok (digitOf ch.toNat, w) ∧ ∀ m', w = some m' → 0 ≤ m' ∧ m' < 20 := by
  have hlen : ucs4DigitRanges.length = 20 := rfl
  obtain ⟨m, rfl⟩ : ∃ m : Nat, memo = (m : Int) := ⟨memo.toNat, by omega⟩
  have hmlt : m < ucs4DigitRanges.length := by omega
  have hmi := List.getElem?_eq_getElem hmlt
  unfold ucs4Digit
  rw [rdI_ok _ m _ hmi]
  simp only [res_bind_ok]
  have key : ∀ r ∈ ucs4DigitRanges, r.1 ≤ ch.toNat → ch.toNat ≤ r.2 →
      digitOf ch.toNat = 9 - ((r.2 : Int) - ch.toNat) := by
    intro r hr h1 h2
    unfold digitOf
    cases hf : ucs4DigitRanges.find? (fun r => r.1 ≤ ch.toNat && ch.toNat ≤ r.2) with
    | none =>
      have := List.find?_eq_none.mp hf r hr
      simp [h1, h2] at this
    | some r' =>
      have hp := List.find?_some hf
      simp only [Bool.and_eq_true, decide_eq_true_eq] at hp
      obtain ⟨i, e1, -, -⟩ := digitLoop_mem _ digit_sorted r hr ch.toNat h1 h2 0 (by omega)
      obtain ⟨i', e2, -, -⟩ := digitLoop_mem _ digit_sorted r' (List.mem_of_find?_eq_some hf) ch.toNat hp.1 hp.2 0
        (by omega)
      rw [e1] at e2
      simp only [Prod.mk.injEq] at e2
      exact e2.1.symm
  split
  · rename_i hin
    simp only [Bool.and_eq_true, decide_eq_true_eq] at hin
    rw [key _ (List.getElem_mem hmlt) hin.1 hin.2]
    exact ⟨none, rfl, by intro _ h; cases h⟩
  · by_cases hex : ∃ r ∈ ucs4DigitRanges, r.1 ≤ ch.toNat ∧ ch.toNat ≤ r.2
    · obtain ⟨r, hr, h1, h2⟩ := hex
      obtain ⟨i, e1, e2, e3⟩ := digitLoop_mem _ digit_sorted r hr ch.toNat h1 h2 0 (by omega)
      rw [e1, key r hr h1 h2]
      refine ⟨some i, rfl, ?_⟩
      intro m' hm'; cases hm'; omega
    · have hn : ∀ r ∈ ucs4DigitRanges, ¬ (r.1 ≤ ch.toNat ∧ ch.toNat ≤ r.2) := fun r hr h => hex ⟨r, hr, h⟩
      rw [digitLoop_not_mem _ _ hn]
      refine ⟨none, ?_, by intro _ h; cases h⟩
      have e : digitOf ch.toNat = -1 := by
        unfold digitOf
        cases hf : ucs4DigitRanges.find? (fun r => r.1 ≤ ch.toNat && ch.toNat ≤ r.2) with
        | none => rfl
        | some r' =>
          have hp := List.find?_some hf
          simp only [Bool.and_eq_true, decide_eq_true_eq] at hp
          exact absurd hp (hn r' (List.mem_of_find?_eq_some hf))
      rw [e]
      split
      · rfl
      · rename_i hno
        have : ¬ ch.toNat < 0xFF10 := fun hlt => hno ⟨(0xFF10, 0xFF19), by decide, hlt⟩
        have hs : digitSpecial ch.toNat = -1 := by
          unfold digitSpecial
          rw [if_neg (by simp; omega), if_neg (by simp; omega)]
        rw [hs]

/-- The code's table denotes the same digits as the specification's. -/
theorem digitOf_iff (ch : Nat) (v : Nat) : digitOf ch = (v : Int) ↔ IsDigit ch v := by
  have hzip : ∀ r ∈ ucs4DigitRanges, ∃ b ∈ digitBlocks, b.1 = r.1 ∧ r.2 + b.2 = r.1 + 9 := by decide +kernel
  have hzip2 : ∀ b ∈ digitBlocks, ∃ r ∈ ucs4DigitRanges, b.1 = r.1 ∧ r.2 + b.2 = r.1 + 9 := by decide +kernel
  have hblk : ∀ b ∈ digitBlocks, b.2 ≤ 1 := by decide +kernel
  have key : ∀ r ∈ ucs4DigitRanges, r.1 ≤ ch → ch ≤ r.2 → digitOf ch = 9 - ((r.2 : Int) - ch) := by
    intro r hr h1 h2
    unfold digitOf
    cases hf : ucs4DigitRanges.find? (fun r => r.1 ≤ ch && ch ≤ r.2) with
    | none =>
      have := List.find?_eq_none.mp hf r hr
      simp [h1, h2] at this
    | some r' =>
      have hp := List.find?_some hf
      simp only [Bool.and_eq_true, decide_eq_true_eq] at hp
      obtain ⟨i, e1, -, -⟩ := digitLoop_mem _ digit_sorted r hr ch h1 h2 0 (by omega)
      obtain ⟨i', e2, -, -⟩ := digitLoop_mem _ digit_sorted r' (List.mem_of_find?_eq_some hf) ch hp.1 hp.2 0 (by omega)
      rw [e1] at e2
      simp only [Prod.mk.injEq] at e2
      exact e2.1.symm
  constructor
  · intro h
    have h' := h
    unfold digitOf at h
    cases hf : ucs4DigitRanges.find? (fun r => r.1 ≤ ch && ch ≤ r.2) with
    | none => rw [hf] at h; simp only at h; omega
    | some r =>
      rw [hf] at h; simp only at h
      have hp := List.find?_some hf
      simp only [Bool.and_eq_true, decide_eq_true_eq] at hp
      obtain ⟨b, hb, e1, e2⟩ := hzip r (List.mem_of_find?_eq_some hf)
      have := hblk b hb
      exact ⟨b, hb, by omega, by omega, by omega⟩
  · rintro ⟨b, hb, h1, h2, rfl⟩
    obtain ⟨r, hr, e1, e2⟩ := hzip2 b hb
    have := hblk b hb
    rw [key r hr (by omega) (by omega)]; omega

theorem digitOf_range (ch : Nat) : digitOf ch = -1 ∨ ∃ v : Nat, v ≤ 9 ∧ digitOf ch = v := by
  have hw : ∀ r ∈ ucs4DigitRanges, r.2 ≤ r.1 + 9 := by decide +kernel
  unfold digitOf
  cases hf : ucs4DigitRanges.find? (fun r => r.1 ≤ ch && ch ≤ r.2) with
  | none => left; rfl
  | some r =>
    right
    have hp := List.find?_some hf
    simp only [Bool.and_eq_true, decide_eq_true_eq] at hp
    have := hw r (List.mem_of_find?_eq_some hf)
    exact ⟨9 - (r.2 - ch), by omega, by simp only; omega⟩

/-! ### Concurrency -/
/-! ### Concurrency -/

/-- If the function gives `g ch` for every valid memo, and only stores valid memos, then every completed call in every
interleaving gave `g ch`. -/
theorem memo_run {α : Type} (f : Int → UCS4 → Res (α × Option Int)) (g : UCS4 → α) (valid : Int → Prop)
    (h0 : valid 0)
    (hf : ∀ m ch, valid m → ∃ w, f m ch = .ok (g ch, w) ∧ ∀ m', w = some m' → valid m')
    (evs : List MemoEvent) :
    ∀ e ∈ (evs.foldl (MemoState.step f) MemoState.init).log, e.2 = .ok (g e.1) := by
  have inv : ∀ (evs : List MemoEvent) (s : MemoState α),
      valid s.memo → (∀ p ∈ s.pending, valid p.2.2) → (∀ e ∈ s.log, e.2 = .ok (g e.1)) →
      ∀ e ∈ (evs.foldl (MemoState.step f) s).log, e.2 = .ok (g e.1) := by
    intro evs
    induction evs with
    | nil => intro s _ _ h; simpa using h
    | cons ev evs ih =>
      intro s hm hp hl
      rw [List.foldl_cons]
      cases ev with
      | call t ch =>
        refine ih _ hm ?_ hl
        intro p hp'
        simp only [MemoState.step, List.mem_append, List.mem_singleton] at hp'
        rcases hp' with hp' | rfl
        · exact hp p hp'
        · exact hm
      | finish t =>
        cases hfind : s.pending.find? (fun e => e.1 == t) with
        | none =>
          have : MemoState.step f s (.finish t) = s := by simp only [MemoState.step, hfind]
          rw [this]; exact ih s hm hp hl
        | some x =>
          obtain ⟨t', ch, m⟩ := x
          have hv := hp _ (List.mem_of_find?_eq_some hfind)
          obtain ⟨w, hfw, hw⟩ := hf m ch hv
          have hpe : ∀ p ∈ s.pending.eraseP (fun e => e.1 == t), valid p.2.2 :=
            fun p hp' => hp p (List.mem_of_mem_eraseP hp')
          have hle : ∀ e ∈ s.log ++ [(ch, (Except.ok (g ch) : Res α))], e.2 = .ok (g e.1) := by
            intro e he
            rcases List.mem_append.mp he with he | he
            · exact hl e he
            · simp only [List.mem_singleton] at he; subst he; rfl
          cases w with
          | none =>
            have : MemoState.step f s (.finish t) =
                { s with pending := s.pending.eraseP (fun e => e.1 == t), log := s.log ++ [(ch, .ok (g ch))] } := by
              simp only [MemoState.step, hfind, hfw]
            rw [this]; exact ih _ hm hpe hle
          | some m' =>
            have : MemoState.step f s (.finish t) =
                { memo := m', pending := s.pending.eraseP (fun e => e.1 == t), log := s.log ++ [(ch, .ok (g ch))] } := by
              simp only [MemoState.step, hfind, hfw]
            rw [this]; exact ih _ (hw m' rfl) hpe hle
  exact inv evs MemoState.init h0 (by simp [MemoState.init]) (by simp [MemoState.init])

end Strpp
