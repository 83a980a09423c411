import Verif.Spec.RxSize
import Verif.Proof.RxTop
import Verif.Proof.RxSteady
/-! The sizes of Spec/RxSize.lean are those of the code. -/
namespace Strpp.Rx
open Spec

set_option linter.unusedSimpArgs false

theorem charSize_put (c : UCS4) (h : ¬ Reserved c) : (utf8Put c).length = charSize c := by
  rw [put_length, lenCh_eq, not_reserved c h]
  unfold charSize
  simp

theorem charSize_bounds (c : UCS4) : 1 ≤ charSize c ∧ charSize c ≤ 6 := by
  unfold charSize; repeat' split
  all_goals omega

theorem putLen_small (n : Nat) (h : n < 2048) : (utf8Put (BitVec.ofNat 32 n)).length = if n < 128 then 1 else 2 := by
  have hn : (BitVec.ofNat 32 n).toNat = n := by rw [BitVec.toNat_ofNat, Nat.mod_eq_of_lt (by omega)]
  rw [put_length, utf8LenCh_small _ (by omega), hn]
  by_cases h1 : n < 128
  · rw [if_pos (by omega), if_pos h1]
  · rw [if_neg (by omega), if_pos (by omega), if_neg h1]

theorem rangesSize_eq (rs : List (UCS4 × UCS4)) (h : ∀ r ∈ rs, Writable r.1 ∧ Writable r.2) :
    numBytes (rangeChars rs) = rangesSize rs := by
  induction rs with
  | nil => rfl
  | cons r rs ih =>
    have h1 := h r (by simp)
    have := ih fun x hx => h x (by simp [hx])
    unfold numBytes rangeChars at *
    simp only [List.flatMap_cons, List.flatMap_nil, List.flatMap_append, List.length_append, List.append_nil, rangesSize,
      charSize_put _ h1.1.2, charSize_put _ h1.2.2] at this ⊢
    omega

theorem textSize_eq (s : List UCS4) (h : numBytes s < 2048) : (stringBytes s).length = textSize (numBytes s) := by
  unfold stringBytes textSize
  rw [List.length_append, putLen_small _ h]
  show _ + numBytes s = _
  omega

theorem textSize_ge (n : Nat) : n ≤ textSize n := by unfold textSize; omega

theorem prop_size (p : Shorthand) : (stringBytes [p.code]).length = 2 := by cases p <;> decide

theorem depth_eq (r : Re) : depth r = r.nesting := by
  induction r <;> simp_all [depth, Re.nesting]

theorem ocost_eq (r : Re) : ocost r = r.offsets := by
  induction r <;> simp_all [ocost, Re.offsets]

theorem sizes_eq (r : Re) : ∀ top, r.wf top → r.weight ≤ 992 → weight r = r.weight ∧ bcost r = r.codeSize := by
  induction r with
  | empty | any | bol | eol => intros; exact ⟨rfl, rfl⟩
  | chr s c =>
    intro top hw _
    simp only [weight, bcost, Re.weight, Re.codeSize, charSize_put c hw.2.2, and_self]
  | cls neg text rs =>
    intro top hw h
    have h1 := rangesSize_eq rs hw.2
    simp only [Re.weight] at h
    have := textSize_ge (rangesSize rs)
    have h2 := textSize_eq (rangeChars rs) (by omega)
    rw [h1] at h2
    simp only [weight, bcost, Re.weight, Re.codeSize, h2, and_self]
  | prop br p =>
    intro top hw h
    simp only [weight, bcost, Re.weight, Re.codeSize, prop_size, and_self]
  | seq a b iha ihb =>
    intro top hw h
    simp only [Re.weight] at h
    have h1 := iha _ hw.1 (by omega)
    have h2 := ihb _ hw.2.1 (by omega)
    simp only [weight, bcost, Re.weight, Re.codeSize, h1, h2, and_self]
  | alt a b iha ihb =>
    intro top hw h
    simp only [Re.weight] at h
    have h1 := iha _ hw.2.1 (by omega)
    have h2 := ihb _ hw.2.2.1 (by omega)
    simp only [weight, bcost, Re.weight, Re.codeSize, h1, h2, and_self]
  | star a ih | plus a ih | opt a ih =>
    intro top hw h
    simp only [Re.weight] at h
    have h1 := ih _ hw.2 (by omega)
    simp only [weight, bcost, Re.weight, Re.codeSize, h1, and_self]
  | rep w mn mx a ih =>
    intro top hw h
    simp only [Re.weight] at h
    have h1 := ih _ hw.2.1 (by omega)
    simp only [weight, bcost, Re.weight, Re.codeSize, h1, and_self]
  | grp nc a ih =>
    intro top hw h
    simp only [Re.weight] at h
    have h1 := ih _ hw (by omega)
    simp only [weight, bcost, Re.weight, Re.codeSize, h1, and_self]

theorem uncounted_excess (r : Re) : r.counted = false → r.excess = 0 := by
  induction r with
  | seq a b iha ihb | alt a b iha ihb =>
    intro h
    simp only [Re.counted, Bool.or_eq_false_iff] at h
    simp only [Re.excess, iha h.1, ihb h.2]
  | star a ih | plus a ih | opt a ih | grp nc a ih => intro h; exact ih h
  | rep => intro h; cases h
  | _ => intros; rfl

/-! ### From the length of what is written -/

theorem ranges_len {rs : List (UCS4 × UCS4)} {t : List UCS4} (h : Ranges rs t) : rangesSize rs ≤ 12 * t.length := by
  have hb := charSize_bounds
  induction h with
  | nil => simp [rangesSize]
  | minus => simp [rangesSize, charSize]
  | one c w rs t hw _ _ ih =>
    have := in_len hw; have := hb c
    simp only [rangesSize, List.length_append]; omega
  | range a b v w rs t hv _ hw _ ih =>
    have := in_len hv; have := in_len hw; have := hb a; have := hb b
    simp only [rangesSize, List.length_append, List.length_cons]; omega

theorem brackets_len {neg : Bool} {rs : List (UCS4 × UCS4)} {t : List UCS4} (h : Brackets neg rs t) : rangesSize rs ≤ 12 * t.length := by
  cases h with
  | special c rs t _ h =>
    have := ranges_len h; have := charSize_bounds c
    simp only [rangesSize, List.length_cons]; omega
  | usual _ _ _ _ _ h => exact ranges_len h

theorem weight_len (r : Re) : ∀ top, r.wf top → r.weight ≤ 15 * r.write.length := by
  induction r with
  | empty | any | bol | eol => intros; simp [Re.weight, Re.write]
  | prop br p => intros; cases br <;> simp [Re.weight, Re.write]
  | chr s c =>
    intro top _
    have := charSize_bounds c
    cases s <;> simp [Re.weight, Re.write] <;> omega
  | cls neg text rs =>
    intro top hw
    have := brackets_len hw.1
    have h2 : textSize (rangesSize rs) ≤ rangesSize rs + 2 := by unfold textSize; split <;> omega
    simp only [Re.weight, Re.write, List.length_append, List.length_cons, List.length_nil]
    omega
  | seq a b iha ihb =>
    intro top hw; have := iha _ hw.1; have := ihb _ hw.2.1
    simp only [Re.weight, Re.write, List.length_append]; omega
  | alt a b iha ihb =>
    intro top hw; have := iha _ hw.2.1; have := ihb _ hw.2.2.1
    simp only [Re.weight, Re.write, List.length_append, List.length_cons]; omega
  | star a ih | plus a ih | opt a ih =>
    intro top hw; have := ih _ hw.2
    simp only [Re.weight, Re.write, List.length_append, List.length_cons, List.length_nil]; omega
  | rep w mn mx a ih =>
    intro top hw; have := ih _ hw.2.1
    have : repCode mn mx ≤ 4 := by unfold repCode; repeat' split
                                   all_goals omega
    have : (if mn = 0 ∧ mx = none then 2 else 1) ≤ 2 := by split <;> omega
    simp only [Re.weight, Re.write, List.length_append, List.length_cons, List.length_nil]; omega
  | grp nc a ih =>
    intro top hw; have := ih _ hw
    simp only [Re.weight, Re.write, List.length_append, List.length_cons, List.length_nil]; omega

/-! ### Matches inside the text -/

theorem Matches_bounds {t : List UCS4} {r : Re} {i j : Nat} (h : Matches t r i j) : i ≤ j ∧ (i ≤ t.length → j ≤ t.length) := by
  have hlt : ∀ {i : Nat} {c : UCS4}, t[i]? = some c → i + 1 ≤ t.length := by
    intro i c h; exact (List.getElem?_eq_some_iff.mp h).1
  induction h with
  | chr i s c h => exact ⟨by omega, fun _ => hlt h⟩
  | any i c h _ => exact ⟨by omega, fun _ => hlt h⟩
  | cls i neg text rs c h _ _ => exact ⟨by omega, fun _ => hlt h⟩
  | prop i br p c h _ _ => exact ⟨by omega, fun _ => hlt h⟩
  | rep n f w mn mx a _ _ _ ih =>
    have key : ∀ m, m ≤ n → f 0 ≤ f m ∧ (f 0 ≤ t.length → f m ≤ t.length) := by
      intro m
      induction m with
      | zero => intro _; exact ⟨Nat.le_refl _, id⟩
      | succ m ihm =>
        intro hm
        have h1 := ihm (by omega)
        have h2 := ih m (by omega)
        exact ⟨by omega, fun h => h2.2 (h1.2 h)⟩
    exact key n (Nat.le_refl _)
  | _ => omega

theorem noNul_iff {t : List UCS4} {i k : Nat} (hk : k ≤ t.length) :
    NoNul t i k ↔ ∀ m, i ≤ m → m < k → t[m]? ≠ some 0#32 := by
  unfold NoNul
  constructor <;> intro h m h1 h2 h3 <;> apply h m h1 h2
  · unfold chAt; rw [if_neg (by omega), h3]; rfl
  · unfold chAt at h3; rw [if_neg (by omega)] at h3
    obtain ⟨c, hc⟩ : ∃ c, t[m]? = some c := ⟨t[m], List.getElem?_eq_getElem (by omega)⟩
    rw [hc] at h3 ⊢; rw [← h3]; rfl

/-- The result in terms of what a caller can ask -/
theorem BestLL.observed {res : RVal} {M : Nat → Nat → Prop} (h : BestLL res M) (hle : ∀ c j, M c j → c ≤ j) :
    (res.succeeded = true ↔ ∃ c j, M c j) ∧
    (res.succeeded = true → LeftmostLongest M res.offset (res.offset + res.length)) := by
  unfold BestLL at h
  unfold RVal.succeeded RVal.offset RVal.length
  cases hr : res.cap1 with
  | none =>
    rw [hr] at h
    simp only [Option.isSome_none, Bool.false_eq_true, false_iff, false_implies, and_true]
    rintro ⟨c, j, hm⟩
    exact h c j hm
  | some e =>
    rw [hr] at h
    have := hle _ _ h.1
    simp only [Option.isSome_some, true_iff, true_implies]
    refine ⟨⟨_, _, h.1⟩, ?_⟩
    rw [show res.cap0 + (e - res.cap0) = e by omega]
    refine ⟨h.1, fun c' j' hm => ?_, fun j' hm => ?_⟩
    · rcases h.2 _ _ hm with h | h <;> omega
    · rcases h.2 _ _ hm with h | h <;> omega

theorem Compiled.matchAfter_observed {r : Re} {P : Prog} (h : Compiled r P) (hr : r.counted = false) {t : List UCS4} {junk fuel off : Nat} {res : RVal}
    (hm : P.matchAfter junk fuel t off = .ok res) :
    (res.succeeded = true ↔ ∃ c j, MatchFrom t r off c j) ∧
    (res.succeeded = true → LeftmostLongest (MatchFrom t r off) res.offset (res.offset + res.length)) := by
  refine ((h.matchAfter hr hm).congr fun c j => ?_).observed fun c j hm => (Matches_bounds hm.matches_).1
  constructor
  · rintro ⟨h1, h2, h3, h4⟩
    have := Matches_bounds h3
    exact ⟨h1, by omega, (noNul_iff (by omega)).mp h2, h3⟩
  · rintro ⟨h1, h2, h3, h4⟩
    exact ⟨h1, (noNul_iff h2).mpr h3, h4, (Matches_bounds h4).2 h2⟩

theorem Compiled.matchAt_observed {r : Re} {P : Prog} (h : Compiled r P) (hr : r.counted = false) {t : List UCS4} {junk fuel off : Nat} {res : RVal}
    (hm : P.matchAt junk fuel t off = .ok res) :
    (res.succeeded = true ↔ ∃ j, off ≤ t.length ∧ Matches t r off j) ∧
    (res.succeeded = true → res.offset = off ∧ Matches t r off (off + res.length) ∧
      ∀ j, Matches t r off j → j ≤ off + res.length) := by
  have hb : BestLL res (fun c j => c = off ∧ off ≤ t.length ∧ Matches t r off j) := by
    refine (h.matchAt hr hm).congr fun c j => ?_
    constructor
    · rintro ⟨h1, h2, h3⟩
      have := Matches_bounds h2
      exact ⟨h1, by omega, h2⟩
    · rintro ⟨h1, h2, h3⟩
      exact ⟨h1, h3, (Matches_bounds h3).2 h2⟩
  have := hb.observed fun c j hm => by have := Matches_bounds hm.2.2; omega
  refine ⟨this.1.trans ⟨?_, ?_⟩, fun hs => ?_⟩
  · rintro ⟨c, j, h1, h2, h3⟩; exact ⟨j, h2, h3⟩
  · rintro ⟨j, h2, h3⟩; exact ⟨off, j, rfl, h2, h3⟩
  · obtain ⟨⟨h1, h2, h3⟩, -, h5⟩ := this.2 hs
    rw [h1] at h3 h5
    exact ⟨h1, h3, fun j hj => h5 j ⟨rfl, h2, hj⟩⟩

end Strpp.Rx
