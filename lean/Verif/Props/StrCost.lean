import Verif.Proof.StrCost
/-! C102: how far indexing a string walks. `getRounds`, `scanRounds` (Verif/Model/StrCost.lean) count the characters that
the loops of the code look at; `walk`, `sumTo` are in Verif/Spec/StrCost.lean. -/
set_option linter.unusedSimpArgs false
namespace Strpp.SV

open Spec Arr

/-- how many characters the storage of a string has -/
def storedChars (σ : Str) : Nat := (decodeAll σ.b.arr.elems.dropLast).length

/-- how many bytes its storage has, without the NUL -/
def storedBytes (σ : Str) : Nat := σ.b.arr.elems.dropLast.length

theorem Den.stored {σ : Str} {pre t post : List UCS4} (h : Den σ pre t post) :
    storedChars σ = (pre ++ t ++ post).length ∧ storedBytes σ = σ.b.arr.num - 1 := by
  constructor
  · unfold storedChars; rw [den_text h.body]
  · unfold storedBytes; rw [List.length_dropLast, h.body.wf.length]

/-- C102. Reading character `k` of a string looks at no character on the way if it is the first of its storage or the
characters have been counted and are one byte each; otherwise at as many as lie between it and the nearer of the places
around it that are known (the beginning, the end, the bookmark), and first at all of them if they have not been counted. -/
theorem C102_access {s : State} (h : Reached s) {v : Nat} {t : List UCS4} (hv : view s v = some t) :
    ∃ σ, getStr s v = .ok σ ∧ ∀ k, k < t.length →
      σ.getRounds k =
        if σ.off + k = 0 ∨ σ.b.nc = storedBytes σ then 0
        else (if σ.b.nc = 0 then storedChars σ else 0) + walk (storedChars σ) σ.mark.cn (σ.off + k) := by
  obtain ⟨σ, pre, post, e, hd, -⟩ := h.str hv
  refine ⟨σ, e, fun k hk => ?_⟩
  obtain ⟨e1, e2⟩ := hd.stored
  rw [e1, e2]
  unfold Str.getRounds
  rw [if_neg (by rw [hd.num]; omega)]
  exact nthRounds_spec hd.body (σ.off + k) (by rw [hd.off]; simp; omega) σ.mark hd.mark

/-- C102. So never at more than all characters of the storage, once counted, and if there is no bookmark, or one inside the
storage, not at more than half of them. -/
theorem C102_bound {s : State} (h : Reached s) {v : Nat} {t : List UCS4} (hv : view s v = some t) :
    ∃ σ, getStr s v = .ok σ ∧ (σ.b.nc ≠ 0 → ∀ k, k < t.length →
      σ.getRounds k ≤ storedChars σ ∧ (σ.mark.cn ≤ storedChars σ → 2 * σ.getRounds k ≤ storedChars σ)) := by
  obtain ⟨σ, e, hh⟩ := C102_access h hv
  refine ⟨σ, e, fun hc k hk => ?_⟩
  obtain ⟨σ', pre, post, e', hd, -⟩ := h.str hv
  rw [e] at e'; cases e'
  have hle : σ.off + k ≤ storedChars σ := by rw [hd.stored.1, hd.off]; simp; omega
  rw [hh k hk, if_neg hc]
  split
  · constructor
    · omega
    · intro _; omega
  · unfold walk
    constructor
    · split
      · omega
      · split <;> omega
    · intro hm
      split
      · omega
      · split <;> omega

/-- C102. Reading all `n` characters of a string one after the other, from the first to the last, looks at a quarter of
`n * n` characters if its characters are counted, not all one byte each, it shows its whole storage and it has no bookmark:
an access does not leave a bookmark for the next. -/
theorem C102_scan {s : State} (h : Reached s) {v : Nat} {t : List UCS4} (hv : view s v = some t) {σ : Str} (hσ : getStr s v = .ok σ)
    (hw : σ.off = 0 ∧ t.length = storedChars σ) (hc : σ.b.nc ≠ 0) (hb : storedBytes σ ≠ storedChars σ) (hm : σ.mark.cn = 0) :
    4 * σ.scanRounds t.length ≤ t.length * t.length ∧ t.length * t.length ≤ 4 * σ.scanRounds t.length + 1 := by
  obtain ⟨σ', e, hh⟩ := C102_access h hv
  rw [hσ] at e; cases e
  obtain ⟨σ', pre, post, e', hd, -⟩ := h.str hv
  rw [hσ] at e'; cases e'
  have hnc : σ.b.nc = storedChars σ := by
    rw [hd.stored.1]
    rcases hd.body.nc with g | g
    · exact absurd g hc
    · exact g
  have hsum : sumTo σ.getRounds t.length = sumTo (fun k => min k (t.length - k)) t.length := by
    refine sumTo_congr _ (fun k hk => ?_)
    rw [hh k hk, hw.1, Nat.zero_add, if_neg hc, hm, ← hw.2]
    by_cases h0 : k = 0
    · subst h0; simp
    · rw [if_neg (by rintro (g | g); exact h0 g; exact hb (by rw [← g, hnc])), Nat.zero_add]
      unfold walk
      rw [if_pos rfl]
  rw [scan_sum, hsum]
  exact sum_min _

/-- C102. If its characters are counted and one byte each, no access looks at any on the way. -/
theorem C102_one_byte {s : State} (h : Reached s) {v : Nat} {t : List UCS4} (hv : view s v = some t) {σ : Str} (hσ : getStr s v = .ok σ)
    (hc : σ.b.nc ≠ 0) (hb : storedBytes σ = storedChars σ) : σ.scanRounds t.length = 0 := by
  obtain ⟨σ', e, hh⟩ := C102_access h hv
  rw [hσ] at e; cases e
  obtain ⟨σ', pre, post, e', hd, -⟩ := h.str hv
  rw [hσ] at e'; cases e'
  have hnc : σ.b.nc = storedChars σ := by
    rw [hd.stored.1]
    rcases hd.body.nc with g | g
    · exact absurd g hc
    · exact g
  rw [scan_sum]
  have key : ∀ n, n ≤ t.length → sumTo σ.getRounds n = 0 := by
    intro n
    induction n with
    | zero => intro _; rfl
    | succ n ih =>
      intro hn
      rw [sumTo, ih (by omega), hh n (by omega), if_pos (Or.inr (by rw [hnc, hb]))]
  exact key _ (Nat.le_refl _)

/-- the characters looked at by reading the first `n` characters of variable `v` after a history, and by reading the last
of them only -/
def scanAfter (ops : List (Op Unit)) (v n : Nat) : Res (Nat × Nat) := do
  let s ← execAll State.init ops
  let σ ← getStr s v
  .ok (σ.scanRounds n, σ.getRounds (n - 1))

/-- "éabcdefghi" read through looks at 25 characters, "abcdefghij" at none, and a part of the former from its middle on is
as far from both ends; a string just made is counted. -/
example : scanAfter [.ofC [0xC3#8, 0xA9#8, 0x61#8, 0x62#8, 0x63#8, 0x64#8, 0x65#8, 0x66#8, 0x67#8, 0x68#8, 0x69#8, 0#8]] 0 10 = .ok (25, 1) ∧
    scanAfter [.ofC [0x61#8, 0x62#8, 0x63#8, 0x64#8, 0x65#8, 0x66#8, 0x67#8, 0x68#8, 0x69#8, 0x6A#8, 0#8]] 0 10 = .ok (0, 0) ∧
    scanAfter [.ofC [0xC3#8, 0xA9#8, 0x61#8, 0x62#8, 0x63#8, 0x64#8, 0x65#8, 0x66#8, 0x67#8, 0x68#8, 0x69#8, 0#8], .substr 0 4 3] 1 3 = .ok (13, 4) := by
  decide +kernel

/-- Non-vacuity of C102_scan's hypotheses: "aéc" in `sampleState`. -/
example : ∃ σ, getStr sampleState 0 = .ok σ ∧ (σ.off = 0 ∧ [0x61#32, 0xE9#32, 0x63#32].length = storedChars σ) ∧ σ.b.nc ≠ 0 ∧
    storedBytes σ ≠ storedChars σ ∧ σ.mark.cn = 0 := ⟨_, rfl, by decide +kernel, by decide +kernel, by decide +kernel, by decide +kernel⟩

end Strpp.SV
