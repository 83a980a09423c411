import Verif.Props.StrVal
import Verif.Proof.StrFindExact
/-! C79: what comparing and searching strings gives in every case, also where it looks beyond the end of a slice. -/
set_option linter.unusedSimpArgs false
namespace Strpp.SV

open Spec Arr

/-- The text that follows the slice `v` in its storage; the string itself does not show it. -/
def following (s : State) (v : Nat) : List UCS4 :=
  match s.vars[v]? with
  | some (some x) =>
    match s.bodies[x.body]? with
    | some b => (decodeAll b.arr.elems.dropLast).drop (x.off + x.num)
    | none => []
  | _ => []

theorem Reached.strFollow {s : State} (h : Reached s) {v : Nat} {t : List UCS4} (hv : view s v = some t) :
    ∃ σ pre, getStr s v = .ok σ ∧ Den σ pre t (following s v) := by
  obtain ⟨x, b, pre, post, hx, hb, hd, -⟩ := h.inv.1.txt hv
  have : following s v = post := by
    unfold following
    have h2 := hd.off
    have h3 := hd.num
    simp only at h2 h3
    rw [hx]
    simp only
    rw [hb]
    simp only
    rw [den_text hd.body, h2, h3, ← List.length_append, List.drop_left]
  rw [this]
  exact ⟨_, pre, getStr_ok hx hb, hd⟩

/-- C79. `compare` in all cases: 0 exactly for equal texts; negative if the first text comes before the second in the
dictionary, and also if the second is a beginning of the first but goes on, in its storage, with something greater. (The
only case left out: the first text goes on with a NUL character after all that is stored of the second.) -/
theorem C79_compare {s : State} (h : Reached s) {v w : Nat} {t u : List UCS4} (hv : view s v = some t) (hw : view s w = some u)
    (hn : ¬ ∃ r, t = u ++ following s w ++ 0#32 :: r) :
    ∃ σ τ r, getStr s v = .ok σ ∧ getStr s w = .ok τ ∧ σ.compare τ = .ok r ∧ (r = 0 ↔ t = u) ∧
      (r < 0 ↔ CharsLt t u ∨ ((∃ c x, t = u ++ c :: x) ∧ CharsLt t (u ++ following s w) ∧ ¬ t <+: u ++ following s w)) := by
  obtain ⟨σ, p1, e1, d1⟩ := h.strFollow hv
  obtain ⟨τ, p2, e2, d2⟩ := h.strFollow hw
  obtain ⟨r, h1, h2, h3⟩ := d1.compareExact d2 hn
  exact ⟨σ, τ, r, e1, e2, h1, h2, h3⟩

theorem next_eq {post : List UCS4} : [nextOf post] = (post ++ [0#32]).take 1 := by
  cases post <;> rfl

/-- C79. The forward searches for one character (`hit` is: equal to it, in the set, not in the set) look at the text and at
the one character stored after it, NUL at the end of the storage; for an index below -1 they find nothing. -/
theorem C79_find {s : State} (h : Reached s) {v w : Nat} {t u : List UCS4} (hv : view s v = some t) (hw : view s w = some u) (ch : UCS4)
    (after : Int) (ha : -2147483648 ≤ after ∧ after < 2147483647) :
    ∃ σ τ r1 r2 r3, getStr s v = .ok σ ∧ getStr s w = .ok τ ∧
      σ.find ch after = .ok r1 ∧ σ.findAny τ after = .ok r2 ∧ σ.findNot τ after = .ok r3 ∧
      (-1 ≤ after →
        IsFirst (fun i => ∃ c, (t ++ [(following s v).headD 0#32])[i]? = some c ∧ ch = c) (after + 1).toNat (t.length + 1) r1 ∧
        IsFirst (fun i => ∃ c, (t ++ [(following s v).headD 0#32])[i]? = some c ∧ c ∈ u) (after + 1).toNat (t.length + 1) r2 ∧
        IsFirst (fun i => ∃ c, (t ++ [(following s v).headD 0#32])[i]? = some c ∧ c ∉ u) (after + 1).toNat (t.length + 1) r3) ∧
      (after < -1 → r1 = -1 ∧ r2 = -1 ∧ r3 = -1) := by
  obtain ⟨σ, p1, e1, d1⟩ := h.strFollow hv
  obtain ⟨τ, p2, e2, d2⟩ := h.strFollow hw
  rcases (show -1 ≤ after ∨ after < -1 by omega) with hc | hc
  · obtain ⟨r1, a1, b1⟩ := findFrom d1 (fun c => .ok (ch == c)) (fun c => ch = c) (fun c => by congr 1) after ⟨hc, ha.2⟩
    obtain ⟨r2, a2, b2⟩ := findFrom d1 τ.has (fun c => c ∈ u) (fun c => has_spec d2 c) after ⟨hc, ha.2⟩
    obtain ⟨r3, a3, b3⟩ := findFrom d1 τ.hasNot (fun c => c ∉ u) (fun c => hasNot_spec d2 c) after ⟨hc, ha.2⟩
    exact ⟨σ, τ, r1, r2, r3, e1, e2, a1, a2, a3, fun _ => ⟨b1, b2, b3⟩, fun h => by omega⟩
  · exact ⟨σ, τ, -1, -1, -1, e1, e2, find_before d1 _ after ⟨ha.1, hc⟩, find_before d1 _ after ⟨ha.1, hc⟩,
      find_before d1 _ after ⟨ha.1, hc⟩, fun h => by omega, fun _ => ⟨rfl, rfl, rfl⟩⟩

/-- What a backward search for one character gives, for every bound: with -1 or a bound up to the length, the last match
below the bound; with the length + 1, the character stored after the text is looked at too; beyond that, or below -1,
nothing is found. -/
def BackOutcome (p : UCS4 → Prop) (t : List UCS4) (next : UCS4) (before r : Int) : Prop :=
  if before = -1 then IsLast (fun i => ∃ c, t[i]? = some c ∧ p c) t.length r
  else if 0 ≤ before ∧ before ≤ t.length then IsLast (fun i => ∃ c, t[i]? = some c ∧ p c) before.toNat r
  else if before = (t.length : Int) + 1 then IsLast (fun i => ∃ c, (t ++ [next])[i]? = some c ∧ p c) (t.length + 1) r
  else r = -1

theorem back_outcome {σ : Str} {pre t post : List UCS4} (h : Den σ pre t post) (hit : UCS4 → Res Bool) (p : UCS4 → Prop) [DecidablePred p]
    (hh : ∀ c, hit c = .ok (decide (p c))) (before : Int) (hb : -2147483648 ≤ before ∧ before < 2147483648) :
    ∃ r, σ.rfindLoop hit (σ.num + 2) (σ.rstart before) = .ok r ∧ BackOutcome p t (nextOf post) before r := by
  unfold BackOutcome
  by_cases h1 : before = -1
  · obtain ⟨r, e, hr⟩ := rfindFrom h hit p hh before (Or.inl h1)
    rw [if_pos h1] at hr
    exact ⟨r, e, by rw [if_pos h1]; exact hr⟩
  · by_cases h2 : 0 ≤ before ∧ before ≤ t.length
    · obtain ⟨r, e, hr⟩ := rfindFrom h hit p hh before (Or.inr h2)
      rw [if_neg h1] at hr
      exact ⟨r, e, by rw [if_neg h1, if_pos h2]; exact hr⟩
    · simp only [if_neg h1, if_neg h2]
      obtain ⟨g1, g2⟩ := rfindOther h hit p hh before hb
      by_cases h3 : before = (t.length : Int) + 1
      · simp only [if_pos h3]; exact g1 h3
      · simp only [if_neg h3]; exact ⟨-1, g2 (by omega), rfl⟩

/-- C79. The backward searches for one character, for every bound. -/
theorem C79_rfind {s : State} (h : Reached s) {v w : Nat} {t u : List UCS4} (hv : view s v = some t) (hw : view s w = some u) (ch : UCS4)
    (before : Int) (hb : -2147483648 ≤ before ∧ before < 2147483648) :
    ∃ σ τ r1 r2 r3, getStr s v = .ok σ ∧ getStr s w = .ok τ ∧
      σ.rfind ch before = .ok r1 ∧ σ.rfindAny τ before = .ok r2 ∧ σ.rfindNot τ before = .ok r3 ∧
      BackOutcome (fun c => ch = c) t ((following s v).headD 0#32) before r1 ∧
      BackOutcome (fun c => c ∈ u) t ((following s v).headD 0#32) before r2 ∧
      BackOutcome (fun c => c ∉ u) t ((following s v).headD 0#32) before r3 := by
  obtain ⟨σ, p1, e1, d1⟩ := h.strFollow hv
  obtain ⟨τ, p2, e2, d2⟩ := h.strFollow hw
  obtain ⟨r1, a1, b1⟩ := back_outcome d1 (fun c => .ok (ch == c)) (fun c => ch = c) (fun c => by congr 1) before hb
  obtain ⟨r2, a2, b2⟩ := back_outcome d1 τ.has (fun c => c ∈ u) (fun c => has_spec d2 c) before hb
  obtain ⟨r3, a3, b3⟩ := back_outcome d1 τ.hasNot (fun c => c ∉ u) (fun c => hasNot_spec d2 c) before hb
  exact ⟨σ, τ, r1, r2, r3, e1, e2, a1, a2, a3, b1, b2, b3⟩

/-- `u` lies in `t` at index `i` -/
def LiesAt (u t : List UCS4) (i : Nat) : Prop := u <+: t.drop i

theorem lies_iff (u t : List UCS4) (i : Nat) : LiesAt u t i ↔ OccursAt u t i := by
  unfold LiesAt OccursAt
  rw [List.prefix_iff_eq_take]
  exact ⟨fun h => h.symm, fun h => h.symm⟩

theorem lies_inside {u t q : List UCS4} {i : Nat} (h : i + u.length ≤ t.length) : OccursAt u t i ↔ LiesAt u (t ++ q) i := by
  rw [lies_iff]
  unfold OccursAt
  rw [List.drop_append_of_le_length (by omega), List.take_append_of_le_length (by rw [List.length_drop]; omega)]

theorem first_iff {p q : Nat → Prop} {a b : Nat} (hpq : ∀ i, a ≤ i → i < b → (p i ↔ q i)) {r : Int} (h : IsFirst p a b r) : IsFirst q a b r := by
  rcases h with ⟨i, h1, h2, h3, h4, h5⟩ | ⟨h1, h2⟩
  · exact Or.inl ⟨i, h1, h2, h3, (hpq i h2 h3).mp h4, fun j j1 j2 hq => h5 j j1 j2 ((hpq j j1 (by omega)).mpr hq)⟩
  · exact Or.inr ⟨h1, fun j j1 j2 hq => h2 j j1 j2 ((hpq j j1 j2).mpr hq)⟩

theorem last_iff {p q : Nat → Prop} {b : Nat} (hpq : ∀ i, i < b → (p i ↔ q i)) {r : Int} (h : IsLast p b r) : IsLast q b r := by
  rcases h with ⟨i, h1, h2, h3, h4⟩ | ⟨h1, h2⟩
  · exact Or.inl ⟨i, h1, h2, (hpq i h2).mp h3, fun j j1 j2 hq => h4 j j1 j2 ((hpq j j2).mpr hq)⟩
  · exact Or.inr ⟨h1, fun j j2 hq => h2 j j2 ((hpq j j2).mpr hq)⟩

/-- C79. `find(string, after)`: a string that is not longer is looked for in the text. A longer one (without NUL
characters) is looked for in the text *and what follows it in the storage*, at every index up to the length. -/
theorem C79_findStr {s : State} (h : Reached s) {v w : Nat} {t u : List UCS4} (hv : view s v = some t) (hw : view s w = some u)
    (after : Int) (ha : -2147483648 ≤ after ∧ after < 2147483647) (hz : t.length < u.length → ∀ c ∈ u, c ≠ 0#32) :
    ∃ σ τ r, getStr s v = .ok σ ∧ getStr s w = .ok τ ∧ σ.findStr τ after = .ok r ∧
      (-1 ≤ after → IsFirst (LiesAt u (t ++ following s v)) (after + 1).toNat
        (if u.length ≤ t.length then t.length - u.length + 1 else t.length + 1) r) ∧
      (after < -1 → r = -1) := by
  obtain ⟨σ, p1, e1, d1⟩ := h.strFollow hv
  obtain ⟨τ, p2, e2, d2⟩ := h.strFollow hw
  have hcap := d1.cap
  have hcap2 := d2.cap
  rcases (show -1 ≤ after ∨ after < -1 by omega) with hc | hc
  · by_cases hle : u.length ≤ t.length
    · obtain ⟨r, e, hr⟩ := d1.findStr d2 hle after ⟨hc, ha.2⟩
      rw [if_pos hle]
      exact ⟨σ, τ, r, e1, e2, e, fun _ => first_iff (fun i h1 h2 => lies_inside (by omega)) hr, fun h => by omega⟩
    · have key : ∃ r, σ.findStr τ after = .ok r ∧ IsFirst (OccursAt u (t ++ following s v)) (after + 1).toNat (t.length + 1) r := by
        unfold Str.findStr
        rw [d2.nthC 0 (by omega), res_bind_ok]
        simp only [deref, res_bind_ok]
        have hw : wrap (after + 1) = (after + 1).toNat := by unfold wrap; omega
        have hlast : t.length < wrap ((t.length : Int) - u.length) := by unfold wrap; omega
        rw [bpos_mid p2 u _ 0 (by omega), bpos_zero, Nat.add_zero, d1.num, d2.num, hw]
        rcases Nat.lt_or_ge (t.length + 1) (after + 1).toNat with hlt | hge
        · unfold Str.findStrLoop
          split
          · rw [d1.nthC_out _ (by omega), res_bind_ok]
            exact ⟨-1, rfl, Or.inr ⟨rfl, fun j h1 h2 => by omega⟩⟩
          · exact ⟨-1, rfl, Or.inr ⟨rfl, fun j h1 h2 => by omega⟩⟩
        · exact findStrLoop_over d1 d2 (hz (by omega)) _ hlast (t.length + 1 - (after + 1).toNat) _ _ (by omega) (by omega)
      obtain ⟨r, e, hr⟩ := key
      rw [if_neg hle]
      exact ⟨σ, τ, r, e1, e2, e, fun _ => first_iff (fun i h1 h2 => (lies_iff _ _ _).symm) hr, fun h => by omega⟩
  · refine ⟨σ, τ, -1, e1, e2, ?_, fun h => by omega, fun _ => rfl⟩
    unfold Str.findStr
    rw [d2.nthC 0 (by omega), res_bind_ok]
    simp only [deref, res_bind_ok]
    unfold Str.findStrLoop
    split
    · rw [d1.nthC_out _ (by unfold wrap; omega), res_bind_ok]
    · rfl

/-- C79. `rfind(string, before)`: a string that is not longer is looked for from the end for the bounds -1, 0 and below,
and else from the bound down. A longer one (without NUL characters) is found only for a bound from 1 to the length + 1,
and then in the text and what follows it in the storage. -/
theorem C79_rfindStr {s : State} (h : Reached s) {v w : Nat} {t u : List UCS4} (hv : view s v = some t) (hw : view s w = some u)
    (before : Int) (hb : -2147483647 ≤ before ∧ before < 2147483648) (hz : t.length < u.length → ∀ c ∈ u, c ≠ 0#32) :
    ∃ σ τ r, getStr s v = .ok σ ∧ getStr s w = .ok τ ∧ σ.rfindStr τ before = .ok r ∧
      (u.length ≤ t.length → IsLast (LiesAt u (t ++ following s v))
        (if before ≤ 0 then t.length - u.length + 1 else min before.toNat (t.length - u.length + 1)) r) ∧
      (t.length < u.length → if 1 ≤ before ∧ before ≤ (t.length : Int) + 1
        then IsLast (LiesAt u (t ++ following s v)) before.toNat r else r = -1) := by
  obtain ⟨σ, p1, e1, d1⟩ := h.strFollow hv
  obtain ⟨τ, p2, e2, d2⟩ := h.strFollow hw
  have hcap := d1.cap
  have hcap2 := d2.cap
  by_cases hle : u.length ≤ t.length
  · have key : ∃ r, σ.rfindStr τ before = .ok r ∧ IsLast (OccursAt u t)
        (if before ≤ 0 then t.length - u.length + 1 else min before.toNat (t.length - u.length + 1)) r := by
      by_cases hb0 : before = -1 ∨ 0 < before
      · obtain ⟨r, e, hr⟩ := d1.rfindStr d2 hle before hb0 hb.2
        refine ⟨r, e, ?_⟩
        rcases hb0 with hb0 | hb0
        · rw [if_pos hb0] at hr; rw [if_pos (by omega)]; exact hr
        · rw [if_neg (by omega)] at hr; rw [if_neg (by omega)]; exact hr
      · rw [if_pos (by omega)]
        unfold Str.rfindStr
        rw [d2.nthC 0 (by omega), res_bind_ok]
        simp only [deref, res_bind_ok]
        rw [bpos_mid p2 u _ 0 (by omega), bpos_zero, Nat.add_zero, d1.num, d2.num, wrap_of_nonneg hle (by omega)]
        have hne : (before == -1) = false := by simp; omega
        simp only [hne, Bool.false_eq_true, ↓reduceIte]
        have hw : t.length - u.length < wrap (before - 1) := by unfold wrap; omega
        rw [if_pos hw]
        exact rfindStrLoop_spec d1 d2 hle _ _ (Nat.le_refl _) (by omega)
    obtain ⟨r, e, hr⟩ := key
    refine ⟨σ, τ, r, e1, e2, e, fun _ => last_iff (fun i hi => lies_inside ?_) hr, fun h => by omega⟩
    split at hi <;> omega
  · have key : ∃ r, σ.rfindStr τ before = .ok r ∧ (if 1 ≤ before ∧ before ≤ (t.length : Int) + 1
        then IsLast (OccursAt u (t ++ following s v)) before.toNat r else r = -1) := by
      unfold Str.rfindStr
      rw [d2.nthC 0 (by omega), res_bind_ok]
      simp only [deref, res_bind_ok]
      rw [bpos_mid p2 u _ 0 (by omega), bpos_zero, Nat.add_zero, d1.num, d2.num]
      have hlast : t.length < wrap ((t.length : Int) - u.length) := by unfold wrap; omega
      by_cases hin : 1 ≤ before ∧ before ≤ (t.length : Int) + 1
      · simp only [if_pos hin]
        have hne : (before == -1) = false := by simp; omega
        simp only [hne, Bool.false_eq_true, ↓reduceIte]
        have hw : wrap (before - 1) = before.toNat - 1 := by unfold wrap; omega
        rw [hw, if_neg (by omega)]
        obtain ⟨r, e, hr⟩ := rfindStrLoop_over d1 d2 (hz (by omega)) (before.toNat - 1) (t.length + 2) (by omega) (by omega)
        rw [show before.toNat - 1 + 1 = before.toNat by omega] at hr
        exact ⟨r, e, hr⟩
      · simp only [if_neg hin]
        refine ⟨-1, ?_, rfl⟩
        unfold Str.rfindStrLoop
        rw [d1.nthC_out, res_bind_ok]
        have hw : before ≠ -1 → t.length < wrap (before - 1) := by unfold wrap; omega
        by_cases hm1 : before = -1
        · simp only [hm1, beq_self_eq_true, ↓reduceIte, ite_self]
          exact hlast
        · have hne : (before == -1) = false := by simp; omega
          simp only [hne, Bool.false_eq_true, ↓reduceIte]
          split
          · exact hlast
          · exact hw hm1
    obtain ⟨r, e, hr⟩ := key
    refine ⟨σ, τ, r, e1, e2, e, fun h => by omega, fun _ => ?_⟩
    split
    · rename_i hin
      rw [if_pos hin] at hr
      exact last_iff (fun i hi => (lies_iff _ _ _).symm) hr
    · rename_i hin
      rw [if_neg hin] at hr
      exact hr

/-- C79. `shorter(n)` for every `n`: without the last `n` characters; the whole string for the length + 1; nothing beyond
that, up to 2^31. -/
theorem C79_shorter (S : Type) {s : State} (h : Reached s) {w : Nat} {t : List UCS4} (hv : view s w = some t) (n : Nat)
    (hn : n < 2147483648) :
    Makes (S := S) s (.shorter w n) (if n ≤ t.length then t.take (t.length - n) else if n = t.length + 1 then t else []) := by
  by_cases hle : n ≤ t.length
  · rw [if_pos hle]; exact C25_shorter S h hv n hle
  · rw [if_neg hle]
    have ht := h.inv.1.txt hv
    have ht' := ht
    obtain ⟨x, b, pre, post, hx, hb, hd, he⟩ := ht
    have hcap := hd.cap
    have hnum := hd.num
    simp only at hnum
    have hi : toInt (wrap ((x.num : Int) - n)) = (t.length : Int) - n := by
      rw [hnum]; unfold toInt wrap; split <;> omega
    obtain ⟨s', e1, e2⟩ := substr_made h.inv.1 ht' 0 ((t.length : Int) - n) h.inv.2 (by omega)
    have e : exec (S := S) s (.shorter w n) = .ok s' := by
      show shorter s w n = .ok s'
      unfold shorter
      rw [getVar_ok hx, res_bind_ok, hi]
      exact e1
    have hT : ∀ v, ¬ targets (S := S) (.shorter w n) v := fun _ hh => hh
    have := makes_of h e e2 hT
    by_cases h1 : n = t.length + 1
    · rw [if_pos h1]
      rw [if_neg (by omega), if_pos (by omega)] at this
      simpa using this
    · rw [if_neg h1]
      rw [if_pos (by omega)] at this
      exact this

/-! ### Non-vacuity: each of the surprising cases occurs -/

-- "ab" against the slice "a" of "ac": misled; against "a" of "ab" (a beginning of it): right
example : compareAfter [.ofC [0x61#8, 0x62#8, 0#8], .ofC [0x61#8, 0x63#8, 0#8], .head 1 1] 0 2 = .ok (-1) ∧
    compareAfter [.ofC [0x61#8, 0x62#8, 0#8], .head 0 1] 0 1 = .ok 1 := by decide +kernel

def followSample : List (Op Unit) := [.ofC [0x61#8, 0x62#8, 0#8], .ofC [0x61#8, 0x63#8, 0#8], .head 1 1]

-- bound = length + 1: the hidden character; bound = length + 2: nothing
example : findAfter followSample 2 0 (fun σ _ => σ.rfind 0x63#32 2) = .ok 1 ∧ findAfter followSample 2 0 (fun σ _ => σ.rfind 0x61#32 3) = .ok (-1) ∧
    findAfter followSample 2 0 (fun σ _ => σ.rfind 0x61#32 1) = .ok 0 ∧ findAfter followSample 2 0 (fun σ _ => σ.find 0x61#32 (-5)) = .ok (-1) := by decide +kernel

-- a longer string, found across the end of the slice, and from the bound 1 only
example : findAfter followSample 2 1 (fun σ τ => σ.findStr τ (-1)) = .ok 0 ∧ findAfter followSample 2 1 (fun σ τ => σ.rfindStr τ 1) = .ok 0 ∧
    findAfter followSample 2 1 (fun σ τ => σ.rfindStr τ (-1)) = .ok (-1) := by decide +kernel

def followBody : SBody := ⟨⟨[0x61#8, 0x63#8, 0#8, 0#8, 0#8, 0#8, 0#8, 0#8], 3, 8, false⟩, 2⟩
def followState : State := ⟨[nullBody, followBody], [some ⟨1, 0, 2, ⟨0, 0⟩⟩, some ⟨1, 0, 1, ⟨0, 0⟩⟩]⟩

-- the slice "a" of "ac", in a reached state: what follows it is "c"
theorem follow_reached : Reached followState := by
  refine ⟨Unit, noMeaning, [.ofC [0x61#8, 0x63#8, 0#8], .head 0 1], ?_, by decide +kernel⟩
  refine SafeRun.cons (s1 := ⟨[nullBody, followBody], [some ⟨1, 0, 2, ⟨0, 0⟩⟩]⟩) (by decide +kernel)
    ⟨[0x61#32, 0x63#32], [], by decide +kernel, small_good _ (by simp), by simp, by decide +kernel⟩ ?_
  exact SafeRun.cons (s1 := followState) (by decide +kernel) (by unfold Safe; decide +kernel) trivial

example : following followState 1 = [0x63#32] ∧ view followState 1 = some [0x61#32] := by decide +kernel

end Strpp.SV
