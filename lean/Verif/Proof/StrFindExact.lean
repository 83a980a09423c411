import Verif.Proof.StrFind
/-! Comparing and finding strings when the bytes compared lie beyond the end of a slice. -/
set_option linter.unusedSimpArgs false
namespace Strpp.SV

open Spec Arr

theorem memcmp_flip (m1 m2 : List Byte) : ∀ (n p1 p2 : Nat) (c : Int), memcmp m1 p1 m2 p2 n = .ok c → memcmp m2 p2 m1 p1 n = .ok (-c)
  | 0, _, _, c, h => by cases h; rfl
  | n + 1, p1, p2, c, h => by
    unfold memcmp at h ⊢
    cases ha : rd m1 p1 with
    | error e => rw [ha] at h; cases h
    | ok a =>
    cases hb : rd m2 p2 with
    | error e => rw [ha, hb] at h; cases h
    | ok b =>
    rw [ha, res_bind_ok, hb, res_bind_ok] at h
    rw [res_bind_ok, res_bind_ok]
    by_cases hab : a = b
    · subst hab
      rw [if_pos (by simp)] at h
      rw [if_pos (by simp)]
      exact memcmp_flip m1 m2 n _ _ c h
    · rw [if_neg (by simpa using hab)] at h
      rw [if_neg (by simpa using Ne.symm hab)]
      cases h
      congr 1; omega

/-- Comparing the bytes of `t` with those of a text `x` that ends with a NUL -/
theorem memcmp_text (m1 m2 A B R1 R2 : List Byte) (t x : List UCS4) (h1 : m1 = A ++ (encodeAll t ++ R1))
    (h2 : m2 = B ++ (encodeAll x ++ ([0#8] ++ R2))) (g1 : ∀ c ∈ t, ¬ Reserved c) (g2 : ∀ c ∈ x, ¬ Reserved c)
    (hn : ¬ ∃ r, t = x ++ 0#32 :: r) :
    ∃ c, memcmp m1 A.length m2 B.length (encodeAll t).length = .ok c ∧ (c = 0 ↔ t <+: x) ∧
      (c < 0 → CharsLt t x ∧ ¬ t <+: x) ∧ (0 < c → CharsLt x t) := by
  have notpre : CharsLt x t → ¬ t <+: x := by
    rintro hlt ⟨r, rfl⟩
    cases r with
    | nil => rw [List.append_nil] at hlt; exact charsLt_irrefl _ hlt
    | cons c r => exact charsLt_asymm hlt (charsLt_prefix t c r)
  rcases diff_split t x with ⟨r, hr⟩ | ⟨c, r, hr⟩ | ⟨q, c, ra, d, rb, e1, e2, e3⟩
  · refine ⟨0, ?_, ⟨fun _ => ⟨r, hr.symm⟩, fun _ => rfl⟩, fun h => by omega, fun h => by omega⟩
    exact memcmp_same _ _ _ _ _ _ _ h1 (by rw [h2, hr, encodeAll_append, List.append_assoc])
  · have hc0 : c ≠ 0#32 := fun h => hn ⟨r, by rw [hr, h]⟩
    have hcr : ¬ Reserved c := g1 c (by rw [hr]; simp)
    obtain ⟨b, ds, v, hput, -, -, -⟩ := put_value c hcr
    have hb0 : b ≠ 0#8 := put_nz c hcr hc0 b (by rw [hput]; simp)
    have hm := memcmp_diff m1 m2 (ds ++ (encodeAll r ++ R1)) R2 b 0#8 hb0 (encodeAll x) A B (encodeAll t).length
      (by rw [h1, hr, encodeAll_append, encodeAll_cons, hput]; simp)
      (by rw [h2]; simp) (by rw [hr, encodeAll_append, encodeAll_cons, hput]; simp)
    have hbn : b.toNat ≠ 0 := fun e => hb0 (BitVec.eq_of_toNat_eq e)
    have hlt : CharsLt x t := by rw [hr]; exact charsLt_prefix x c r
    have e0 : ((0#8).toNat : Int) = 0 := rfl
    exact ⟨_, hm, ⟨fun h => by rw [e0] at h; omega, fun h => absurd h (notpre hlt)⟩, fun h => by rw [e0] at h; omega, fun _ => hlt⟩
  · have hcr : ¬ Reserved c := g1 c (by rw [e1]; simp)
    have hdr : ¬ Reserved d := g2 d (by rw [e2]; simp)
    obtain ⟨y, a, xa, b, xb, o1, o2, o3, o4⟩ := put_order c d hcr hdr e3
    have hm := memcmp_diff m1 m2 (xa ++ (encodeAll ra ++ R1)) (xb ++ (encodeAll rb ++ ([0#8] ++ R2))) a b o3
      (encodeAll q ++ y) A B (encodeAll t).length
      (by rw [h1, e1, encodeAll_append, encodeAll_cons, o1]; simp)
      (by rw [h2, e2, encodeAll_append, encodeAll_cons, o2]; simp)
      (by rw [e1, encodeAll_append, encodeAll_cons, o1]; simp)
    have hne : a.toNat ≠ b.toNat := fun e => o3 (BitVec.eq_of_toNat_eq e)
    have hn2 : c.toNat ≠ d.toNat := fun e => e3 (BitVec.eq_of_toNat_eq e)
    have hnp : ¬ t <+: x := by
      rintro ⟨r, hr⟩
      rw [e1, e2] at hr
      have := congrArg (fun l => l[q.length]?) hr
      simp at this
      exact e3 this
    refine ⟨_, hm, ⟨fun h => by omega, fun h => absurd h hnp⟩, fun h => ⟨?_, hnp⟩, fun h => ?_⟩
    · rw [e1, e2]; exact charsLt_diff q c d ra rb (o4.mp (by omega))
    · rw [e1, e2]
      refine charsLt_diff q d c rb ra ?_
      have : ¬ c.toNat < d.toNat := fun e => by have := o4.mpr e; omega
      omega

theorem toInt_wrap_diff {n m : Nat} (h : n < 1073741824) (hm : m < 1073741824) : toInt (wrap ((n : Int) - m)) = (n : Int) - m := by
  unfold toInt wrap
  split <;> omega

theorem Den.goodAll {σ : Str} {pre t post : List UCS4} (h : Den σ pre t post) : ∀ c ∈ t ++ post, ¬ Reserved c :=
  fun c hc => h.body.good c (by rw [List.append_assoc]; exact List.mem_append_right _ hc)

/-- `compare` in all cases: it is misled by what follows the comparand in its body. -/
theorem Den.compareExact {σ τ : Str} {p1 t q1 p2 u q2 : List UCS4} (h1 : Den σ p1 t q1) (h2 : Den τ p2 u q2)
    (hn : ¬ ∃ r, t = u ++ q2 ++ 0#32 :: r) :
    ∃ r, σ.compare τ = .ok r ∧ (r = 0 ↔ t = u) ∧ (r < 0 ↔ CharsLt t u ∨ ((∃ c w, t = u ++ c :: w) ∧ CharsLt t (u ++ q2) ∧ ¬ t <+: u ++ q2)) := by
  obtain ⟨s1, m1⟩ := h1.memAt
  obtain ⟨s2, m2⟩ := h2.memAt
  have sz1 := h1.size
  have sz2 := h2.size
  unfold Str.compare
  rw [h1.nthC 0 (by omega), res_bind_ok, h2.nthC 0 (by omega)]
  simp only [deref, res_bind_ok]
  rw [h1.numBytes, h2.numBytes]
  simp only [res_bind_ok]
  rw [bpos_mid p1 t q1 0 (by omega), bpos_zero, bpos_mid p2 u q2 0 (by omega), bpos_zero, Nat.add_zero, Nat.add_zero]
  obtain ⟨c, hm, c1, c2, c3⟩ := memcmp_text σ.b.arr.mem τ.b.arr.mem (encodeAll p1) (encodeAll p2) _ s2 t (u ++ q2) m1
    (by rw [m2, encodeAll_append]; simp) h1.good h2.goodAll hn
  rw [hm, res_bind_ok]
  by_cases hz : c = 0
  · rw [if_pos (by simpa using hz), toInt_wrap_diff (by omega) (by omega)]
    have hpre := c1.mp hz
    rcases List.prefix_or_prefix_of_prefix hpre (List.prefix_append u q2) with ⟨r, hr⟩ | ⟨r, hr⟩
    · have hl : (encodeAll u).length = (encodeAll t).length + (encodeAll r).length := by rw [← hr, encodeAll_append]; simp
      have hge := encodeAll_length_ge r
      refine ⟨_, rfl, ?_, ?_⟩
      · constructor
        · intro h
          have : r = [] := List.eq_nil_of_length_eq_zero (by omega)
          rw [← hr, this]; simp
        · rintro rfl; omega
      · constructor
        · intro h
          left
          cases r with
          | nil => simp at hl; omega
          | cons d r => rw [← hr]; exact charsLt_prefix t d r
        · rintro (h | ⟨-, -, h⟩)
          · cases r with
            | nil => rw [← hr, List.append_nil] at h; exact absurd h (charsLt_irrefl _)
            | cons d r => simp only [List.length_cons] at hge; omega
          · exact absurd hpre h
    · have hl : (encodeAll t).length = (encodeAll u).length + (encodeAll r).length := by rw [← hr, encodeAll_append]; simp
      have hge := encodeAll_length_ge r
      refine ⟨_, rfl, ?_, ?_⟩
      · constructor
        · intro h
          have : r = [] := List.eq_nil_of_length_eq_zero (by omega)
          rw [← hr, this]; simp
        · rintro rfl; omega
      · constructor
        · intro h; omega
        · rintro (h | ⟨-, -, h⟩)
          · cases r with
            | nil => rw [← hr, List.append_nil] at h; exact absurd h (charsLt_irrefl _)
            | cons d r => rw [← hr] at h; exact absurd h (charsLt_asymm (charsLt_prefix u d r))
          · exact absurd hpre h
  · rw [if_neg (by simpa using hz)]
    have hnp : ¬ t <+: u ++ q2 := fun h => hz (c1.mpr h)
    have htu : t ≠ u := fun h => hnp (by rw [h]; exact List.prefix_append u q2)
    have hord : CharsLt t (u ++ q2) ↔ c < 0 := by
      constructor
      · intro h
        rcases (show c < 0 ∨ 0 < c by omega) with g | g
        · exact g
        · exact absurd h (charsLt_asymm (c3 g))
      · exact fun h => (c2 h).1
    refine ⟨c, rfl, ⟨fun h => absurd h hz, fun h => absurd h htu⟩, ?_⟩
    rcases diff_split t u with ⟨r, hr⟩ | ⟨d, r, hr⟩ | ⟨q, d, ra, e, rb, e1, e2, e3⟩
    · exact absurd (by rw [hr]; exact ⟨r ++ q2, by simp⟩) hnp
    · have hno : ¬ CharsLt t u := by rw [hr]; exact charsLt_asymm (charsLt_prefix u d r)
      constructor
      · intro h; exact Or.inr ⟨⟨d, r, hr⟩, hord.mpr h, hnp⟩
      · rintro (h | ⟨-, h, -⟩)
        · exact absurd h hno
        · exact hord.mp h
    · have hnx : ¬ ∃ c w, t = u ++ c :: w := by
        rintro ⟨k, w, hk⟩
        rw [e1, e2] at hk
        have := congrArg (fun l => l[q.length]?) hk
        simp at this
        exact e3 this
      have hne : d.toNat ≠ e.toNat := fun h => e3 (BitVec.eq_of_toNat_eq h)
      constructor
      · intro h
        left
        rcases (show d.toNat < e.toNat ∨ e.toNat < d.toNat by omega) with g | g
        · rw [e1, e2]; exact charsLt_diff q d e ra rb g
        · have h' := hord.mpr h
          rw [e1, e2, List.append_assoc, List.cons_append] at h'
          exact absurd h' (charsLt_asymm (charsLt_diff q e d (rb ++ q2) ra g))
      · rintro (h | ⟨h, -⟩)
        · rcases (show d.toNat < e.toNat ∨ e.toNat < d.toNat by omega) with g | g
          · refine hord.mp ?_
            rw [e1, e2, List.append_assoc, List.cons_append]
            exact charsLt_diff q d e ra (rb ++ q2) g
          · rw [e1, e2] at h
            exact absurd h (charsLt_asymm (charsLt_diff q e d rb ra g))
        · exact absurd h hnx

/-- Searching forwards for an index below -1 finds nothing. -/
theorem find_before {σ : Str} {pre t post : List UCS4} (h : Den σ pre t post) (hit : UCS4 → Res Bool) (after : Int)
    (ha : -2147483648 ≤ after ∧ after < -1) : σ.findLoop hit (σ.num + 2) (wrap (after + 1)) = .ok (-1) := by
  have hcap := h.cap
  unfold Str.findLoop
  rw [h.nthC_out _ (by unfold wrap; omega), res_bind_ok]

/-- Searching backwards, in all cases not covered by `rfindFrom` -/
theorem rfindOther {σ : Str} {pre t post : List UCS4} (h : Den σ pre t post) (hit : UCS4 → Res Bool) (p : UCS4 → Prop) [DecidablePred p]
    (hh : ∀ c, hit c = .ok (decide (p c))) (before : Int) (hb : -2147483648 ≤ before ∧ before < 2147483648) :
    (before = (t.length : Int) + 1 → ∃ r, σ.rfindLoop hit (σ.num + 2) (σ.rstart before) = .ok r ∧
      IsLast (fun i => ∃ c, (t ++ [nextOf post])[i]? = some c ∧ p c) (t.length + 1) r) ∧
    (before < -1 ∨ (t.length : Int) + 1 < before → σ.rfindLoop hit (σ.num + 2) (σ.rstart before) = .ok (-1)) := by
  have hcap := h.cap
  have hn := h.num
  constructor
  · intro he
    have hs : σ.rstart before = t.length := by
      unfold Str.rstart
      rw [if_neg (by simp; omega)]
      unfold wrap; omega
    rw [hs]
    exact rfindLoop_spec h hit p hh t.length (σ.num + 2) (Nat.le_refl _) (by omega)
  · intro he
    unfold Str.rfindLoop
    have hs : t.length < σ.rstart before := by
      unfold Str.rstart
      rw [if_neg (by simp; omega)]
      unfold wrap; omega
    rw [h.nthC_out _ hs, res_bind_ok]

/-- comparing at any place of the string with a text without NUL characters -/
theorem memcmp_over {σ s1 : Str} {p1 t q1 p2 u q2 : List UCS4} (h1 : Den σ p1 t q1) (h2 : Den s1 p2 u q2) (n : Nat) (hn : n ≤ t.length)
    (hz : ∀ c ∈ u, c ≠ 0#32) :
    ∃ c, memcmp σ.b.arr.mem (bpos (p1 ++ t ++ q1) (p1.length + n)) s1.b.arr.mem (encodeAll p2).length (encodeAll u).length = .ok c ∧
      (c = 0 ↔ OccursAt u (t ++ q1) n) := by
  obtain ⟨r1, m1⟩ := h1.memAt
  obtain ⟨r2, m2⟩ := h2.memAt
  rw [bpos_mid p1 t q1 n (by omega)]
  have esplit : encodeAll t = encodeAll (t.take n) ++ encodeAll (t.drop n) := encodeAll_split t n
  have hb : (encodeAll p1).length + bpos t n = (encodeAll p1 ++ encodeAll (t.take n)).length := by simp [bpos]
  rw [hb]
  have hm1 : σ.b.arr.mem = (encodeAll p1 ++ encodeAll (t.take n)) ++ (encodeAll (t.drop n ++ q1) ++ ([0#8] ++ r1)) := by
    rw [m1, esplit, encodeAll_append]; simp
  obtain ⟨c, e, hc, -, -⟩ := memcmp_text s1.b.arr.mem σ.b.arr.mem (encodeAll p2) _ _ r1 u (t.drop n ++ q1) m2 hm1 h2.good
    (fun c hc => h1.goodAll c (by
      rcases List.mem_append.mp hc with hc | hc
      · exact List.mem_append_left _ (List.mem_of_mem_drop hc)
      · exact List.mem_append_right _ hc))
    (by rintro ⟨r, hr⟩; exact hz 0#32 (by rw [hr]; simp) rfl)
  refine ⟨-c, memcmp_flip _ _ _ _ _ _ e, ?_⟩
  unfold OccursAt
  rw [List.drop_append_of_le_length hn]
  constructor
  · intro h
    have := hc.mp (by omega)
    exact (List.prefix_iff_eq_take.mp this).symm
  · intro h
    have := hc.mpr (List.prefix_iff_eq_take.mpr h.symm)
    omega

theorem findStrLoop_over {σ s1 : Str} {p1 t q1 p2 u q2 : List UCS4} (h1 : Den σ p1 t q1) (h2 : Den s1 p2 u q2) (hz : ∀ c ∈ u, c ≠ 0#32)
    (last : Nat) (hlast : t.length < last) :
    ∀ (d fuel n : Nat), n + d = t.length + 1 → d < fuel →
    ∃ r, σ.findStrLoop s1 (encodeAll p2).length last fuel n = .ok r ∧ IsFirst (OccursAt u (t ++ q1)) n (t.length + 1) r := by
  have hcap := h1.cap
  intro d
  induction d with
  | zero =>
    intro fuel n hn hf
    obtain ⟨fuel, rfl⟩ : ∃ k, fuel = k + 1 := ⟨fuel - 1, by omega⟩
    unfold Str.findStrLoop
    rw [if_pos (by omega), h1.nthC_out n (by omega), res_bind_ok]
    exact ⟨-1, rfl, Or.inr ⟨rfl, fun j h1 h2 => by omega⟩⟩
  | succ d ih =>
    intro fuel n hn hf
    obtain ⟨fuel, rfl⟩ : ∃ k, fuel = k + 1 := ⟨fuel - 1, by omega⟩
    unfold Str.findStrLoop
    rw [if_pos (by omega), h1.nthC n (by omega), res_bind_ok]
    simp only
    rw [h2.numBytes, res_bind_ok]
    obtain ⟨c, hc, hcc⟩ := memcmp_over h1 h2 n (by omega) hz
    rw [hc, res_bind_ok]
    by_cases hc0 : c = 0
    · rw [if_pos (by simpa using hc0)]
      refine ⟨_, rfl, Or.inl ⟨n, ?_, Nat.le_refl _, by omega, hcc.mp hc0, fun j h1 h2 => by omega⟩⟩
      unfold toInt; rw [if_pos (by omega)]
    · rw [if_neg (by simpa using hc0)]
      have hw : wrap ((n : Int) + 1) = n + 1 := by unfold wrap; omega
      rw [hw]
      obtain ⟨r, e, hr⟩ := ih fuel (n + 1) (by omega) (by omega)
      have hnp : ¬ OccursAt u (t ++ q1) n := fun h => hc0 (hcc.mpr h)
      refine ⟨r, e, ?_⟩
      rcases hr with ⟨i, a1, a2, a3, a4, a5⟩ | ⟨a1, a2⟩
      · refine Or.inl ⟨i, a1, by omega, a3, a4, fun j h1 h2 => ?_⟩
        rcases Nat.eq_or_lt_of_le h1 with rfl | h1
        · exact hnp
        · exact a5 j h1 h2
      · refine Or.inr ⟨a1, fun j h1 h2 => ?_⟩
        rcases Nat.eq_or_lt_of_le h1 with rfl | h1
        · exact hnp
        · exact a2 j h1 h2

theorem rfindStrLoop_over {σ s1 : Str} {p1 t q1 p2 u q2 : List UCS4} (h1 : Den σ p1 t q1) (h2 : Den s1 p2 u q2) (hz : ∀ c ∈ u, c ≠ 0#32) :
    ∀ (n fuel : Nat), n ≤ t.length → n + 1 < fuel →
    ∃ r, σ.rfindStrLoop s1 (encodeAll p2).length fuel n = .ok r ∧ IsLast (OccursAt u (t ++ q1)) (n + 1) r := by
  have hcap := h1.cap
  intro n
  induction n with
  | zero =>
    intro fuel hn hf
    obtain ⟨fuel, rfl⟩ : ∃ k, fuel = k + 2 := ⟨fuel - 2, by omega⟩
    unfold Str.rfindStrLoop
    rw [h1.nthC 0 (by omega), res_bind_ok]
    simp only
    rw [h2.numBytes, res_bind_ok]
    obtain ⟨c, hc, hcc⟩ := memcmp_over h1 h2 0 (by omega) hz
    rw [hc, res_bind_ok]
    by_cases hc0 : c = 0
    · rw [if_pos (by simpa using hc0)]
      exact ⟨_, rfl, Or.inl ⟨0, rfl, by omega, hcc.mp hc0, fun j h1 h2 => by omega⟩⟩
    · rw [if_neg (by simpa using hc0)]
      have hw : wrap (((0 : Nat) : Int) - 1) = 4294967295 := by decide
      rw [hw]
      unfold Str.rfindStrLoop
      rw [h1.nthC_out _ (by omega), res_bind_ok]
      refine ⟨-1, rfl, Or.inr ⟨rfl, fun j h1 => ?_⟩⟩
      have : j = 0 := by omega
      subst this
      exact fun h => hc0 (hcc.mpr h)
  | succ n ih =>
    intro fuel hn hf
    obtain ⟨fuel, rfl⟩ : ∃ k, fuel = k + 1 := ⟨fuel - 1, by omega⟩
    unfold Str.rfindStrLoop
    rw [h1.nthC (n + 1) (by omega), res_bind_ok]
    simp only
    rw [h2.numBytes, res_bind_ok]
    obtain ⟨c, hc, hcc⟩ := memcmp_over h1 h2 (n + 1) (by omega) hz
    rw [hc, res_bind_ok]
    by_cases hc0 : c = 0
    · rw [if_pos (by simpa using hc0)]
      refine ⟨_, rfl, Or.inl ⟨n + 1, ?_, by omega, hcc.mp hc0, fun j h1 h2 => by omega⟩⟩
      unfold toInt; rw [if_pos (by omega)]
    · rw [if_neg (by simpa using hc0)]
      have hw : wrap (((n + 1 : Nat) : Int) - 1) = n := by unfold wrap; omega
      rw [hw]
      obtain ⟨r, e, hr⟩ := ih fuel (by omega) (by omega)
      have hnp : ¬ OccursAt u (t ++ q1) (n + 1) := fun h => hc0 (hcc.mpr h)
      refine ⟨r, e, ?_⟩
      rcases hr with ⟨i, a1, a2, a3, a4⟩ | ⟨a1, a2⟩
      · refine Or.inl ⟨i, a1, by omega, a3, fun j h1 h2 => ?_⟩
        rcases Nat.eq_or_lt_of_le (Nat.le_of_lt_succ h2) with rfl | h2
        · exact hnp
        · exact a4 j h1 h2
      · refine Or.inr ⟨a1, fun j h1 => ?_⟩
        rcases Nat.eq_or_lt_of_le (Nat.le_of_lt_succ h1) with rfl | h1
        · exact hnp
        · exact a2 j h1

end Strpp.SV
