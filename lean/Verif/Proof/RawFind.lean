import Verif.Proof.RawStr
import Verif.Proof.StrCase
set_option linter.unusedVariables false
set_option linter.unusedSimpArgs false
namespace Strpp.SV.Raw
open Spec Arr

theorem findLoop_spec {σ : Str} {pre t post : List Byte} (h : RawOf σ pre t post) (hit : UCS4 → Res Bool) (p : UCS4 → Prop) [DecidablePred p]
    (hh : ∀ c, hit c = .ok (decide (p c))) : ∀ (d fuel n : Nat), n + d = t.length + 1 → d < fuel →
    ∃ r, Raw.findLoop hit σ fuel n = .ok r ∧ IsFirst (fun i => ∃ c, ((t ++ [nextByte post]).map charOf)[i]? = some c ∧ p c) n (t.length + 1) r := by
  have hcap := h.cap
  intro d
  induction d with
  | zero =>
    intro fuel n hn hf
    obtain ⟨fuel, rfl⟩ : ∃ k, fuel = k + 1 := ⟨fuel - 1, by omega⟩
    unfold Raw.findLoop
    rw [h.nthC_out n (by omega), res_bind_ok]
    exact ⟨-1, rfl, Or.inr ⟨rfl, fun j h1 h2 => by omega⟩⟩
  | succ d ih =>
    intro fuel n hn hf
    obtain ⟨fuel, rfl⟩ : ∃ k, fuel = k + 1 := ⟨fuel - 1, by omega⟩
    unfold Raw.findLoop
    rw [h.nthC n (by omega), res_bind_ok]
    simp only
    rw [h.charAt n (by omega), res_bind_ok]
    rw [hh, res_bind_ok]
    have hget : ((t ++ [nextByte post]).map charOf)[n]? = some (charOf ((t ++ [nextByte post])[n]'(by simp; omega))) := by rw [List.getElem?_map, List.getElem?_eq_getElem (by simp; omega)]; rfl
    by_cases hp : p (charOf ((t ++ [nextByte post])[n]'(by simp; omega)))
    · rw [if_pos (by simpa using hp)]
      refine ⟨_, rfl, Or.inl ⟨n, ?_, Nat.le_refl _, by omega, ⟨_, hget, hp⟩, fun j h1 h2 => by omega⟩⟩
      unfold toInt; rw [if_pos (by omega)]
    · rw [if_neg (by simpa using hp)]
      have hw : wrap ((n : Int) + 1) = n + 1 := by unfold wrap; omega
      rw [hw]
      obtain ⟨r, e, hr⟩ := ih fuel (n + 1) (by omega) (by omega)
      refine ⟨r, e, ?_⟩
      have hnp : ¬ ∃ c, ((t ++ [nextByte post]).map charOf)[n]? = some c ∧ p c := by
        rintro ⟨c, h1, h2⟩
        rw [hget] at h1
        cases h1
        exact hp h2
      rcases hr with ⟨i, a1, a2, a3, a4, a5⟩ | ⟨a1, a2⟩
      · refine Or.inl ⟨i, a1, by omega, a3, a4, fun j h1 h2 => ?_⟩
        rcases Nat.eq_or_lt_of_le h1 with rfl | h1
        · exact hnp
        · exact a5 j h1 h2
      · refine Or.inr ⟨a1, fun j h1 h2 => ?_⟩
        rcases Nat.eq_or_lt_of_le h1 with rfl | h1
        · exact hnp
        · exact a2 j h1 h2

theorem findFrom {σ : Str} {pre t post : List Byte} (h : RawOf σ pre t post) (hit : UCS4 → Res Bool) (p : UCS4 → Prop) [DecidablePred p]
    (hh : ∀ c, hit c = .ok (decide (p c))) (after : Int) (ha : -1 ≤ after ∧ after < 2147483647) :
    ∃ r, Raw.findLoop hit σ (σ.num + 2) (wrap (after + 1)) = .ok r ∧
      IsFirst (fun i => ∃ c, ((t ++ [nextByte post]).map charOf)[i]? = some c ∧ p c) (after + 1).toNat (t.length + 1) r := by
  have hw : wrap (after + 1) = (after + 1).toNat := by unfold wrap; omega
  rw [hw, h.num]
  rcases Nat.lt_or_ge (t.length + 1) (after + 1).toNat with hlt | hge
  · unfold Raw.findLoop
    rw [h.nthC_out _ (by omega), res_bind_ok]
    exact ⟨-1, rfl, Or.inr ⟨rfl, fun j h1 h2 => by omega⟩⟩
  · exact findLoop_spec h hit p hh (t.length + 1 - (after + 1).toNat) _ _ (by omega) (by omega)

theorem rfindLoop_spec {σ : Str} {pre t post : List Byte} (h : RawOf σ pre t post) (hit : UCS4 → Res Bool) (p : UCS4 → Prop) [DecidablePred p]
    (hh : ∀ c, hit c = .ok (decide (p c))) : ∀ (n fuel : Nat), n ≤ t.length → n + 1 < fuel →
    ∃ r, Raw.rfindLoop hit σ fuel n = .ok r ∧ IsLast (fun i => ∃ c, ((t ++ [nextByte post]).map charOf)[i]? = some c ∧ p c) (n + 1) r := by
  have hcap := h.cap
  intro n
  induction n with
  | zero =>
    intro fuel hn hf
    obtain ⟨fuel, rfl⟩ : ∃ k, fuel = k + 2 := ⟨fuel - 2, by omega⟩
    unfold Raw.rfindLoop
    rw [h.nthC 0 (by omega), res_bind_ok]
    simp only
    rw [h.charAt 0 (by omega), res_bind_ok]
    rw [hh, res_bind_ok]
    have hget : ((t ++ [nextByte post]).map charOf)[0]? = some (charOf ((t ++ [nextByte post])[0]'(by simp))) := by rw [List.getElem?_map, List.getElem?_eq_getElem (by simp)]; rfl
    by_cases hp : p (charOf ((t ++ [nextByte post])[0]'(by simp)))
    · rw [if_pos (by simpa using hp)]
      refine ⟨_, rfl, Or.inl ⟨0, rfl, by omega, ⟨_, hget, hp⟩, fun j h1 h2 => by omega⟩⟩
    · rw [if_neg (by simpa using hp)]
      have hw : wrap (((0 : Nat) : Int) - 1) = 4294967295 := by decide
      rw [hw]
      unfold Raw.rfindLoop
      rw [h.nthC_out _ (by omega), res_bind_ok]
      refine ⟨-1, rfl, Or.inr ⟨rfl, fun j h1 => ?_⟩⟩
      have : j = 0 := by omega
      subst this
      rintro ⟨c, h1, h2⟩
      rw [hget] at h1
      cases h1
      exact hp h2
  | succ n ih =>
    intro fuel hn hf
    obtain ⟨fuel, rfl⟩ : ∃ k, fuel = k + 1 := ⟨fuel - 1, by omega⟩
    unfold Raw.rfindLoop
    rw [h.nthC (n + 1) (by omega), res_bind_ok]
    simp only
    rw [h.charAt (n + 1) (by omega), res_bind_ok]
    rw [hh, res_bind_ok]
    have hget : ((t ++ [nextByte post]).map charOf)[n + 1]? = some (charOf ((t ++ [nextByte post])[n + 1]'(by simp; omega))) := by rw [List.getElem?_map, List.getElem?_eq_getElem (by simp; omega)]; rfl
    by_cases hp : p (charOf ((t ++ [nextByte post])[n + 1]'(by simp; omega)))
    · rw [if_pos (by simpa using hp)]
      refine ⟨_, rfl, Or.inl ⟨n + 1, ?_, by omega, ⟨_, hget, hp⟩, fun j h1 h2 => by omega⟩⟩
      unfold toInt; rw [if_pos (by omega)]
    · rw [if_neg (by simpa using hp)]
      have hw : wrap (((n + 1 : Nat) : Int) - 1) = n := by unfold wrap; omega
      rw [hw]
      obtain ⟨r, e, hr⟩ := ih fuel (by omega) (by omega)
      refine ⟨r, e, ?_⟩
      have hnp : ¬ ∃ c, ((t ++ [nextByte post]).map charOf)[n + 1]? = some c ∧ p c := by
        rintro ⟨c, h1, h2⟩
        rw [hget] at h1
        cases h1
        exact hp h2
      rcases hr with ⟨i, a1, a2, a3, a4⟩ | ⟨a1, a2⟩
      · refine Or.inl ⟨i, a1, by omega, a3, fun j h1 h2 => ?_⟩
        rcases Nat.eq_or_lt_of_le (Nat.le_of_lt_succ h2) with rfl | h2
        · exact hnp
        · exact a4 j h1 h2
      · refine Or.inr ⟨a1, fun j h1 => ?_⟩
        rcases Nat.eq_or_lt_of_le (Nat.le_of_lt_succ h1) with rfl | h1
        · exact hnp
        · exact a2 j h1

/-- searching backwards from before `before` (-1: from the end): exact within the string -/
theorem rfindFrom {σ : Str} {pre t post : List Byte} (h : RawOf σ pre t post) (hit : UCS4 → Res Bool) (p : UCS4 → Prop) [DecidablePred p]
    (hh : ∀ c, hit c = .ok (decide (p c))) (before : Int) (hb : before = -1 ∨ (0 ≤ before ∧ before ≤ t.length)) :
    ∃ r, Raw.rfindLoop hit σ (σ.num + 2) (σ.rstart before) = .ok r ∧
      IsLast (fun i => ∃ c, (t.map charOf)[i]? = some c ∧ p c) (if before = -1 then t.length else before.toNat) r := by
  have hcap := h.cap
  have hn := h.num
  have start : ∀ (m : Nat), m ≤ t.length → ∃ r, Raw.rfindLoop hit σ (σ.num + 2) (wrap ((m : Int) - 1)) = .ok r ∧
      IsLast (fun i => ∃ c, (t.map charOf)[i]? = some c ∧ p c) m r := by
    intro m hm
    cases m with
    | zero =>
      have hw : wrap (((0 : Nat) : Int) - 1) = 4294967295 := by decide
      rw [hw, hn]
      unfold Raw.rfindLoop
      rw [h.nthC_out _ (by omega), res_bind_ok]
      exact ⟨-1, rfl, Or.inr ⟨rfl, fun j h1 => by omega⟩⟩
    | succ m =>
      have hw : wrap (((m + 1 : Nat) : Int) - 1) = m := by unfold wrap; omega
      rw [hw]
      obtain ⟨r, e, hr⟩ := rfindLoop_spec h hit p hh m (σ.num + 2) (by omega) (by omega)
      refine ⟨r, e, ?_⟩
      have hin : ∀ j, j < m + 1 → ((t ++ [nextByte post]).map charOf)[j]? = (t.map charOf)[j]? := fun j hj => by rw [List.map_append]; exact List.getElem?_append_left (by simp; omega)
      rcases hr with ⟨i, a1, a2, a3, a4⟩ | ⟨a1, a2⟩
      · refine Or.inl ⟨i, a1, a2, by simp only [← hin i a2]; exact a3, fun j h1 h2 => by simp only [← hin j h2]; exact a4 j h1 h2⟩
      · exact Or.inr ⟨a1, fun j h1 => by simp only [← hin j h1]; exact a2 j h1⟩
  unfold Str.rstart
  rcases hb with hb | ⟨h1, h2⟩
  · rw [if_pos (by simpa using hb), if_pos hb, hn]
    exact hn ▸ start t.length (Nat.le_refl _)
  · rw [if_neg (by simp; omega), if_neg (by omega)]
    have := start before.toNat (by omega)
    rw [show ((before.toNat : Nat) : Int) = before by omega] at this
    exact this

theorem has_spec {s1 : Str} {pre u post : List Byte} (h : RawOf s1 pre u post) (ch : UCS4) : Raw.has s1 ch = .ok (decide (ch ∈ u.map charOf)) := by
  have hcap := h.cap
  obtain ⟨v, hv⟩ : ∃ v, v = u.map charOf := ⟨_, rfl⟩
  have hvl : v.length = u.length := by rw [hv]; simp
  have hnum : s1.num = v.length := by rw [hvl, h.num]
  rw [← hv]
  have key : ∀ (d fuel i : Nat), i + d = v.length → d < fuel → Raw.memLoop s1 ch fuel i = .ok (decide (ch ∈ v.drop i)) := by
    intro d
    induction d with
    | zero =>
      intro fuel i hi hf
      obtain ⟨fuel, rfl⟩ : ∃ k, fuel = k + 1 := ⟨fuel - 1, by omega⟩
      unfold Raw.memLoop
      rw [if_neg (by rw [hnum]; omega), List.drop_eq_nil_of_le (by omega)]
      simp
    | succ d ih =>
      intro fuel i hi hf
      obtain ⟨fuel, rfl⟩ : ∃ k, fuel = k + 1 := ⟨fuel - 1, by omega⟩
      unfold Raw.memLoop
      have hti : wrap (toInt i) = i := by
        have : toInt i = i := by unfold toInt; rw [if_pos (by omega)]
        rw [this, wrap_nat (by omega)]
      have hg : Raw.get s1 (toInt i) = .ok v[i] := by
        rw [h.get, hti, if_neg (by omega), ← hv, List.getElem?_eq_getElem (by omega)]; rfl
      rw [if_pos (by rw [hnum]; omega), hg, res_bind_ok]
      have hdrop : v.drop i = v[i] :: v.drop (i + 1) := (List.getElem_cons_drop (by omega)).symm
      have hm : ch ∈ v.drop i ↔ ch = v[i] ∨ ch ∈ v.drop (i + 1) := by rw [hdrop, List.mem_cons]
      by_cases he : ch = v[i]
      · rw [if_pos (by simpa using he)]
        congr 1; symm; exact decide_eq_true (hm.2 (Or.inl he))
      · rw [if_neg (by simpa using he), ih fuel (i + 1) (by omega) (by omega)]
        congr 1
        exact decide_eq_decide.2 ⟨fun x => hm.2 (Or.inr x), fun x => (hm.1 x).resolve_left he⟩
  unfold Raw.has
  rw [hnum, key v.length _ 0 (by omega) (by omega)]
  rfl

theorem hasNot_spec {s1 : Str} {pre u post : List Byte} (h : RawOf s1 pre u post) (ch : UCS4) :
    Raw.hasNot s1 ch = .ok (decide (ch ∉ u.map charOf)) := by
  unfold Raw.hasNot
  rw [has_spec h, res_bind_ok]
  congr 1
  generalize u.map charOf = v
  by_cases hm : ch ∈ v <;> simp [hm]

theorem memcmp_at {σ s1 : Str} {p1 t q1 p2 u q2 : List Byte} (h1 : RawOf σ p1 t q1) (h2 : RawOf s1 p2 u q2) (n : Nat) (hn : n + u.length ≤ t.length) :
    ∃ c, memcmp σ.b.arr.mem (p1.length + n) s1.b.arr.mem p2.length u.length = .ok c ∧
      (c = 0 ↔ (t.drop n).take u.length = u) := by
  obtain ⟨r1, m1⟩ := h1.mem
  obtain ⟨r2, m2⟩ := h2.mem
  have hb : p1.length + n = (p1 ++ t.take n).length := by simp; omega
  rw [hb]
  have hm1 : σ.b.arr.mem = (p1 ++ t.take n) ++ (t.drop n ++ (q1 ++ 0#8 :: r1)) := by
    rw [m1]
    simp only [List.append_assoc]
    rw [← List.append_assoc (List.take n t), List.take_append_drop]
  rcases diff_split u (t.drop n) with ⟨r, hr⟩ | ⟨c, r, hr⟩ | ⟨q, c, ra, d, rb, e1, e2, e3⟩
  · refine ⟨0, memcmp_same _ _ (r ++ (q1 ++ 0#8 :: r1)) _ _ _ _ (by rw [hm1, hr]; simp) m2, ?_⟩
    simp [hr]
  · have := congrArg List.length hr
    simp at this; omega
  · have hm := memcmp_diff σ.b.arr.mem s1.b.arr.mem (rb ++ (q1 ++ 0#8 :: r1)) (ra ++ (q2 ++ 0#8 :: r2)) d c (Ne.symm e3)
      q (p1 ++ t.take n) p2 u.length (by rw [hm1, e2]; simp) (by rw [m2, e1]; simp) (by rw [e1]; simp)
    refine ⟨_, hm, ?_⟩
    have hnab : d.toNat ≠ c.toNat := fun e => e3 (BitVec.eq_of_toNat_eq e.symm)
    constructor
    · intro h; omega
    · intro h
      exfalso
      rw [e2, e1] at h
      have := congrArg (fun l => l[q.length]?) h
      simp at this
      exact e3 this.symm

theorem findStrLoop_spec {σ s1 : Str} {p1 t q1 p2 u q2 : List Byte} (h1 : RawOf σ p1 t q1) (h2 : RawOf s1 p2 u q2) (hle : u.length ≤ t.length) :
    ∀ (d fuel n : Nat), n + d = t.length - u.length + 1 → d < fuel →
    ∃ r, Raw.findStrLoop σ s1 p2.length (t.length - u.length) fuel n = .ok r ∧
      IsFirst ((fun i => (t.drop i).take u.length = u)) n (t.length - u.length + 1) r := by
  have hcap := h1.cap
  intro d
  induction d with
  | zero =>
    intro fuel n hn hf
    obtain ⟨fuel, rfl⟩ : ∃ k, fuel = k + 1 := ⟨fuel - 1, by omega⟩
    unfold Raw.findStrLoop
    rw [if_neg (by omega)]
    exact ⟨-1, rfl, Or.inr ⟨rfl, fun j h1 h2 => by omega⟩⟩
  | succ d ih =>
    intro fuel n hn hf
    obtain ⟨fuel, rfl⟩ : ∃ k, fuel = k + 1 := ⟨fuel - 1, by omega⟩
    unfold Raw.findStrLoop
    rw [if_pos (by omega), h1.nthC n (by omega), res_bind_ok]
    simp only
    rw [h2.numBytes, res_bind_ok]
    obtain ⟨c, hc, hcc⟩ := memcmp_at h1 h2 n (by omega)
    rw [hc, res_bind_ok]
    by_cases hz : c = 0
    · rw [if_pos (by simpa using hz)]
      refine ⟨_, rfl, Or.inl ⟨n, ?_, Nat.le_refl _, by omega, hcc.mp hz, fun j h1 h2 => by omega⟩⟩
      unfold toInt; rw [if_pos (by omega)]
    · rw [if_neg (by simpa using hz)]
      have hw : wrap ((n : Int) + 1) = n + 1 := by unfold wrap; omega
      rw [hw]
      obtain ⟨r, e, hr⟩ := ih fuel (n + 1) (by omega) (by omega)
      have hnp : ¬ (t.drop n).take u.length = u := fun h => hz (hcc.mpr h)
      refine ⟨r, e, ?_⟩
      rcases hr with ⟨i, a1, a2, a3, a4, a5⟩ | ⟨a1, a2⟩
      · refine Or.inl ⟨i, a1, by omega, a3, a4, fun j h1 h2 => ?_⟩
        rcases Nat.eq_or_lt_of_le h1 with rfl | h1
        · exact hnp
        · exact a5 j h1 h2
      · refine Or.inr ⟨a1, fun j h1 h2 => ?_⟩
        rcases Nat.eq_or_lt_of_le h1 with rfl | h1
        · exact hnp
        · exact a2 j h1 h2

theorem RawOf.findStr {σ s1 : Str} {p1 t q1 p2 u q2 : List Byte} (h1 : RawOf σ p1 t q1) (h2 : RawOf s1 p2 u q2) (hle : u.length ≤ t.length)
    (after : Int) (ha : -1 ≤ after ∧ after < 2147483647) :
    ∃ r, Raw.findStr σ s1 after = .ok r ∧ IsFirst ((fun i => (t.drop i).take u.length = u)) (after + 1).toNat (t.length - u.length + 1) r := by
  have hcap := h1.cap
  unfold Raw.findStr
  rw [h2.nthC 0 (by omega), res_bind_ok]
  simp only [deref, res_bind_ok]
  have hw : wrap (after + 1) = (after + 1).toNat := by unfold wrap; omega
  rw [Nat.add_zero, h1.num, h2.num, wrap_of_nonneg hle (by omega), hw]
  rcases Nat.lt_or_ge (t.length - u.length + 1) (after + 1).toNat with hlt | hge
  · unfold Raw.findStrLoop
    rw [if_neg (by omega)]
    exact ⟨-1, rfl, Or.inr ⟨rfl, fun j h1 h2 => by omega⟩⟩
  · exact findStrLoop_spec h1 h2 hle (t.length - u.length + 1 - (after + 1).toNat) _ _ (by omega) (by omega)


/-! ### insertion -/

theorem RawOf.insertOwn {σ : Str} {t post : List Byte} (h : RawOf σ [] t post) (hs : σ.b.arr.static = false) (rc : Nat) (hrc : rc ≤ 1)
    (pos : Nat) (hpos : pos ≤ t.length) (a : List Byte) (an : Nat) (han : an ≤ a.length)
    (hsz : t.length + post.length + a.length < 1073741824) :
    ∃ σ' hid, Raw.insertOwn rc σ pos a an = .ok σ' ∧
      RawOf σ' [] ((t.take pos ++ a ++ t.drop pos).take (t.length + an)) hid ∧
      (an = a.length → hid = post) ∧ σ'.b.arr.static = false := by
  have htot := h.total
  simp only [List.length_nil, Nat.zero_add] at htot
  obtain ⟨arr, i1, i2, i3, i4, i5⟩ := insert_spec σ.b.arr h.wf hs rc hrc pos (by omega) a (by omega)
  unfold Raw.insertOwn insertBytes
  rw [h.nth pos hpos, res_bind_ok]
  simp only
  rw [h.nth 0 (Nat.zero_le _), res_bind_ok]
  simp only [deref, res_bind_ok, List.length_nil, Nat.zero_add]
  rw [show wrap ((pos : Int) - ((0 : Nat) : Int)) = pos by unfold wrap; omega, i1, res_bind_ok, if_pos (isRaw_eq h.raw), res_bind_ok]
  have hln : (t.take pos ++ a ++ t.drop pos).length = t.length + a.length := by simp; omega
  refine ⟨_, (t.take pos ++ a ++ t.drop pos).drop (t.length + an) ++ post, rfl, ⟨rfl, i2, ?_, ?_, ?_, ?_⟩, ?_, i3⟩
  · show arr.elems = _
    rw [i5, h.txt]
    simp only [List.nil_append]
    rw [← List.append_assoc (List.take _ _), List.take_append_drop]
    simp only [List.append_assoc]
    rw [List.take_append_of_le_length hpos, List.drop_append_of_le_length hpos]
  · exact h.off
  · show σ.num + an = _
    rw [h.num, List.length_take, hln]; omega
  · show arr.num ≤ _
    omega
  · intro e
    rw [List.drop_eq_nil_of_le (by omega)]; rfl

end Strpp.SV.Raw
