import Verif.Proof.RawStr
import Verif.Spec.AnyText
import Verif.Props.Utf8Exact
import Verif.Props.PtrExact
set_option linter.unusedVariables false
set_option linter.unusedSimpArgs false
namespace Strpp.SV.Any
open Spec Arr

theorem spos_zero (cs : List (UCS4 × Nat)) : spos cs 0 = 0 := by simp [spos]

theorem spos_succ (cs : List (UCS4 × Nat)) (k : Nat) (h : k < cs.length) : spos cs (k + 1) = spos cs k + cs[k].2 := by
  unfold spos
  rw [List.take_add_one, List.getElem?_eq_getElem h]
  simp only [List.map_append, List.sum_append, Option.toList_some, List.map_cons, List.map_nil, List.sum_cons, List.sum_nil, Nat.add_zero]

theorem cut_at {bs : List Byte} {cs : List (UCS4 × Nat)} (h : Cut bs cs) : spos cs cs.length = bs.length ∧
    ∀ (k : Nat) (hk : k < cs.length), decode1 (bs.drop (spos cs k)) = some (cs[k].1, cs[k].2) ∧ 1 ≤ cs[k].2 := by
  induction h with
  | nil => exact ⟨rfl, fun k hk => absurd hk (by simp)⟩
  | @cons bs ch n cs hd _ ih =>
    have hp := decode1_pos _ _ _ hd
    constructor
    · have := ih.1
      simp only [spos, List.take_length] at this ⊢
      rw [List.map_cons, List.sum_cons, this, List.length_drop]
      have := hp.2.2; simp only; omega
    · intro k hk
      cases k with
      | zero => rw [spos_zero]; exact ⟨hd, hp.1⟩
      | succ k =>
        have e : spos ((ch, n) :: cs) (k + 1) = n + spos cs k := by simp [spos]
        have := ih.2 k (by simpa using hk)
        rw [e, ← List.drop_drop]
        simpa using this

/-- a body of any bytes, cut into the characters `cs` -/
structure BCut (b : SBody) (bs : List Byte) (cs : List (UCS4 × Nat)) : Prop where
  wf : b.arr.WF
  txt : b.arr.elems = bs ++ [0#8]
  cut : Cut bs cs
  none : ∀ x ∈ cs, x.1 ≠ 0xFFFFFFFF#32
  small : b.arr.num ≤ 1073741824
  nc : b.nc = 0 ∨ b.nc = cs.length

section
variable {b : SBody} {bs : List Byte} {cs : List (UCS4 × Nat)}

theorem BCut.num (h : BCut b bs cs) : b.arr.num = bs.length + 1 := by
  have := h.wf.length; rw [h.txt] at this; simp at this; omega

theorem BCut.mem (h : BCut b bs cs) : ∃ slack, b.arr.mem = bs ++ 0#8 :: slack := by
  refine ⟨b.arr.mem.drop b.arr.num, ?_⟩
  have : b.arr.mem = b.arr.elems ++ b.arr.mem.drop b.arr.num := by rw [Body.elems, List.take_append_drop]
  rw [h.txt] at this
  simpa using this

theorem BCut.zero (h : BCut b bs cs) : b.arr.mem[bs.length]? = some 0#8 := by
  obtain ⟨slack, hm⟩ := h.mem
  rw [hm]; simp

theorem spos_step (h : Cut bs cs) {j k : Nat} (hjk : j ≤ k) (hk : k ≤ cs.length) : spos cs j + (k - j) ≤ spos cs k := by
  induction k with
  | zero => have : j = 0 := by omega
            subst this; omega
  | succ k ih =>
    rcases Nat.lt_or_ge k j with h1 | h1
    · have : j = k + 1 := by omega
      subst this; omega
    · have := ih h1 (by omega)
      rw [spos_succ cs k (by omega)]
      have := ((cut_at h).2 k (by omega)).2
      omega

theorem spos_end (h : Cut bs cs) {k : Nat} (hk : k ≤ cs.length) : spos cs k + (cs.length - k) ≤ bs.length := by
  have := spos_step h hk (Nat.le_refl _)
  rw [(cut_at h).1] at this
  exact this

theorem cut_len (h : Cut bs cs) : cs.length ≤ bs.length := by
  have := spos_end h (Nat.zero_le _)
  rw [spos_zero] at this; omega

theorem BCut.dec (h : BCut b bs cs) (p : Nat) (hp : p < bs.length) : decode1 (b.arr.mem.drop p) = decode1 (bs.drop p) := by
  obtain ⟨slack, hm⟩ := h.mem
  rw [hm, List.drop_append_of_le_length (by omega), decode1_nul _ _ (by
    intro e; have := congrArg List.length e; simp at this; omega)]

theorem BCut.get (h : BCut b bs cs) (k : Nat) (hk : k < cs.length) :
    utf8Get b.arr.mem (spos cs k) = .ok (cs[k].1, spos cs (k + 1)) := by
  have hl := spos_end h.cut (show k ≤ cs.length by omega)
  obtain ⟨ch, n, hd, hg, -⟩ := C03_utf8_get_safe b.arr.mem (spos cs k) bs.length (by omega) h.zero
  rw [h.dec _ (by omega), ((cut_at h.cut).2 k hk).1] at hd
  simp only [Option.some.injEq, Prod.mk.injEq] at hd
  rw [hg, spos_succ cs k hk, hd.1, hd.2]

theorem BCut.get_any (h : BCut b bs cs) (p : Nat) (hp : p ≤ bs.length) : ∃ r, utf8Get b.arr.mem p = .ok r := by
  obtain ⟨ch, n, -, hg, -⟩ := C03_utf8_get_safe b.arr.mem p bs.length hp h.zero
  exact ⟨_, hg⟩

/-- `UTF8Len` anywhere in the text -/
theorem BCut.len_any (h : BCut b bs cs) (ht : Tame bs) (p : Nat) (hp : p < bs.length) :
    ∃ ch n, decode1 (bs.drop p) = some (ch, n) ∧ utf8LenAt b.arr.mem p = .ok n ∧ 1 ≤ n ∧ p + n ≤ bs.length := by
  obtain ⟨ch, n, hd, -, -, h1, -, -, h3⟩ := C03_utf8_get_safe b.arr.mem p bs.length (by omega) h.zero
  obtain ⟨slack, hm⟩ := h.mem
  have hget : b.arr.mem[p]? = some bs[p] := by
    rw [hm, List.getElem?_append_left hp, List.getElem?_eq_getElem hp]
  have hl := C73_len_scan b.arr.mem p bs[p] hget ch n hd
  rw [if_pos] at hl
  · rw [h.dec p hp] at hd
    exact ⟨ch, n, hd, hl, h1, h3 hp⟩
  · have hml : b.arr.mem.length = bs.length + 1 + slack.length := by rw [hm]; simp; omega
    cases hli : leadInfo bs[p] with
    | none => simp; omega
    | some kv =>
      have := ht p bs[p] kv.1 kv.2 (List.getElem?_eq_getElem hp) hli
      simp; omega

theorem BCut.lenAt (h : BCut b bs cs) (ht : Tame bs) (k : Nat) (hk : k < cs.length) :
    utf8LenAt b.arr.mem (spos cs k) = .ok (spos cs (k + 1) - spos cs k) := by
  have hl := spos_end h.cut (show k ≤ cs.length by omega)
  obtain ⟨ch, n, hd, hg, -⟩ := h.len_any ht (spos cs k) (by omega)
  rw [((cut_at h.cut).2 k hk).1] at hd
  simp only [Option.some.injEq, Prod.mk.injEq] at hd
  rw [hg, spos_succ cs k hk, hd.2]
  congr 1; omega

theorem begins_mem {mem : List Byte} {slack : List Byte} {q e : Nat} (hm : mem = bs ++ slack) (he : e ≤ bs.length) : Begins mem q e ↔ Begins bs q e := by
  have g : ∀ i, i < e → mem[i]? = bs[i]? := fun i hi => by rw [hm, List.getElem?_append_left (by omega)]
  unfold Begins
  constructor
  · rintro ⟨h1, ⟨b, k, v, h2, h3, h4⟩, h5⟩
    exact ⟨h1, ⟨b, k, v, by rw [← g q h1]; exact h2, h3, h4⟩, fun i hi hj => by rw [← g i hj]; exact h5 i hi hj⟩
  · rintro ⟨h1, ⟨b, k, v, h2, h3, h4⟩, h5⟩
    exact ⟨h1, ⟨b, k, v, by rw [g q h1]; exact h2, h3, h4⟩, fun i hi hj => by rw [g i hj]; exact h5 i hi hj⟩

theorem BCut.backup (h : BCut b bs cs) (hu : Unbroken bs cs) (k : Nat) (hk : k < cs.length) :
    utf8Backup b.arr.mem ((spos cs (k + 1) : Nat) : Int) (some 0) = .ok (some ((spos cs k : Nat) : Int)) := by
  have hl := spos_end h.cut (show k ≤ cs.length by omega)
  obtain ⟨slack, hm⟩ := h.mem
  have hd := h.dec (spos cs k) (by omega)
  rw [((cut_at h.cut).2 k hk).1] at hd
  have := (C73_backup_undoes b.arr.mem (spos cs k) 0 cs[k].2 cs[k].1 (by omega) hd).2 (by
    rintro ⟨q, -, hq, hB⟩
    exact hu k hk ⟨q, hq, (begins_mem hm (by omega)).1 hB⟩)
  rw [spos_succ cs k hk]
  exact this

theorem BCut.backup_any (h : BCut b bs cs) (p : Nat) (h0 : 0 < p) (hp : p ≤ bs.length) :
    ∃ r : Nat, utf8Backup b.arr.mem (p : Int) (some 0) = .ok (some (r : Int)) ∧ r < p := by
  obtain ⟨slack, hm⟩ := h.mem
  obtain ⟨r, e, -, h2, -⟩ := (C06_backup_limited b.arr.mem p 0 (by rw [hm]; simp; omega)).2 h0
  exact ⟨r, e, h2⟩

theorem countLoop_any (h : BCut b bs cs) : ∀ (d k fuel nc : Nat), k + d = cs.length → d < fuel →
    countLoop b.arr.mem bs.length fuel (spos cs k) nc = .ok (nc + d) := by
  intro d
  induction d with
  | zero =>
    intro k fuel nc hk hf
    obtain ⟨f, rfl⟩ : ∃ f, fuel = f + 1 := ⟨fuel - 1, by omega⟩
    have : k = cs.length := by omega
    rw [countLoop, if_neg (by rw [this, (cut_at h.cut).1]; omega)]; rfl
  | succ d ih =>
    intro k fuel nc hk hf
    obtain ⟨f, rfl⟩ : ∃ f, fuel = f + 1 := ⟨fuel - 1, by omega⟩
    have hlt : k < cs.length := by omega
    have hl := spos_end h.cut (show k ≤ cs.length by omega)
    have hl2 := spos_end h.cut (show k + 1 ≤ cs.length by omega)
    rw [countLoop, if_pos (by omega), h.get k hlt, res_bind_ok]
    have h1 : (cs[k].1 == 0xFFFFFFFF#32) = false := by
      rw [beq_eq_false_iff_ne]; exact h.none _ (List.getElem_mem hlt)
    rw [if_neg (by simp only [h1, Bool.false_or]; simp; omega)]
    rw [ih (k + 1) f (nc + 1) (by omega) (by omega)]
    congr 1; omega

theorem BCut.count (h : BCut b bs cs) : ∃ b', b.count = .ok b' ∧ BCut b' bs cs ∧ b'.nc = cs.length ∧ b'.arr = b.arr := by
  have hn := h.num
  unfold SBody.count
  by_cases hc : b.nc = 0
  · rw [if_pos (by simp [hc]; omega)]
    have := countLoop_any h cs.length 0 (b.arr.num + 1) 0 (by omega) (by have := cut_len h.cut; omega)
    rw [spos_zero] at this
    rw [hn, Nat.add_sub_cancel, ← hn, this, res_bind_ok]
    exact ⟨_, rfl, ⟨h.wf, h.txt, h.cut, h.none, h.small, Or.inr (by simp)⟩, by simp, rfl⟩
  · rw [if_neg (by simp [hc])]
    exact ⟨b, rfl, h, by rcases h.nc with h | h; exact absurd h hc; exact h, rfl⟩

/-! ### the searches, anywhere -/

theorem fwd_any (h : BCut b bs cs) (ht : Tame bs) (ep : Nat) (hep : ep ≤ bs.length) : ∀ (n up : Nat), up ≤ bs.length →
    ∃ r, fwd b.arr.mem ep n up = .ok r ∧ r ≤ bs.length := by
  intro n
  induction n with
  | zero => intro up hu; exact ⟨up, rfl, hu⟩
  | succ n ih =>
    intro up hu
    rw [fwd]
    split
    · obtain ⟨-, l, -, hl, h1, h2⟩ := h.len_any ht up (by omega)
      rw [hl, res_bind_ok]
      exact ih (up + l) h2
    · exact ⟨up, rfl, hu⟩

theorem bwd_any (h : BCut b bs cs) (up : Nat) : ∀ (n ep : Nat), ep ≤ bs.length →
    ∃ r, bwd b.arr.mem up n ep = .ok (some r) ∧ r ≤ bs.length := by
  intro n
  induction n with
  | zero => intro ep he; exact ⟨ep, rfl, he⟩
  | succ n ih =>
    intro ep he
    rw [bwd]
    split
    · obtain ⟨r, hr, hlt⟩ := h.backup_any ep (by omega) he
      rw [hr, res_bind_ok]
      simp only [Int.toNat_natCast]
      exact ih r (by omega)
    · exact ⟨ep, rfl, he⟩

/-- a bookmark that at least points into the text -/
def MarkIn (bs : List Byte) (m : Mark) : Prop := m.bn ≤ bs.length

theorem search_any (h : BCut b bs cs) (ht : Tame bs) (k : Nat) (m : Mark) (hm : MarkIn bs m) :
    ∃ p, searchChar b k (searchFrom b k m) = .ok (some p) ∧ p ≤ bs.length := by
  have hn := h.num
  have key : ∀ (u s e n : Nat), u ≤ bs.length → e ≤ bs.length → ∃ p, searchChar b k (u, s, e, n) = .ok (some p) ∧ p ≤ bs.length := by
    intro u s e n hu he
    unfold searchChar
    simp only
    split
    · obtain ⟨r, e1, e2⟩ := fwd_any h ht e he (k - s) u hu
      rw [e1]; exact ⟨r, rfl, e2⟩
    · exact bwd_any h u (n - k) e he
  unfold searchFrom
  unfold MarkIn at hm
  split
  · split
    · exact key _ _ _ _ hm (by omega)
    · exact key _ _ _ _ (by omega) hm
  · exact key _ _ _ _ (by omega) (by omega)

theorem nthChar_any (h : BCut b bs cs) (ht : Tame bs) (k : Nat) (hk : k ≤ cs.length) (m : Mark) (hm : MarkIn bs m) :
    ∃ b' m' p, nthChar b k m = .ok (b', m', some p) ∧ BCut b' bs cs ∧ b'.arr = b.arr ∧ p ≤ bs.length ∧ MarkIn bs m' := by
  have hcl := cut_len h.cut
  unfold nthChar
  split
  · exact ⟨b, m, k, rfl, h, rfl, by omega, hm⟩
  · obtain ⟨b', e1, e2, e3, e4⟩ := h.count
    obtain ⟨p, s1, s2⟩ := search_any e2 ht k m hm
    rw [e1, res_bind_ok, if_neg (by omega), s1, res_bind_ok]
    refine ⟨b', _, p, rfl, e2, e4, s2, ?_⟩
    unfold saveMark
    simp only
    split
    · exact s2
    · exact hm

/-! ### exactly -/

theorem fwd_exact (h : BCut b bs cs) (ht : Tame bs) (ep : Nat) : ∀ (n k : Nat), k + n ≤ cs.length → spos cs (k + n) ≤ ep →
    fwd b.arr.mem ep n (spos cs k) = .ok (spos cs (k + n)) := by
  intro n
  induction n with
  | zero => intro k _ _; rfl
  | succ n ih =>
    intro k hk hep
    have h1 := spos_step h.cut (show k ≤ k + (n + 1) by omega) hk
    have h2 := spos_step h.cut (show k ≤ k + 1 by omega) (by omega)
    rw [fwd, if_pos (by omega), h.lenAt ht k (by omega), res_bind_ok]
    have e : spos cs k + (spos cs (k + 1) - spos cs k) = spos cs (k + 1) := by omega
    have e2 : k + (n + 1) = k + 1 + n := by omega
    rw [e, ih (k + 1) (by omega) (by rw [← e2]; exact hep), e2]

theorem bwd_exact (h : BCut b bs cs) (hu : Unbroken bs cs) (up : Nat) : ∀ (n k : Nat), k + n ≤ cs.length → up ≤ spos cs k →
    bwd b.arr.mem up n (spos cs (k + n)) = .ok (some (spos cs k)) := by
  intro n
  induction n with
  | zero => intro k _ _; rfl
  | succ n ih =>
    intro k hk hup
    have h1 := spos_step h.cut (show k ≤ k + (n + 1) by omega) hk
    rw [bwd, if_pos (by omega)]
    have e2 : k + (n + 1) = k + n + 1 := by omega
    rw [e2, h.backup hu (k + n) (by omega), res_bind_ok]
    simp only [Int.toNat_natCast]
    exact ih k (by omega) hup

def MarkAt (cs : List (UCS4 × Nat)) (m : Mark) : Prop := m.cn ≤ cs.length ∧ m.bn = spos cs m.cn

/-- the middle of the search: where the bookmark, if any, is right -/
theorem search_exact (h : BCut b bs cs) (ht : Tame bs) (hu : Unbroken bs cs) (hnc : b.nc = cs.length) (k : Nat) (hk : k ≤ cs.length) (m : Mark)
    (hm : MarkAt cs m) : searchChar b k (searchFrom b k m) = .ok (some (spos cs k)) := by
  have hn := h.num
  have hend := (cut_at h.cut).1
  have key : ∀ (s e : Nat), s ≤ k → k ≤ e → e ≤ cs.length → searchChar b k (spos cs s, s, spos cs e, e) = .ok (some (spos cs k)) := by
    intro s e hs he hel
    unfold searchChar
    simp only
    split
    · have := fwd_exact h ht (spos cs e) (k - s) s (by omega)
        (by rw [show s + (k - s) = k by omega]; have := spos_step h.cut he hel; omega)
      rw [show s + (k - s) = k by omega] at this
      rw [this]; rfl
    · have := bwd_exact h hu (spos cs s) (e - k) k (by omega) (by have := spos_step h.cut hs hk; omega)
      rw [show k + (e - k) = e by omega] at this
      rw [this]
  have z : spos cs 0 = 0 := spos_zero cs
  have en : b.arr.num - 1 = spos cs cs.length := by omega
  unfold searchFrom
  rw [hnc, en]
  split
  · split
    · rename_i hge
      have := key m.cn cs.length hge hk (Nat.le_refl _)
      rw [hm.2]; exact this
    · rename_i hlt
      have := key 0 m.cn (by omega) (by omega) hm.1
      rw [hm.2]; rw [z] at this; exact this
  · have := key 0 cs.length (by omega) hk (Nat.le_refl _)
    rw [z] at this; exact this

theorem spos_single (h : Cut bs cs) (he : cs.length = bs.length) (k : Nat) (hk : k ≤ cs.length) : spos cs k = k := by
  have h1 := spos_end h hk
  have h2 := spos_step h (Nat.zero_le k) hk
  rw [spos_zero] at h2; omega

theorem nthChar_exact (h : BCut b bs cs) (hf : Fine bs cs) (hb : b.nc = cs.length) (k : Nat) (hk : k ≤ cs.length) (m : Mark) (hm : MarkAt cs m) :
    ∃ m', nthChar b k m = .ok (b, m', some (spos cs k)) ∧ MarkAt cs m' := by
  have hn := h.num
  unfold nthChar
  by_cases h0 : k = 0
  · subst h0
    rw [if_pos (by simp), spos_zero]
    exact ⟨m, rfl, hm⟩
  · by_cases ha : b.nc = b.arr.num - 1
    · rw [if_pos (by simp [ha]), spos_single h.cut (by omega) k hk]
      exact ⟨m, rfl, hm⟩
    · rw [if_neg (by simp [h0, ha])]
      have hc : b.count = .ok b := by
        unfold SBody.count
        rw [if_neg (by intro hx; simp only [Bool.and_eq_true, beq_iff_eq] at hx; omega)]
      rcases hf with ⟨ht, hu⟩ | hf
      · rw [hc, res_bind_ok, if_neg (by omega), search_exact h ht hu hb k hk m hm, res_bind_ok]
        refine ⟨_, rfl, ?_⟩
        unfold saveMark
        simp only
        split
        · exact ⟨hk, rfl⟩
        · exact hm
      · omega

/-- what needs no search: the ends of the text, and, from a place without bookmark, the first half -/
theorem nthChar_ends (h : BCut b bs cs) (hb : b.nc = cs.length) (k : Nat) (hk : k = 0 ∨ k = cs.length ∨ (Tame bs ∧ 2 * k < cs.length)) :
    ∃ m', nthChar b k ⟨0, 0⟩ = .ok (b, m', some (spos cs k)) := by
  have hn := h.num
  have hcl := cut_len h.cut
  have hsm := h.small
  have hkl : k ≤ cs.length := by rcases hk with h | h | h <;> omega
  unfold nthChar
  by_cases h0 : k = 0
  · subst h0
    rw [if_pos (by simp), spos_zero]
    exact ⟨_, rfl⟩
  · by_cases ha : b.nc = b.arr.num - 1
    · rw [if_pos (by simp [ha]), spos_single h.cut (by omega) k hkl]
      exact ⟨_, rfl⟩
    · rw [if_neg (by simp [h0, ha])]
      have hc : b.count = .ok b := by
        unfold SBody.count
        rw [if_neg (by intro hx; simp only [Bool.and_eq_true, beq_iff_eq] at hx; omega)]
      rw [hc, res_bind_ok, if_neg (by omega)]
      have : searchChar b k (searchFrom b k ⟨0, 0⟩) = .ok (some (spos cs k)) := by
        unfold searchFrom
        rw [if_neg (by simp)]
        unfold searchChar
        simp only [Int.natCast_zero, Int.sub_zero, hb]
        rcases hk with hk | hk | ⟨ht, hk⟩
        · exact absurd hk h0
        · subst hk
          rw [if_neg (by rw [Int.sub_self]; unfold wrap; omega), Nat.sub_self, hn, Nat.add_sub_cancel, ← (cut_at h.cut).1]
          rfl
        · rw [if_pos (by rw [wrap_nat (by omega), wrap_of_nonneg (by omega) (by omega)]; omega), Nat.sub_zero]
          have := fwd_exact h ht (b.arr.num - 1) k 0 (by omega) (by
            rw [Nat.zero_add]; have := spos_end h.cut hkl; omega)
          rw [spos_zero, Nat.zero_add] at this
          rw [this]; rfl
      rw [this, res_bind_ok]
      exact ⟨_, rfl⟩
end

end Strpp.SV.Any
