import Verif.Spec.StrHistory
import Verif.Model.StrBody
import Verif.Proof.ArrayBody
import Verif.Props.Utf8
namespace Strpp.SV

open Spec Arr

/-- byte position of character `k` -/
def bpos (cs : List UCS4) (k : Nat) : Nat := (encodeAll (cs.take k)).length

/-- the body holds the text `cs`, terminated -/
structure BDen (b : SBody) (cs : List UCS4) : Prop where
  wf : b.arr.WF
  txt : b.arr.elems = encodeAll cs ++ [0#8]
  good : ∀ c ∈ cs, ¬ Reserved c
  small : b.arr.num ≤ 1073741824
  nc : b.nc = 0 ∨ b.nc = cs.length

@[simp] theorem bpos_zero (cs : List UCS4) : bpos cs 0 = 0 := by simp [bpos]

theorem bpos_end (cs : List UCS4) (k : Nat) (h : cs.length ≤ k) : bpos cs k = (encodeAll cs).length := by
  simp [bpos, List.take_of_length_le h]

theorem take_succ_get (cs : List UCS4) (k : Nat) (h : k < cs.length) : cs.take (k + 1) = cs.take k ++ [cs[k]] := by
  rw [List.take_add_one, List.getElem?_eq_getElem h, Option.toList_some]

theorem bpos_succ (cs : List UCS4) (k : Nat) (h : k < cs.length) : bpos cs (k + 1) = bpos cs k + (utf8Put cs[k]).length := by
  unfold bpos; rw [take_succ_get cs k h, encodeAll_append, List.length_append, encodeAll_cons, encodeAll_nil, List.append_nil]

theorem put_len_pos (c : UCS4) : 0 < (utf8Put c).length := List.length_pos_iff.mpr (put_ne_nil c)

theorem bpos_add (cs : List UCS4) (j k : Nat) : bpos cs (j + k) = bpos cs j + bpos (cs.drop j) k := by
  unfold bpos
  rw [List.take_add]; simp

theorem bpos_mono (cs : List UCS4) {j k : Nat} (h : j ≤ k) : bpos cs j ≤ bpos cs k := by
  obtain ⟨d, rfl⟩ := Nat.exists_eq_add_of_le h
  rw [bpos_add]; omega

theorem bpos_ge (cs : List UCS4) (k : Nat) (h : k ≤ cs.length) : k ≤ bpos cs k := by
  induction k with
  | zero => omega
  | succ k ih =>
    rw [bpos_succ cs k (by omega)]
    have := put_len_pos cs[k]
    have := ih (by omega)
    omega

theorem bpos_strict (cs : List UCS4) {j k : Nat} (h : j < k) (hk : k ≤ cs.length) : bpos cs j < bpos cs k := by
  have h1 := bpos_mono cs (show j + 1 ≤ k from h)
  rw [bpos_succ cs j (by omega)] at h1
  have := put_len_pos (cs[j]'(by omega))
  omega

theorem bpos_le_end (cs : List UCS4) (k : Nat) : bpos cs k ≤ (encodeAll cs).length := by
  rw [← bpos_end cs (max k cs.length) (by omega)]
  exact bpos_mono cs (by omega)

theorem bpos_append (a b : List UCS4) (k : Nat) : bpos (a ++ b) (a.length + k) = bpos (a ++ b) a.length + bpos b k := by
  rw [bpos_add]; simp

theorem bpos_left (a b : List UCS4) (k : Nat) (h : k ≤ a.length) : bpos (a ++ b) k = bpos a k := by
  unfold bpos; rw [List.take_append_of_le_length h]

theorem encodeAll_length_ge (cs : List UCS4) : cs.length ≤ (encodeAll cs).length := by
  have := bpos_ge cs cs.length (Nat.le_refl _)
  rwa [bpos_end cs _ (Nat.le_refl _)] at this

/-- only one-byte characters: byte positions are character positions -/
theorem bpos_ascii (cs : List UCS4) (h : cs.length = (encodeAll cs).length) (k : Nat) (hk : k ≤ cs.length) :
    bpos cs k = k := by
  have h1 := bpos_ge cs k hk
  have h2 := encodeAll_length_ge (cs.drop k)
  have h3 := bpos_add cs k (cs.length - k)
  rw [bpos_end cs _ (by omega), bpos_end (cs.drop k) _ (by simp)] at h3
  simp only [List.length_drop] at h2
  omega

theorem split_at (cs : List UCS4) (k : Nat) (h : k < cs.length) : cs = cs.take k ++ cs[k] :: cs.drop (k + 1) := by
  rw [List.getElem_cons_drop h, List.take_append_drop]

section
variable {b : SBody} {cs : List UCS4}

theorem BDen.num (h : BDen b cs) : b.arr.num = (encodeAll cs).length + 1 := by
  have := h.wf.length; rw [h.txt] at this; simp at this; omega

theorem BDen.mem (h : BDen b cs) : ∃ slack, b.arr.mem = encodeAll cs ++ ([0#8] ++ slack) := by
  refine ⟨b.arr.mem.drop b.arr.num, ?_⟩
  rw [← List.append_assoc, ← h.txt, Body.elems, List.take_append_drop]

theorem BDen.memAt (h : BDen b cs) (k : Nat) (hk : k < cs.length) :
    ∃ pre rest, b.arr.mem = pre ++ utf8Put cs[k] ++ rest ∧ pre.length = bpos cs k := by
  obtain ⟨slack, hm⟩ := h.mem
  refine ⟨encodeAll (cs.take k), encodeAll (cs.drop (k + 1)) ++ ([0#8] ++ slack), ?_, rfl⟩
  have e : encodeAll cs = encodeAll (cs.take k) ++ (utf8Put cs[k] ++ encodeAll (cs.drop (k + 1))) := by
    rw [← encodeAll_cons, ← encodeAll_append, ← split_at cs k hk]
  rw [hm, e]; simp only [List.append_assoc]

theorem BDen.good_at (h : BDen b cs) (k : Nat) (hk : k < cs.length) : ¬ Reserved cs[k] := h.good _ (List.getElem_mem hk)

theorem BDen.get (h : BDen b cs) (k : Nat) (hk : k < cs.length) :
    utf8Get b.arr.mem (bpos cs k) = .ok (cs[k], bpos cs (k + 1)) := by
  obtain ⟨pre, rest, hm, hp⟩ := h.memAt k hk
  rw [hm, ← hp, C01_utf8_round_trip pre rest _ (h.good_at k hk), bpos_succ cs k hk, hp]

theorem BDen.zero (h : BDen b cs) : b.arr.mem[(encodeAll cs).length]? = some 0#8 := by
  obtain ⟨slack, hm⟩ := h.mem
  rw [hm]; simp

theorem get_zero (mem : List Byte) (p : Nat) (h : mem[p]? = some 0#8) : utf8Get mem p = .ok (0#32, p + 1) := by
  have hr : rd mem p = .ok 0#8 := by simpa using h
  unfold utf8Get
  rw [hr]; rfl

theorem BDen.get_end (h : BDen b cs) : utf8Get b.arr.mem (bpos cs cs.length) = .ok (0#32, bpos cs cs.length + 1) := by
  rw [bpos_end cs _ (Nat.le_refl _)]
  exact get_zero _ _ h.zero

theorem BDen.lenAt (h : BDen b cs) (k : Nat) (hk : k < cs.length) :
    utf8LenAt b.arr.mem (bpos cs k) = .ok (bpos cs (k + 1) - bpos cs k) := by
  obtain ⟨pre, rest, hm, hp⟩ := h.memAt k hk
  rw [hm, ← hp, C04_len_scan_wellformed pre _ rest (h.good_at k hk), bpos_succ cs k hk, hp, put_length]
  congr 1; omega

theorem BDen.backup (h : BDen b cs) (k : Nat) (hk : k < cs.length) :
    utf8Backup b.arr.mem ((bpos cs (k + 1) : Nat) : Int) (some 0) = .ok (some ((bpos cs k : Nat) : Int)) := by
  obtain ⟨pre, rest, hm, hp⟩ := h.memAt k hk
  obtain ⟨-, b0, ds, v, hput, hli, hc⟩ := C02_utf8_shape cs[k] (h.good_at k hk)
  rw [bpos_succ cs k hk, hput]
  rw [hm, hput]
  have := C06_backup_partial (pre ++ (b0 :: ds) ++ rest) (bpos cs k) ds.length v b0 ?_ hli ?_ (some 0) (by intro l hl; cases hl; omega)
  · simpa using this
  · rw [← hp]; simp
  · intro i hi
    refine ⟨ds[i], ?_, hc _ (List.getElem_mem hi)⟩
    rw [← hp, List.append_assoc, List.getElem?_append_right (by omega)]
    have : pre.length + 1 + i - pre.length = i + 1 := by omega
    rw [this, List.cons_append, List.getElem?_cons_succ, List.getElem?_append_left hi, List.getElem?_eq_getElem hi]

theorem countLoop_spec (h : BDen b cs) : ∀ (d k fuel nc : Nat), k + d = cs.length → d < fuel →
    countLoop b.arr.mem (encodeAll cs).length fuel (bpos cs k) nc = .ok (nc + d) := by
  intro d
  induction d with
  | zero =>
    intro k fuel nc hk hf
    obtain ⟨f, rfl⟩ : ∃ f, fuel = f + 1 := ⟨fuel - 1, by omega⟩
    rw [countLoop, if_neg (by rw [bpos_end cs k (by omega)]; omega)]; rfl
  | succ d ih =>
    intro k fuel nc hk hf
    obtain ⟨f, rfl⟩ : ∃ f, fuel = f + 1 := ⟨fuel - 1, by omega⟩
    have hlt : k < cs.length := by omega
    have hb : bpos cs k < (encodeAll cs).length := by
      rw [← bpos_end cs cs.length (Nat.le_refl _)]; exact bpos_strict cs hlt (Nat.le_refl _)
    rw [countLoop, if_pos hb, h.get k hlt, res_bind_ok]
    have h1 : (cs[k] == 0xFFFFFFFF#32) = false := by
      rw [beq_eq_false_iff_ne]
      intro he
      exact h.good_at k hlt (Or.inr he)
    have h2 := bpos_le_end cs (k + 1)
    rw [if_neg (by simp only [h1, Bool.false_or]; simpa using h2)]
    rw [ih (k + 1) f (nc + 1) (by omega) (by omega)]
    congr 1; omega

theorem BDen.count (h : BDen b cs) : ∃ b', b.count = .ok b' ∧ BDen b' cs ∧ b'.nc = cs.length ∧ b'.arr = b.arr := by
  have hn := h.num
  unfold SBody.count
  by_cases hc : b.nc = 0
  · rw [if_pos (by simp [hc]; omega)]
    have := countLoop_spec h cs.length 0 (b.arr.num + 1) 0 (by omega) (by have := encodeAll_length_ge cs; omega)
    rw [bpos_zero] at this
    rw [hn, Nat.add_sub_cancel, ← hn, this, res_bind_ok]
    exact ⟨_, rfl, ⟨h.wf, h.txt, h.good, h.small, Or.inr (by simp)⟩, by simp, rfl⟩
  · rw [if_neg (by simp [hc])]
    exact ⟨b, rfl, h, by rcases h.nc with h | h; exact absurd h hc; exact h, rfl⟩

theorem fwd_spec (h : BDen b cs) (ep : Nat) : ∀ (n k : Nat), k + n ≤ cs.length → bpos cs (k + n) ≤ ep →
    fwd b.arr.mem ep n (bpos cs k) = .ok (bpos cs (k + n)) := by
  intro n
  induction n with
  | zero => intro k _ _; rfl
  | succ n ih =>
    intro k hk hep
    have h1 := bpos_strict cs (show k < k + (n + 1) by omega) hk
    have h2 := bpos_strict cs (show k < k + 1 by omega) (by omega)
    rw [fwd, if_pos (by omega), h.lenAt k (by omega), res_bind_ok]
    have e : bpos cs k + (bpos cs (k + 1) - bpos cs k) = bpos cs (k + 1) := by omega
    have e2 : k + (n + 1) = k + 1 + n := by omega
    rw [e, ih (k + 1) (by omega) (by rw [← e2]; exact hep), e2]

theorem bwd_spec (h : BDen b cs) (up : Nat) : ∀ (n k : Nat), k + n ≤ cs.length → up ≤ bpos cs k →
    bwd b.arr.mem up n (bpos cs (k + n)) = .ok (some (bpos cs k)) := by
  intro n
  induction n with
  | zero => intro k _ _; rfl
  | succ n ih =>
    intro k hk hup
    have h1 := bpos_strict cs (show k < k + (n + 1) by omega) hk
    rw [bwd, if_pos (by omega)]
    have e2 : k + (n + 1) = k + n + 1 := by omega
    rw [e2, h.backup (k + n) (by omega), res_bind_ok]
    simp only [Int.toNat_natCast]
    exact ih k (by omega) hup

/-- what a bookmark may be: none, a correct one, or a wrapped one (which the search ignores) -/
def MarkOk (cs : List UCS4) (m : Mark) : Prop :=
  (m.cn ≤ cs.length ∧ m.bn = bpos cs m.cn) ∨ (3221225472 ≤ m.cn ∧ m.cn < 4294967296 ∧ 3221225472 ≤ m.bn ∧ m.bn < 4294967296)

theorem wrap_of_nonneg {a b : Nat} (h : b ≤ a) (ha : a < 4294967296) : wrap ((a : Int) - b) = a - b := by
  unfold wrap; omega

theorem wrap_nat {a : Nat} (ha : a < 4294967296) : wrap (a : Int) = a := by unfold wrap; omega

theorem wrap_of_neg {a b : Nat} (h : a < b) (hb : b < 4294967296) : wrap ((a : Int) - b) = a + 4294967296 - b := by
  unfold wrap; omega

theorem search_spec (h : BDen b cs) (hnc : b.nc = cs.length) (k : Nat) (hk : k ≤ cs.length) (m : Mark) (hm : MarkOk cs m) :
    searchChar b k (searchFrom b k m) = .ok (some (bpos cs k)) := by
  have hn := h.num
  have hcap := h.small
  have hcl := encodeAll_length_ge cs
  have hbk := bpos_le_end cs k
  have hend := bpos_end cs cs.length (Nat.le_refl _)
  have base : searchChar b k (0, 0, b.arr.num - 1, b.nc) = .ok (some (bpos cs k)) := by
    unfold searchChar
    simp only [Int.natCast_zero, Int.sub_zero]
    rw [hnc]
    split
    · have := fwd_spec h (b.arr.num - 1) k 0 (by omega) (by rw [Nat.zero_add]; omega)
      rw [bpos_zero, Nat.zero_add] at this
      rw [Nat.sub_zero, this]; rfl
    · have := bwd_spec h 0 (cs.length - k) k (by omega) (by omega)
      rw [show k + (cs.length - k) = cs.length by omega, hend] at this
      rw [hn, Nat.add_sub_cancel, this]
  unfold searchFrom
  split
  · rename_i hpos
    rcases hm with ⟨hm1, hm2⟩ | ⟨hm1, hm2, hm3, hm4⟩
    · split
      · rename_i hge
        unfold searchChar
        simp only
        rw [hnc]
        split
        · have := fwd_spec h (b.arr.num - 1) (k - m.cn) m.cn (by omega) (by rw [show m.cn + (k - m.cn) = k by omega]; omega)
          rw [hm2, this, show m.cn + (k - m.cn) = k by omega]; rfl
        · have := bwd_spec h m.bn (cs.length - k) k (by omega) (by rw [hm2]; exact bpos_mono cs hge)
          rw [show k + (cs.length - k) = cs.length by omega, hend] at this
          rw [hn, Nat.add_sub_cancel, this]
      · rename_i hlt
        unfold searchChar
        simp only [Int.natCast_zero, Int.sub_zero]
        split
        · have := fwd_spec h m.bn k 0 (by omega) (by rw [Nat.zero_add, hm2]; exact bpos_mono cs (by omega))
          rw [bpos_zero, Nat.zero_add] at this
          rw [Nat.sub_zero, this]; rfl
        · have := bwd_spec h 0 (m.cn - k) k (by omega) (by omega)
          rw [show k + (m.cn - k) = m.cn by omega, ← hm2] at this
          rw [this]
    · rw [if_neg (by omega)]
      unfold searchChar
      simp only [Int.natCast_zero, Int.sub_zero]
      rw [if_pos (by rw [wrap_nat (by omega), wrap_of_nonneg (by omega) (by omega)]; omega)]
      have := fwd_spec h m.bn k 0 (by omega) (by rw [Nat.zero_add]; omega)
      rw [bpos_zero, Nat.zero_add] at this
      rw [Nat.sub_zero, this]; rfl
  · exact base

theorem nthChar_spec (h : BDen b cs) (k : Nat) (hk : k ≤ cs.length) (m : Mark) (hm : MarkOk cs m) :
    ∃ b' m', nthChar b k m = .ok (b', m', some (bpos cs k)) ∧ BDen b' cs ∧ b'.arr = b.arr ∧
      (m' = m ∨ (m' = ⟨k, bpos cs k⟩ ∧ 3 < k)) := by
  have hn := h.num
  unfold nthChar
  by_cases h0 : k = 0
  · subst h0
    rw [if_pos (by simp)]
    exact ⟨b, m, by simp, h, rfl, Or.inl rfl⟩
  · by_cases ha : b.nc = b.arr.num - 1
    · rw [if_pos (by simp [ha])]
      refine ⟨b, m, ?_, h, rfl, Or.inl rfl⟩
      have hlen : cs.length = (encodeAll cs).length := by
        have := encodeAll_length_ge cs
        rcases h.nc with h | h <;> omega
      rw [bpos_ascii cs hlen k hk]
    · rw [if_neg (by simp [h0, ha])]
      obtain ⟨b', e1, e2, e3, e4⟩ := h.count
      rw [e1, res_bind_ok, if_neg (by omega), search_spec e2 e3 k hk m hm, res_bind_ok]
      refine ⟨b', _, rfl, e2, e4, ?_⟩
      unfold saveMark
      simp only
      split
      · rename_i hc; exact Or.inr ⟨rfl, hc.1⟩
      · exact Or.inl rfl
end

/-- `σ` is a correct string showing `t`; its body also holds `pre` before and `post` after this. -/
structure Den (σ : Str) (pre t post : List UCS4) : Prop where
  body : BDen σ.b (pre ++ t ++ post)
  off : σ.off = pre.length
  num : σ.num = t.length
  mark : MarkOk (pre ++ t ++ post) σ.mark
  markIn : σ.mark.cn ≤ pre.length + t.length ∨ (pre = [] ∧ 3221225472 ≤ σ.mark.cn)

section
variable {σ : Str} {pre t post : List UCS4}

/-- byte position of character `k` of the slice -/
theorem Den.nth (h : Den σ pre t post) (k : Nat) (hk : k ≤ t.length) :
    ∃ σ', σ.nth k = .ok (σ', some (bpos (pre ++ t ++ post) (pre.length + k))) ∧ Den σ' pre t post ∧
      σ'.b.arr = σ.b.arr ∧ σ'.off = σ.off ∧ σ'.num = σ.num ∧
      (σ'.mark = σ.mark ∨ (σ'.mark = ⟨pre.length + k, bpos (pre ++ t ++ post) (pre.length + k)⟩ ∧ 3 < pre.length + k)) := by
  unfold Str.nth
  rw [if_neg (by rw [h.num]; omega)]
  obtain ⟨b', m', e1, e2, e3, e4⟩ := nthChar_spec h.body (pre.length + k) (by simp; omega) σ.mark h.mark
  rw [h.off, e1, res_bind_ok, ← h.off]
  refine ⟨_, rfl, ⟨e2, h.off, h.num, ?_, ?_⟩, e3, rfl, rfl, ?_⟩
  · rcases e4 with e4 | e4
    · simp only [e4]; exact h.mark
    · simp only [e4.1]
      left
      exact ⟨by simp; omega, rfl⟩
  · rcases e4 with e4 | e4
    · simp only [e4]; exact h.markIn
    · simp only [e4.1]
      left; omega
  · simpa [h.off] using e4

theorem Den.nth_out (h : Den σ pre t post) (k : Nat) (hk : t.length < k) : σ.nth k = .ok (σ, none) := by
  unfold Str.nth
  rw [if_pos (by rw [h.num]; omega)]

theorem Den.nthC (h : Den σ pre t post) (k : Nat) (hk : k ≤ t.length) :
    σ.nthC k = .ok (some (bpos (pre ++ t ++ post) (pre.length + k))) := by
  obtain ⟨σ', e, -⟩ := h.nth k hk
  unfold Str.nthC
  rw [e]; rfl

theorem Den.nthC_out (h : Den σ pre t post) (k : Nat) (hk : t.length < k) : σ.nthC k = .ok none := by
  unfold Str.nthC
  rw [h.nth_out k hk]; rfl

theorem bpos_mid (pre t post : List UCS4) (k : Nat) (hk : k ≤ t.length) :
    bpos (pre ++ t ++ post) (pre.length + k) = (encodeAll pre).length + bpos t k := by
  rw [List.append_assoc, bpos_append, bpos_left t post k hk, bpos_left pre _ _ (Nat.le_refl _), bpos_end pre _ (Nat.le_refl _)]

theorem Den.numBytes (h : Den σ pre t post) : σ.numBytes = .ok (encodeAll t).length := by
  unfold Str.numBytes
  rw [h.num, h.nthC t.length (Nat.le_refl _), h.nthC 0 (by omega)]
  simp only [res_bind_ok, Option.isSome_some, assert_true, deref]
  rw [bpos_mid _ _ _ _ (Nat.le_refl _), bpos_mid _ _ _ _ (by omega), bpos_end t _ (Nat.le_refl _), bpos_zero]
  congr 1; omega

/-- the bytes from the start of the slice on -/
theorem Den.memAt (h : Den σ pre t post) :
    ∃ slack, σ.b.arr.mem = encodeAll pre ++ (encodeAll t ++ (encodeAll post ++ ([0#8] ++ slack))) := by
  obtain ⟨slack, hm⟩ := h.body.mem
  exact ⟨slack, by rw [hm]; simp⟩

theorem Den.bytes (h : Den σ pre t post) : σ.bytes = .ok (encodeAll t) := by
  unfold Str.bytes
  rw [h.num, h.nthC t.length (Nat.le_refl _), h.nthC 0 (by omega)]
  simp only [res_bind_ok, deref]
  rw [bpos_mid _ _ _ _ (Nat.le_refl _), bpos_mid _ _ _ _ (by omega), bpos_end t _ (Nat.le_refl _), bpos_zero]
  obtain ⟨slack, hm⟩ := h.memAt
  have e : (encodeAll pre).length + (encodeAll t).length - ((encodeAll pre).length + 0) = (encodeAll t).length := by omega
  rw [e, readN_spec _ _ _ (by rw [hm]; simp), hm]
  simp

theorem Den.cap (h : Den σ pre t post) : pre.length + t.length + post.length < 1073741824 := by
  have h1 := h.body.num
  have h2 := h.body.small
  have h3 := encodeAll_length_ge (pre ++ t ++ post)
  simp only [List.length_append] at h3
  omega

/-- `operator[]` -/
theorem Den.get (h : Den σ pre t post) (i : Int) :
    σ.get i = .ok (if wrap i = t.length then 0#32 else (t[wrap i]?).getD 0xFFFFFFFF#32) := by
  unfold Str.get
  rw [h.num]
  by_cases h1 : wrap i = t.length
  · rw [if_pos (by simpa using h1), if_pos h1]
  · rw [if_neg (by simpa using h1), if_neg h1]
    rcases Nat.lt_or_ge (wrap i) t.length with hlt | hge
    · rw [h.nthC _ (by omega), res_bind_ok]
      simp only
      have hl : pre.length + wrap i < (pre ++ t ++ post).length := by simp; omega
      rw [h.body.get _ hl, res_bind_ok]
      have e : (pre ++ t ++ post)[pre.length + wrap i] = t[wrap i] := by
        simp [List.getElem_append_left hlt]
      rw [e, List.getElem?_eq_getElem hlt]; rfl
    · rw [h.nthC_out _ (by omega), res_bind_ok]
      rw [List.getElem?_eq_none hge]; rfl

end

end Strpp.SV
