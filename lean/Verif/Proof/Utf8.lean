import Verif.Model.Utf8
/-! Lemmas about the UTF-8 model. -/
namespace Strpp

theorem is1st_iff (b : Byte) : utf8Is1st b = true ↔ (b.toNat < 128 ∨ 192 ≤ b.toNat) := by
  revert b; decide +kernel

theorem is1st_false_iff (b : Byte) : utf8Is1st b = false ↔ (128 ≤ b.toNat ∧ b.toNat < 192) := by
  revert b; decide +kernel

theorem is2nd_eq (b : Byte) : utf8Is2nd b = !utf8Is1st b := by
  revert b; decide +kernel

theorem or_tag (a b w : Nat) (h : b < 2 ^ w) : (2 ^ w * a) ||| b = 2 ^ w * a + b :=
  (Nat.two_pow_add_eq_or_of_lt h a).symm

/-- value of a written continuation byte -/
theorem putByte_cont (n : Nat) (ch : UCS4) :
    (putByte 0x80#8 0x3F#32 n ch).toNat = 128 + ch.toNat / 2 ^ n % 64 := by
  have h63 : (0x3F#32).toNat = 2 ^ 6 - 1 := rfl
  unfold putByte
  simp only [BitVec.toNat_or, BitVec.truncate_eq_setWidth, BitVec.toNat_setWidth, BitVec.toNat_and,
    BitVec.toNat_ushiftRight, Nat.shiftRight_eq_div_pow]
  rw [h63, Nat.and_two_pow_sub_one_eq_mod]
  have : ch.toNat / 2 ^ n % 2 ^ 6 < 2 ^ 6 := Nat.mod_lt _ (by decide)
  rw [Nat.mod_eq_of_lt (by omega : ch.toNat / 2 ^ n % 2 ^ 6 < 2 ^ 8)]
  exact or_tag 2 _ 6 this

theorem putByte_tag (t : Byte) (msk : UCS4) (w n a : Nat) (ch : UCS4)
    (ht : t.toNat = 2 ^ w * a) (hm : msk.toNat = 2 ^ w - 1) (hw : w ≤ 8) :
    (putByte t msk n ch).toNat = t.toNat + ch.toNat / 2 ^ n % 2 ^ w := by
  unfold putByte
  simp only [BitVec.toNat_or, BitVec.truncate_eq_setWidth, BitVec.toNat_setWidth, BitVec.toNat_and,
    BitVec.toNat_ushiftRight, Nat.shiftRight_eq_div_pow]
  rw [hm, Nat.and_two_pow_sub_one_eq_mod]
  have h1 : ch.toNat / 2 ^ n % 2 ^ w < 2 ^ w := Nat.mod_lt _ (Nat.two_pow_pos w)
  have h2 : 2 ^ w ≤ 2 ^ 8 := Nat.pow_le_pow_right (by decide) hw
  rw [Nat.mod_eq_of_lt (by omega : ch.toNat / 2 ^ n % 2 ^ w < 2 ^ 8), ht]
  exact or_tag a _ w h1

/-- one continuation step of the decoder, as arithmetic -/
theorem getStep_toNat (ch : UCS4) (b : Byte) :
    (utf8Acc ch b).toNat = ch.toNat * 64 % 2 ^ 32 + b.toNat % 64 := by
  have hb : ((b &&& 0x3F#8).zeroExtend 32).toNat = b.toNat % 64 := by
    revert b; decide +kernel
  unfold utf8Acc
  rw [BitVec.toNat_or, hb, BitVec.toNat_shiftLeft, Nat.shiftLeft_eq]
  have h : ch.toNat * 2 ^ 6 % 2 ^ 32 = 2 ^ 6 * (ch.toNat % 2 ^ 26) := by omega
  rw [h, or_tag _ _ 6 (Nat.mod_lt _ (by decide))]

theorem leadMask (b : Byte) :
    (b.signExtend 32 &&& utf8Mask (utf8CorrectLen b)).toNat =
      (if b.toNat < 0xC0 then b.toNat
       else if b.toNat < 0xE0 then b.toNat - 0xC0
       else if b.toNat < 0xF0 then b.toNat - 0xE0
       else if b.toNat < 0xF8 then b.toNat - 0xF0
       else if b.toNat < 0xFC then b.toNat - 0xF8
       else b.toNat - 0xFC) := by
  revert b; decide +kernel

theorem correctLen_le (b : Byte) : utf8CorrectLen b ≤ 6 := by
  unfold utf8CorrectLen; repeat' split
  all_goals omega

theorem mask_bits_8 : ∀ i : Fin 32, (0xFFFFFF00#32)[i.1] = decide (8 ≤ i.1) := by decide
theorem mask_bits_31 : ∀ i : Fin 32, (0x80000000#32)[i.1] = decide (31 ≤ i.1) := by decide

/-! Reserved values, arithmetically. -/

theorem and_ffffff00 (ch : UCS4) : (ch &&& 0xFFFFFF00#32) == 0x80000000#32 ↔ ch.toNat / 256 = 0x800000 := by
  rw [beq_iff_eq]
  have h : (ch &&& 0xFFFFFF00#32) = (ch >>> 8) <<< 8 := by
    ext i hi
    simp only [BitVec.getElem_and, BitVec.getElem_shiftLeft, BitVec.getElem_ushiftRight]
    have : (0xFFFFFF00#32)[i] = decide (8 ≤ i) := by
      exact mask_bits_8 ⟨i, hi⟩
    rw [this]
    by_cases h8 : i < 8
    · simp [h8, Nat.not_le.mpr h8]
    · simp [h8, Nat.not_lt.mp h8, Nat.add_sub_cancel' (Nat.not_lt.mp h8), BitVec.getLsbD_eq_getElem hi]
  rw [h]
  constructor
  · intro e
    have := congrArg BitVec.toNat e
    simp only [BitVec.toNat_shiftLeft, BitVec.toNat_ushiftRight, Nat.shiftRight_eq_div_pow, Nat.shiftLeft_eq] at this
    have h3 : (0x80000000#32).toNat = 0x80000000 := rfl
    have := ch.isLt
    omega
  · intro e
    apply BitVec.eq_of_toNat_eq
    simp only [BitVec.toNat_shiftLeft, BitVec.toNat_ushiftRight, Nat.shiftRight_eq_div_pow, Nat.shiftLeft_eq]
    have h3 : (0x80000000#32).toNat = 0x80000000 := rfl
    omega

theorem illegal_iff (ch : UCS4) :
    ucs4IsIllegal ch = true ↔ (0x80000000 ≤ ch.toNat ∧ ch.toNat ≤ 0x800000FF) ∨ ch.toNat = 0xFFFFFFFF := by
  unfold ucs4IsIllegal
  rw [Bool.or_eq_true, and_ffffff00, beq_iff_eq, ← BitVec.toNat_inj]
  have h3 : (0xFFFFFFFF#32).toNat = 0xFFFFFFFF := rfl
  rw [h3]; omega

theorem msb_iff (ch : UCS4) : (ch &&& 0x80000000#32) != 0#32 ↔ 2 ^ 31 ≤ ch.toNat := by
  rw [bne_iff_ne, ne_eq]
  have h : (ch &&& 0x80000000#32) = (ch >>> 31) <<< 31 := by
    ext i hi
    simp only [BitVec.getElem_and, BitVec.getElem_shiftLeft, BitVec.getElem_ushiftRight]
    have : (0x80000000#32)[i] = decide (31 ≤ i) := by
      exact mask_bits_31 ⟨i, hi⟩
    rw [this]
    by_cases h8 : i < 31
    · simp [h8, Nat.not_le.mpr h8]
    · simp [h8, Nat.not_lt.mp h8, Nat.add_sub_cancel' (Nat.not_lt.mp h8), BitVec.getLsbD_eq_getElem hi]
  rw [h, ← BitVec.toNat_inj]
  simp only [BitVec.toNat_shiftLeft, BitVec.toNat_ushiftRight, Nat.shiftRight_eq_div_pow, Nat.shiftLeft_eq]
  have h0 : (0#32).toNat = 0 := rfl
  have := ch.isLt
  omega

/-- `UTF8Len(ch)` in plain arithmetic -/
theorem lenCh_eq (ch : UCS4) :
    utf8LenCh ch =
      if ucs4IsIllegal ch then 1
      else if ch.toNat < 2 ^ 7 then 1
      else if ch.toNat < 2 ^ 11 then 2
      else if ch.toNat < 2 ^ 16 then 3
      else if ch.toNat < 2 ^ 21 then 4
      else if ch.toNat < 2 ^ 26 then 5
      else 6 := by
  have hi := illegal_iff ch
  have hm := msb_iff ch
  unfold utf8LenCh
  by_cases h : ucs4IsIllegal ch = true
  · have := hi.mp h
    simp only [h, if_true]
    repeat' split
    all_goals first | rfl | omega
  · have hn : ucs4IsIllegal ch = false := by simpa using h
    simp only [hn]
    by_cases h2 : (ch &&& 0x80000000#32 != 0#32) = true
    · have := hm.mp h2
      simp only [h2, if_true, Bool.false_eq_true, if_false]
      repeat' split
      all_goals first | rfl | omega
    · have : ¬ 2 ^ 31 ≤ ch.toNat := fun h => h2 (hm.mpr h)
      simp only [Bool.not_eq_true] at h2
      simp only [h2, Bool.false_eq_true, if_false]

theorem put_length (ch : UCS4) : (utf8Put ch).length = utf8LenCh ch := by
  unfold utf8Put
  rw [lenCh_eq]
  repeat' split
  all_goals simp_all

/-- The decoder on a buffer of a given shape `lead :: cont`. -/
theorem getFall_run (m : List Byte) (sp : Nat) (b0 : Byte) (cs : List Byte) (ch : UCS4) (cp : Nat)
    (hm : ∀ i (h : i < cs.length), m[cp + 1 + i]? = some cs[i])
    (hc : ∀ c ∈ cs, utf8Is1st c = false) :
    utf8GetFall m sp b0 (cs.length + 1) ch cp
      = .ok (cs.foldl utf8Acc ch, cp + cs.length + 1) := by
  induction cs generalizing ch cp with
  | nil => simp [utf8GetFall]
  | cons c cs ih =>
    have h0 : rd m (cp + 1) = .ok c := by
      have := hm 0 (by simp)
      simpa using this
    simp only [List.length_cons, utf8GetFall, h0, res_bind_ok, hc c (by simp), List.foldl_cons]
    rw [if_neg (by simp)]
    rw [ih]
    · simp only [Except.ok.injEq, Prod.mk.injEq, true_and]; omega
    · intro i h
      have := hm (i + 1) (by simpa using h)
      simp only [List.getElem_cons_succ] at this
      rw [← this]; congr 1; omega
    · intro c' h'; exact hc c' (by simp [h'])

theorem get_run (m : List Byte) (p : Nat) (b0 : Byte) (cs : List Byte)
    (h0 : m[p]? = some b0) (hl : utf8CorrectLen b0 = cs.length + 1)
    (hm : ∀ i (h : i < cs.length), m[p + 1 + i]? = some cs[i])
    (hc : ∀ c ∈ cs, utf8Is1st c = false) :
    utf8Get m p = .ok (cs.foldl utf8Acc
        (b0.signExtend 32 &&& utf8Mask (utf8CorrectLen b0)), p + cs.length + 1) := by
  unfold utf8Get
  have : rd m p = .ok b0 := by simpa using h0
  rw [this]
  simp only [res_bind_ok]
  conv => lhs; rw [hl]
  rw [getFall_run m p b0 cs _ p hm hc, hl]

theorem acc_step (a ch : UCS4) (n : Nat) (h : a.toNat = ch.toNat / 2 ^ (n + 6)) :
    (utf8Acc a (putByte 0x80#8 0x3F#32 n ch)).toNat = ch.toNat / 2 ^ n := by
  rw [getStep_toNat, putByte_cont, h, Nat.pow_add, ← Nat.div_div_eq_div_mul]
  have h1 : ch.toNat / 2 ^ n ≤ ch.toNat := Nat.div_le_self _ _
  have h2 := ch.isLt
  generalize ch.toNat / 2 ^ n = x at *
  omega

theorem cont_2nd (ch : UCS4) (n : Nat) : utf8Is1st (putByte 0x80#8 0x3F#32 n ch) = false := by
  rw [is1st_false_iff, putByte_cont]; omega

/-- lead byte: its correct length and payload -/
theorem lead_ok (b : Byte) (tag lo : Nat) (h : b.toNat = tag + lo)
    (ht : (tag = 0xC0 ∧ lo < 32) ∨ (tag = 0xE0 ∧ lo < 16) ∨ (tag = 0xF0 ∧ lo < 8) ∨
      (tag = 0xF8 ∧ lo < 4) ∨ (tag = 0xFC ∧ lo < 4)) :
    utf8CorrectLen b = (if tag = 0xC0 then 2 else if tag = 0xE0 then 3 else if tag = 0xF0 then 4
        else if tag = 0xF8 then 5 else 6) ∧
      (b.signExtend 32 &&& utf8Mask (utf8CorrectLen b)).toNat = lo := by
  rw [leadMask]
  unfold utf8CorrectLen
  rcases ht with ⟨rfl, h'⟩ | ⟨rfl, h'⟩ | ⟨rfl, h'⟩ | ⟨rfl, h'⟩ | ⟨rfl, h'⟩ <;> rw [h] <;>
    (constructor <;> repeat' split) <;> omega

/-- shape of an encoded character: lead byte and continuations. -/
theorem put_shape (ch : UCS4) (h : ucs4IsIllegal ch = false) :
    ∃ b0 cs, utf8Put ch = b0 :: cs ∧ utf8CorrectLen b0 = cs.length + 1 ∧ (∀ c ∈ cs, utf8Is1st c = false) ∧
      cs.foldl utf8Acc (b0.signExtend 32 &&& utf8Mask (utf8CorrectLen b0)) = ch := by
  have hlt := ch.isLt
  have hcc := cont_2nd ch
  unfold utf8Put
  rw [lenCh_eq, h]
  simp only [Bool.false_eq_true, if_false]
  by_cases c1 : ch.toNat < 2 ^ 7
  · simp only [c1, if_true]
    refine ⟨_, [], rfl, ?_, by simp, ?_⟩
    · simp only [utf8CorrectLen, BitVec.truncate_eq_setWidth, BitVec.toNat_setWidth, List.length_nil]
      rw [if_pos (by omega)]
    · apply BitVec.eq_of_toNat_eq
      simp only [List.foldl_nil, leadMask, BitVec.truncate_eq_setWidth, BitVec.toNat_setWidth]
      rw [if_pos (by omega)]; omega
  simp only [c1, if_false]
  by_cases c2 : ch.toNat < 2 ^ 11
  · simp only [c2, if_true]
    have hb : (putByte 0xC0#8 0x1F#32 6 ch).toNat = 0xC0 + ch.toNat / 2 ^ 6 % 2 ^ 5 :=
      putByte_tag 0xC0#8 0x1F#32 5 6 6 ch rfl rfl (by decide)
    obtain ⟨hl, hv⟩ := lead_ok _ _ _ hb (by omega)
    refine ⟨_, [_], rfl, hl, by simp only [List.mem_cons, List.not_mem_nil, or_false, forall_eq_or_imp, forall_eq, hcc, and_self], ?_⟩
    rw [Nat.mod_eq_of_lt (by omega)] at hv
    apply BitVec.eq_of_toNat_eq
    simp only [List.foldl_cons, List.foldl_nil]
    exact (acc_step _ ch 0 (hv)).trans (Nat.div_one _)
  simp only [c2, if_false]
  by_cases c3 : ch.toNat < 2 ^ 16
  · simp only [c3, if_true]
    have hb : (putByte 0xE0#8 0x0F#32 12 ch).toNat = 0xE0 + ch.toNat / 2 ^ 12 % 2 ^ 4 :=
      putByte_tag 0xE0#8 0x0F#32 4 12 14 ch rfl rfl (by decide)
    obtain ⟨hl, hv⟩ := lead_ok _ _ _ hb (by omega)
    refine ⟨_, [_, _], rfl, hl, by simp only [List.mem_cons, List.not_mem_nil, or_false, forall_eq_or_imp, forall_eq, hcc, and_self], ?_⟩
    rw [Nat.mod_eq_of_lt (by omega)] at hv
    apply BitVec.eq_of_toNat_eq
    simp only [List.foldl_cons, List.foldl_nil]
    exact (acc_step _ ch 0 (acc_step _ ch 6 (hv))).trans (Nat.div_one _)
  simp only [c3, if_false]
  by_cases c4 : ch.toNat < 2 ^ 21
  · simp only [c4, if_true]
    have hb : (putByte 0xF0#8 0x07#32 18 ch).toNat = 0xF0 + ch.toNat / 2 ^ 18 % 2 ^ 3 :=
      putByte_tag 0xF0#8 0x07#32 3 18 30 ch rfl rfl (by decide)
    obtain ⟨hl, hv⟩ := lead_ok _ _ _ hb (by omega)
    refine ⟨_, [_, _, _], rfl, hl, by simp only [List.mem_cons, List.not_mem_nil, or_false, forall_eq_or_imp, forall_eq, hcc, and_self], ?_⟩
    rw [Nat.mod_eq_of_lt (by omega)] at hv
    apply BitVec.eq_of_toNat_eq
    simp only [List.foldl_cons, List.foldl_nil]
    exact (acc_step _ ch 0 (acc_step _ ch 6 (acc_step _ ch 12 (hv)))).trans (Nat.div_one _)
  simp only [c4, if_false]
  by_cases c5 : ch.toNat < 2 ^ 26
  · simp only [c5, if_true]
    have hb : (putByte 0xF8#8 0x03#32 24 ch).toNat = 0xF8 + ch.toNat / 2 ^ 24 % 2 ^ 2 :=
      putByte_tag 0xF8#8 0x03#32 2 24 62 ch rfl rfl (by decide)
    obtain ⟨hl, hv⟩ := lead_ok _ _ _ hb (by omega)
    refine ⟨_, [_, _, _, _], rfl, hl, by simp only [List.mem_cons, List.not_mem_nil, or_false, forall_eq_or_imp, forall_eq, hcc, and_self], ?_⟩
    rw [Nat.mod_eq_of_lt (by omega)] at hv
    apply BitVec.eq_of_toNat_eq
    simp only [List.foldl_cons, List.foldl_nil]
    exact (acc_step _ ch 0 (acc_step _ ch 6 (acc_step _ ch 12 (acc_step _ ch 18 (hv))))).trans (Nat.div_one _)
  simp only [c5, if_false]
  have hb : (putByte 0xFC#8 0x03#32 30 ch).toNat = 0xFC + ch.toNat / 2 ^ 30 % 2 ^ 2 :=
    putByte_tag 0xFC#8 0x03#32 2 30 63 ch rfl rfl (by decide)
  obtain ⟨hl, hv⟩ := lead_ok _ _ _ hb (by omega)
  refine ⟨_, [_, _, _, _, _], rfl, hl, by simp only [List.mem_cons, List.not_mem_nil, or_false, forall_eq_or_imp, forall_eq, hcc, and_self], ?_⟩
  rw [Nat.mod_eq_of_lt (by omega)] at hv
  apply BitVec.eq_of_toNat_eq
  simp only [List.foldl_cons, List.foldl_nil]
  exact (acc_step _ ch 0 (acc_step _ ch 6 (acc_step _ ch 12 (acc_step _ ch 18 (acc_step _ ch 24 (hv)))))).trans (Nat.div_one _)

/-- `UTF8Get` on an encoded character anywhere in a buffer. -/
theorem get_put (pre : List Byte) (ch : UCS4) (rest : List Byte) (h : ucs4IsIllegal ch = false) :
    utf8Get (pre ++ utf8Put ch ++ rest) pre.length = .ok (ch, pre.length + (utf8Put ch).length) := by
  obtain ⟨b0, cs, hp, hl, hc, hv⟩ := put_shape ch h
  rw [hp]
  rw [get_run _ _ b0 cs _ hl _ hc]
  · rw [hv]; simp only [List.length_cons, Except.ok.injEq, Prod.mk.injEq, true_and]; omega
  · simp
  · intro i hi
    rw [List.append_assoc, List.getElem?_append_right (by omega)]
    have : pre.length + 1 + i - pre.length = i + 1 := by omega
    rw [this]; simp [List.getElem?_append_left hi]

end Strpp
