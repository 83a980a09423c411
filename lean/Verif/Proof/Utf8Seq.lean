import Verif.Proof.Utf8Decode
/-! Sequences of characters; length scan; backing up. -/
namespace Strpp
open Spec

theorem reserved_iff (ch : UCS4) : Reserved ch ↔ ucs4IsIllegal ch = true := by
  rw [illegal_iff]; unfold Reserved
  rw [← BitVec.toNat_inj]; rfl

theorem not_reserved (ch : UCS4) (h : ¬ Reserved ch) : ucs4IsIllegal ch = false := by
  rw [reserved_iff] at h; simpa using h

/-- what `UTF8Put` writes for each character, concatenated -/
def encodeAll (cs : List UCS4) : List Byte := cs.flatMap utf8Put

@[simp] theorem encodeAll_nil : encodeAll [] = [] := rfl
@[simp] theorem encodeAll_cons (c : UCS4) (cs : List UCS4) : encodeAll (c :: cs) = utf8Put c ++ encodeAll cs := by
  simp [encodeAll]
@[simp] theorem encodeAll_append (a b : List UCS4) : encodeAll (a ++ b) = encodeAll a ++ encodeAll b := by
  simp [encodeAll]

theorem put_ne_nil (ch : UCS4) : utf8Put ch ≠ [] := by
  intro h
  have := put_length ch
  rw [h, lenCh_eq] at this
  simp only [List.length_nil] at this
  (repeat' split at this) <;> omega

theorem decode1_put (ch : UCS4) (rest : List Byte) (h : ¬ Reserved ch) :
    decode1 (utf8Put ch ++ rest) = some (ch, (utf8Put ch).length) := by
  have hg := get_put [] ch (rest ++ [0#8]) (not_reserved ch h)
  obtain ⟨ch', n, hd, hg', h1, h6, hz⟩ := get_decode1 (utf8Put ch ++ (rest ++ [0#8])) 0
    ((utf8Put ch ++ rest).length) 0#8
    (by simp only [List.length_append]; have := List.length_pos_iff.mpr (put_ne_nil ch); omega)
    (by rw [← List.append_assoc, List.getElem?_append_right (Nat.le_refl _)]; simp) (by decide)
  simp only [List.nil_append, List.length_nil] at hg
  rw [hg'] at hg
  simp only [Except.ok.injEq, Prod.mk.injEq] at hg
  obtain ⟨rfl, hn⟩ := hg
  have hn : n = (utf8Put ch').length := by omega
  subst hn
  -- remove the terminator
  obtain ⟨b0, cs, hp, hl, hc, hv⟩ := put_shape ch' (not_reserved ch' h)
  rw [hp] at hd ⊢
  have hcl := correctLen_leadInfo b0
  simp only [List.drop_zero, List.cons_append, decode1] at hd ⊢
  cases hli : leadInfo b0 with
  | none => rw [hli] at hcl; simp only at hcl; omega
  | some nv =>
    obtain ⟨k, v⟩ := nv
    rw [hli] at hd hcl
    simp only at hd hcl ⊢
    have hk : k = cs.length := by omega
    subst hk
    simpa using hd

theorem decode1_pos (bs : List Byte) (ch : UCS4) (n : Nat) (h : decode1 bs = some (ch, n)) :
    1 ≤ n ∧ n ≤ 6 ∧ n ≤ bs.length := by
  cases bs with
  | nil => cases h
  | cons b rest =>
    simp only [decode1] at h
    cases hli : leadInfo b with
    | none => rw [hli] at h; simp only [Option.some.injEq, Prod.mk.injEq] at h; simp; omega
    | some nv =>
      obtain ⟨k, v⟩ := nv
      have := leadInfo_bound b k v hli
      rw [hli] at h
      simp only at h
      split at h
      · rename_i hc
        simp only [Option.some.injEq, Prod.mk.injEq] at h
        have := hc.1
        simp only [List.length_take] at this
        simp only [List.length_cons]; omega
      · simp only [Option.some.injEq, Prod.mk.injEq] at h; simp; omega

theorem decode1_some (bs : List Byte) (h : bs ≠ []) : ∃ ch n, decode1 bs = some (ch, n) := by
  cases bs with
  | nil => exact absurd rfl h
  | cons b rest =>
    simp only [decode1]
    split
    · exact ⟨_, _, rfl⟩
    · split <;> exact ⟨_, _, rfl⟩

theorem decodeAll_nil : decodeAll [] = [] := by rw [decodeAll]; rfl

theorem decodeAll_step (bs : List Byte) (ch : UCS4) (n : Nat) (h : decode1 bs = some (ch, n)) :
    decodeAll bs = ch :: decodeAll (bs.drop n) := by
  have hp := decode1_pos bs ch n h
  rw [decodeAll, h]
  simp only
  rw [if_neg]
  intro hc
  rcases hc with hc | hc
  · omega
  · subst hc; simp at hp; omega

theorem decodeAll_encodeAll (cs : List UCS4) (h : ∀ c ∈ cs, ¬ Reserved c) (rest : List Byte) :
    decodeAll (encodeAll cs ++ rest) = cs ++ decodeAll rest := by
  induction cs with
  | nil => simp
  | cons c cs ih =>
    have h1 := decode1_put c (encodeAll cs ++ rest) (h c (by simp))
    rw [encodeAll_cons, List.append_assoc, decodeAll_step _ _ _ h1]
    simp only [List.drop_left, List.cons_append]
    rw [ih (fun c' h' => h c' (by simp [h']))]

/-! Re-encoding -/

theorem contValue_inj (cs ds : List Byte) (v w : Nat) (hl : cs.length = ds.length)
    (hc : ∀ c ∈ cs, isCont c = true) (hd : ∀ c ∈ ds, isCont c = true)
    (h : contValue v cs = contValue w ds) : v = w ∧ cs = ds := by
  induction cs generalizing ds v w with
  | nil =>
    have : ds = [] := List.length_eq_zero_iff.mp hl.symm
    subst this
    exact ⟨h, rfl⟩
  | cons c cs ih =>
    cases ds with
    | nil => simp at hl
    | cons d ds =>
      have hc1 := hc c (by simp)
      have hd1 := hd d (by simp)
      simp only [isCont, Bool.and_eq_true, decide_eq_true_eq] at hc1 hd1
      have := ih ds (v * 64 + (c.toNat - 128)) (w * 64 + (d.toNat - 128)) (by simpa using hl)
        (fun c' h' => hc c' (by simp [h'])) (fun c' h' => hd c' (by simp [h']))
        (by unfold contValue at h ⊢; simpa only [List.foldl_cons] using h)
      obtain ⟨h1, rfl⟩ := this
      have h2 : c = d := by apply BitVec.eq_of_toNat_eq; omega
      exact ⟨by omega, by rw [h2]⟩

theorem leadInfo_inj (b b' : Byte) (n v : Nat) (h : leadInfo b = some (n, v)) (h' : leadInfo b' = some (n, v)) :
    b = b' := by
  apply BitVec.eq_of_toNat_eq
  unfold leadInfo at h h'
  have := b.isLt
  have := b'.isLt
  (repeat' split at h) <;> simp only [Option.some.injEq, Prod.mk.injEq, reduceCtorEq] at h <;>
    (repeat' split at h') <;> simp only [Option.some.injEq, Prod.mk.injEq, reduceCtorEq] at h' <;> omega

/-- re-encoding a decoded character gives the bytes back, when the character's own length is the number of bytes
it was read from -/
theorem put_decode1 (bs : List Byte) (ch : UCS4) (n : Nat) (h : decode1 bs = some (ch, n)) (hn : utf8LenCh ch = n) :
    utf8Put ch = bs.take n := by
  cases bs with
  | nil => cases h
  | cons b rest =>
    simp only [decode1] at h
    have ill : (BitVec.ofNat 32 (0x80000000 + b.toNat), 1) = (ch, n) → utf8Put ch = (b :: rest).take n := by
      intro he
      simp only [Prod.mk.injEq] at he
      obtain ⟨rfl, rfl⟩ := he
      unfold utf8Put
      rw [hn]
      simp only [List.take_succ_cons, List.take_zero, List.cons.injEq, and_true]
      apply BitVec.eq_of_toNat_eq
      have := b.isLt
      simp only [BitVec.truncate_eq_setWidth, BitVec.toNat_setWidth, BitVec.toNat_ofNat]
      omega
    cases hli : leadInfo b with
    | none =>
      rw [hli] at h
      exact ill (Option.some.inj h)
    | some nv =>
      obtain ⟨k, v⟩ := nv
      rw [hli] at h
      simp only at h
      split at h
      case isFalse => exact ill (Option.some.inj h)
      case isTrue hc =>
        obtain ⟨hlen, hall⟩ := hc
        rw [List.all_eq_true] at hall
        have hb := leadInfo_bound b k v hli
        have hcv := contValue_bound (rest.take k) v hall
        rw [hlen] at hcv
        have hlt : contValue v (rest.take k) < 2 ^ 32 := Nat.lt_of_lt_of_le hcv.2 hb.2.2
        simp only [Option.some.injEq, Prod.mk.injEq] at h
        obtain ⟨rfl, rfl⟩ := h
        have hch : (BitVec.ofNat 32 (contValue v (rest.take k))).toNat = contValue v (rest.take k) := by
          rw [BitVec.toNat_ofNat, Nat.mod_eq_of_lt hlt]
        generalize hX : BitVec.ofNat 32 (contValue v (rest.take k)) = X at *
        have hnr : ucs4IsIllegal X = false := by
          cases hI : ucs4IsIllegal X with
          | false => rfl
          | true =>
            exfalso
            have h1 : utf8LenCh X = 1 := by rw [lenCh_eq, hI]; simp
            have hk : k = 0 := by omega
            subst hk
            have h2 := (illegal_iff X).mp hI
            have h3 : v < 128 := by
              unfold leadInfo at hli
              (repeat' split at hli) <;> simp only [Option.some.injEq, Prod.mk.injEq, reduceCtorEq] at hli <;> omega
            simp only [List.take_zero, contValue, List.foldl_nil] at hch
            omega
        obtain ⟨b0, cs, hp, hl, hc, hv⟩ := put_shape X hnr
        have hcsl : cs.length = k := by
          have := put_length X
          rw [hp, hn] at this; simpa using this
        have hcont : ∀ c ∈ cs, isCont c = true := by
          intro c h'; rw [isCont_eq, hc c h']; rfl
        have hcl := correctLen_leadInfo b0
        cases hli0 : leadInfo b0 with
        | none => rw [hli0] at hcl; simp only at hcl; omega
        | some nv =>
          obtain ⟨k0, v0⟩ := nv
          rw [hli0] at hcl
          simp only at hcl
          have hk0 : k0 = k := by omega
          subst hk0
          have hv2 := acc_contValue cs _ v0 (leadInfo_mask b0 k0 v0 hli0) hcont
            (by rw [hcsl]; exact (leadInfo_bound b0 k0 v0 hli0).2.2)
          rw [hv, hch] at hv2
          obtain ⟨rfl, rfl⟩ := contValue_inj _ _ _ _ (by rw [hlen, hcsl]) hall hcont hv2
          have := leadInfo_inj b b0 _ _ hli hli0
          subst this
          rw [hp, List.take_succ_cons]

/-! The length scan, include/char_encoding.h:154-182 -/

/-- All reads of the length scan are in the buffer: it agrees with the decoder. -/
theorem lenFall_eq (m : List Byte) (p len k : Nat) (hm : p + k < m.length) :
    utf8LenFall m p len (k + 1) = .ok (if ((m.drop (p + 1)).take k).all isCont then len else 1) := by
  induction k with
  | zero => simp [utf8LenFall]
  | succ k ih =>
    have hr : rd m (p + (k + 1)) = .ok m[p + (k + 1)] := rd_lt m _ hm
    have ht : (m.drop (p + 1)).take (k + 1) = (m.drop (p + 1)).take k ++ [m[p + (k + 1)]] := by
      rw [List.take_add_one]
      congr 1
      rw [List.getElem?_drop]
      have : p + 1 + k = p + (k + 1) := by omega
      rw [this, List.getElem?_eq_getElem hm]; rfl
    simp only [utf8LenFall, hr, res_bind_ok]
    rw [ht, List.all_append, ih (by omega)]
    simp only [List.all_cons, List.all_nil, Bool.and_true, isCont_eq]
    cases utf8Is1st m[p + (k + 1)] <;> simp

theorem lenAt_decode1 (m : List Byte) (p : Nat) (b : Byte) (hb : m[p]? = some b) (hm : p + (utf8CorrectLen b - 1) < m.length)
    (ch : UCS4) (n : Nat) (h : decode1 (m.drop p) = some (ch, n)) :
    utf8LenAt m p = .ok n := by
  have hlen : p < m.length := by omega
  have hd : m.drop p = b :: m.drop (p + 1) := by
    rw [List.drop_eq_getElem_cons hlen]
    rw [List.getElem?_eq_getElem hlen] at hb; rw [Option.some.inj hb]
  have hr : rd m p = .ok b := by simpa using hb
  unfold utf8LenAt
  rw [hr]; simp only [res_bind_ok]
  have hcl := correctLen_leadInfo b
  rw [hd] at h
  simp only [decode1] at h
  cases hli : leadInfo b with
  | none =>
    rw [hli] at hcl h
    simp only at hcl
    simp only [Option.some.injEq, Prod.mk.injEq] at h
    rw [hcl, ← h.2]; rfl
  | some nv =>
    obtain ⟨k, v⟩ := nv
    rw [hli] at hcl h
    simp only at hcl h
    rw [hcl] at hm ⊢
    have hk : p + k < m.length := by omega
    rw [lenFall_eq m p (k + 1) k hk]
    have hlk : ((m.drop (p + 1)).take k).length = k := by
      rw [List.length_take, List.length_drop]; omega
    by_cases hall : ((m.drop (p + 1)).take k).all isCont = true
    · rw [if_pos ⟨hlk, hall⟩] at h
      rw [if_pos hall]
      simp only [Option.some.injEq, Prod.mk.injEq] at h
      rw [h.2]
    · rw [if_neg (fun hh => hall hh.2)] at h
      rw [if_neg hall]
      simp only [Option.some.injEq, Prod.mk.injEq] at h
      rw [h.2]

/-! Backing up, include/char_encoding.h:239-257 -/

theorem rdI_ok {α : Type} (m : List α) (i : Nat) (b : α) (h : m[i]? = some b) : rdI m (i : Int) = .ok b := by
  unfold rdI
  rw [if_neg (by omega)]
  simpa using h

/-- With a start byte found after `back` continuation bytes. -/
theorem backupLoop_found (m : List Byte) (cp : Nat) (k : Nat) (b : Byte) (back n : Nat)
    (hk : back ≤ k) (hkc : k ≤ cp) (hn : k - back < n)
    (hb : m[cp - k]? = some b) (h1 : utf8Is1st b = true)
    (hc : ∀ j, back ≤ j → j < k → ∃ c, m[cp - j]? = some c ∧ utf8Is1st c = false) :
    utf8BackupLoop m cp n back = .ok (if utf8CorrectLen b ≥ k then (cp : Int) - k else cp - 1) := by
  induction n generalizing back with
  | zero => omega
  | succ n ih =>
    rcases Nat.lt_or_ge back k with hlt | hge
    · obtain ⟨c, hcm, hc1⟩ := hc back (Nat.le_refl _) hlt
      have hr : rdI m ((cp : Int) - back) = .ok c := by
        have : (cp : Int) - back = ((cp - back : Nat) : Int) := by omega
        rw [this]; exact rdI_ok m _ c hcm
      simp only [utf8BackupLoop, hr, res_bind_ok, hc1, Bool.false_eq_true, if_false]
      exact ih (back + 1) (by omega) (by omega) (fun j hj hjk => hc j (by omega) hjk)
    · have : back = k := by omega
      subst this
      have hr : rdI m ((cp : Int) - back) = .ok b := by
        have : (cp : Int) - back = ((cp - back : Nat) : Int) := by omega
        rw [this]; exact rdI_ok m _ b hb
      simp only [utf8BackupLoop, hr, res_bind_ok, h1, if_true]
      split <;> rfl

/-- Whatever the bytes, every result lies in `[cp - n - back + 1, cp - 1]`, when all the reads are inside the buffer. -/
theorem backupLoop_range (m : List Byte) (cp n back : Nat) (hb : 1 ≤ back) (hlow : back + n ≤ cp + 1)
    (hm : cp ≤ m.length) :
    ∃ r : Nat, utf8BackupLoop m cp n back = .ok (r : Int) ∧ r < cp + (if cp = 0 then 1 else 0) ∧
      (cp < r + back + n ∨ r + 1 = cp) ∨ cp = 0 := by
  induction n generalizing back with
  | zero =>
    rcases Nat.eq_zero_or_pos cp with h | h
    · exact ⟨0, Or.inr h⟩
    · refine ⟨cp - 1, Or.inl ⟨?_, by split <;> omega, by omega⟩⟩
      simp only [utf8BackupLoop, Except.ok.injEq]; omega
  | succ n ih =>
    rcases Nat.eq_zero_or_pos cp with h | h
    · exact ⟨0, Or.inr h⟩
    · have hlt : cp - back < m.length := by omega
      have hr : rdI m ((cp : Int) - back) = .ok m[cp - back] := by
        have : (cp : Int) - back = ((cp - back : Nat) : Int) := by omega
        rw [this]; exact rdI_ok m _ _ (List.getElem?_eq_getElem hlt)
      simp only [utf8BackupLoop, hr, res_bind_ok]
      split
      · split
        · refine ⟨cp - back, Or.inl ⟨?_, by split <;> omega, by omega⟩⟩
          simp only [Except.ok.injEq]; omega
        · refine ⟨cp - 1, Or.inl ⟨?_, by split <;> omega, by omega⟩⟩
          simp only [Except.ok.injEq]; omega
      · obtain ⟨r, hr2⟩ := ih (back + 1) (by omega) (by omega)
        refine ⟨r, ?_⟩
        rcases hr2 with ⟨a, b, c⟩ | h0
        · exact Or.inl ⟨by exact_mod_cast a, b, by omega⟩
        · exact Or.inr h0

end Strpp
