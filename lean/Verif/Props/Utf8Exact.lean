import Verif.Proof.Utf8Seq
import Verif.Spec.Utf8Back
/-! Property C73: what the UTF-8 functions do on arbitrary bytes, exactly (include/char_encoding.h). -/
namespace Strpp
open Spec

/-! ### the length scan -/

theorem lenFall_short (m : List Byte) (p len k : Nat) (hm : m.length ≤ p + k) (hk : 0 < k) :
    utf8LenFall m p len (k + 1) = .error .ub := by
  cases k with
  | zero => omega
  | succ k =>
    have : rd m (p + (k + 1)) = .error .ub := by
      unfold rd; rw [List.getElem?_eq_none (by omega)]
    simp only [utf8LenFall]
    rw [this]; rfl

/-- C73. `UTF8Len(const UTF8*)` on any bytes whatever: it reads exactly as far as the first byte announces, so it is
outside the buffer exactly if the buffer is shorter than that, and otherwise the result is the number of bytes that
reading the character takes (1 for bytes that begin no complete character). -/
theorem C73_len_scan (m : List Byte) (p : Nat) (b : Byte) (hb : m[p]? = some b) (ch : UCS4) (n : Nat)
    (h : decode1 (m.drop p) = some (ch, n)) :
    utf8LenAt m p = if p + ((leadInfo b).map Prod.fst).getD 0 < m.length then .ok n else .error .ub := by
  have hp : p < m.length := by
    rcases Nat.lt_or_ge p m.length with h | h
    · exact h
    · rw [List.getElem?_eq_none h] at hb; cases hb
  have hcl := correctLen_leadInfo b
  cases hli : leadInfo b with
  | none =>
    rw [hli] at hcl
    rw [if_pos (by simpa using hp)]
    exact lenAt_decode1 m p b hb (by rw [hcl]; exact hp) ch n h
  | some kv =>
    obtain ⟨k, v⟩ := kv
    rw [hli] at hcl
    simp only at hcl
    simp only [Option.map_some, Option.getD_some]
    split
    · rename_i hlt
      exact lenAt_decode1 m p b hb (by rw [hcl]; simpa using hlt) ch n h
    · rename_i hge
      unfold utf8LenAt
      rw [rd_eq_ok.mpr hb, res_bind_ok, hcl]
      exact lenFall_short m p (k + 1) k (by omega) (by omega)

-- both outcomes occur
example : utf8LenAt [0xE2#8, 0x82#8, 0x00#8] 0 = .ok 1 ∧ utf8LenAt [0xE2#8, 0x00#8] 0 = .error .ub ∧
    decode1 ([0xE2#8, 0x00#8].drop 0) = some (0x800000E2#32, 1) := by decide

/-! ### backing up -/

theorem loop_none (m : List Byte) (cp : Nat) : ∀ (n back : Nat), back + n ≤ cp + 1 →
    (∀ j, back ≤ j → j < back + n → ∃ c, m[cp - j]? = some c ∧ utf8Is1st c = false) →
    utf8BackupLoop m cp n back = .ok ((cp : Int) - 1) := by
  intro n
  induction n with
  | zero => intro back _ _; rfl
  | succ n ih =>
    intro back hlow hc
    obtain ⟨c, h1, h2⟩ := hc back (by omega) (by omega)
    have e : (cp : Int) - back = ((cp - back : Nat) : Int) := by omega
    simp only [utf8BackupLoop]
    rw [e, rdI_ok m _ c h1, res_bind_ok, if_neg (by rw [h2]; decide)]
    exact ih (back + 1) (by omega) (fun j h3 h4 => hc j (by omega) (by omega))

theorem loop_under (m : List Byte) (cp : Nat) : ∀ (n back : Nat), back ≤ cp + 1 → cp + 1 < back + n →
    (∀ j, back ≤ j → j ≤ cp → ∃ c, m[cp - j]? = some c ∧ utf8Is1st c = false) →
    utf8BackupLoop m cp n back = .error .ub := by
  intro n
  induction n with
  | zero => intro back h1 h2 _; omega
  | succ n ih =>
    intro back h0 h1 hc
    simp only [utf8BackupLoop]
    rcases Nat.lt_or_ge cp back with hlt | hge
    · have : rdI m ((cp : Int) - back) = .error .ub := by
        unfold rdI; rw [if_pos (by omega)]
      rw [this]; rfl
    · obtain ⟨c, h3, h4⟩ := hc back (by omega) hge
      have e : (cp : Int) - back = ((cp - back : Nat) : Int) := by omega
      rw [e, rdI_ok m _ c h3, res_bind_ok, if_neg (by rw [h4]; decide)]
      exact ih (back + 1) (by omega) (by omega) (fun j h5 h6 => hc j (by omega) h6)

/-- the nearest byte before `cp`, at most `N` away, that is no continuation byte; or there is none -/
theorem nearest (m : List Byte) (cp : Nat) (hm : cp ≤ m.length) : ∀ N, N ≤ cp →
    (∃ k b, 1 ≤ k ∧ k ≤ N ∧ m[cp - k]? = some b ∧ utf8Is1st b = true ∧
      ∀ j, 1 ≤ j → j < k → ∃ c, m[cp - j]? = some c ∧ utf8Is1st c = false) ∨
    (∀ j, 1 ≤ j → j ≤ N → ∃ c, m[cp - j]? = some c ∧ utf8Is1st c = false) := by
  intro N
  induction N with
  | zero => intro _; right; intro j h1 h2; omega
  | succ N ih =>
    intro hN
    rcases ih (by omega) with ⟨k, b, h1, h2, h3, h4, h5⟩ | hall
    · exact Or.inl ⟨k, b, h1, by omega, h3, h4, h5⟩
    · have hlt : cp - (N + 1) < m.length := by omega
      by_cases hb : utf8Is1st m[cp - (N + 1)] = true
      · exact Or.inl ⟨N + 1, m[cp - (N + 1)], by omega, by omega, List.getElem?_eq_getElem hlt, hb,
          fun j h1 h2 => hall j h1 (by omega)⟩
      · right
        intro j h1 h2
        rcases Nat.lt_or_eq_of_le h2 with h | rfl
        · exact hall j h1 (by omega)
        · exact ⟨_, List.getElem?_eq_getElem hlt, by simpa using hb⟩

theorem begins_iff (m : List Byte) (cp k : Nat) (b : Byte) (h1 : 1 ≤ k) (h2 : k ≤ cp) (hb : m[cp - k]? = some b)
    (hf : utf8Is1st b = true) (hc : ∀ j, 1 ≤ j → j < k → ∃ c, m[cp - j]? = some c ∧ utf8Is1st c = false) (q : Nat) :
    Begins m q cp ↔ (q = cp - k ∧ k ≤ utf8CorrectLen b) := by
  have hcl := correctLen_leadInfo b
  have hcf : ∀ x : Byte, isCont x = true → utf8Is1st x = false := by
    intro x hx; rw [isCont_eq] at hx; simpa using hx
  have hlf : ∀ (x : Byte) k v, leadInfo x = some (k, v) → utf8Is1st x = true := by
    intro x k v hx
    have := correctLen_leadInfo x
    rw [hx] at this
    rw [is1st_iff]
    unfold leadInfo at hx
    have := x.isLt
    (repeat' split at hx) <;> simp only [Option.some.injEq, Prod.mk.injEq, reduceCtorEq] at hx <;> omega
  constructor
  · rintro ⟨hq, ⟨b', k', v', hb', hl', hk'⟩, hin⟩
    have hqk : q = cp - k := by
      rcases Nat.lt_trichotomy q (cp - k) with h | h | h
      · obtain ⟨c, hc1, hc2⟩ := hin (cp - k) h (by omega)
        rw [hb] at hc1; cases hc1
        rw [hcf _ hc2] at hf; cases hf
      · exact h
      · obtain ⟨c, hc1, hc2⟩ := hc (cp - q) (by omega) (by omega)
        have e : cp - (cp - q) = q := by omega
        rw [e, hb'] at hc1; cases hc1
        rw [hlf _ _ _ hl'] at hc2; cases hc2
    subst hqk
    rw [hb] at hb'; cases hb'
    rw [hl'] at hcl
    simp only at hcl
    exact ⟨rfl, by omega⟩
  · rintro ⟨rfl, hk⟩
    refine ⟨by omega, ?_, ?_⟩
    · cases hli : leadInfo b with
      | none => rw [hli] at hcl; simp only at hcl; omega
      | some kv =>
        obtain ⟨k', v'⟩ := kv
        rw [hli] at hcl; simp only at hcl
        exact ⟨b, k', v', hb, hli, by omega⟩
    · intro i h3 h4
      obtain ⟨c, hc1, hc2⟩ := hc (cp - i) (by omega) (by omega)
      have e : cp - (cp - i) = i := by omega
      rw [e] at hc1
      exact ⟨c, hc1, by rw [isCont_eq, hc2]; rfl⟩

theorem begins_near (m : List Byte) (q e : Nat) (h : Begins m q e) : e ≤ q + 6 := by
  obtain ⟨h1, ⟨b, k, v, -, hl, hk⟩, -⟩ := h
  have := leadInfo_bound b k v hl
  omega

theorem not_begins (m : List Byte) (cp N : Nat)
    (hall : ∀ j, 1 ≤ j → j ≤ N → ∃ c, m[cp - j]? = some c ∧ utf8Is1st c = false) (q : Nat) (hq : cp - N ≤ q) : ¬ Begins m q cp := by
  rintro ⟨h1, ⟨b, k, v, hb, hl, hk⟩, -⟩
  obtain ⟨c, hc1, hc2⟩ := hall (cp - q) (by omega) (by omega)
  have e : cp - (cp - q) = q := by omega
  rw [e, hb] at hc1; cases hc1
  have := b.isLt
  rw [is1st_false_iff] at hc2
  unfold leadInfo at hl
  (repeat' split at hl) <;> simp only [Option.some.injEq, Prod.mk.injEq, reduceCtorEq] at hl <;> omega

theorem backup_loop_exact (m : List Byte) (cp N : Nat) (hm : cp ≤ m.length) (hN : N ≤ cp) (hpos : 0 < cp) :
    (∀ q, cp - N ≤ q → Begins m q cp → utf8BackupLoop m cp N 1 = .ok (q : Int)) ∧
    ((∀ q, cp - N ≤ q → ¬ Begins m q cp) → utf8BackupLoop m cp N 1 = .ok ((cp - 1 : Nat) : Int)) := by
  have e1 : ((cp - 1 : Nat) : Int) = (cp : Int) - 1 := by omega
  rcases nearest m cp hm N hN with ⟨k, b, h1, h2, h3, h4, h5⟩ | hall
  · have hb := begins_iff m cp k b h1 (by omega) h3 h4 h5
    have hl := backupLoop_found m cp k b 1 N h1 (by omega) (by omega) h3 h4 h5
    rw [hl]
    constructor
    · intro q hq hB
      obtain ⟨rfl, hle⟩ := (hb q).1 hB
      rw [if_pos hle]
      congr 1; omega
    · intro hno
      have := hno (cp - k) (by omega)
      rw [hb] at this
      rw [if_neg (by intro hle; exact this ⟨rfl, hle⟩), e1]
  · constructor
    · intro q hq hB
      exact absurd hB (not_begins m cp N hall q hq)
    · intro _
      rw [loop_none m cp N 1 (by omega) (fun j h1 h2 => hall j h1 (by omega)), e1]

/-- C73. `UTF8Backup(cp, limit)` on any bytes whatever, with a limit before the place to back up from: it goes to the
place, not before the limit, from which on the bytes begin a character (there is at most one); if there is none, to the
byte before. -/
theorem C73_backup (m : List Byte) (cp l : Nat) (hl : l < cp) (hm : cp ≤ m.length) :
    (∀ q, l ≤ q → Begins m q cp → utf8Backup m cp (some (l : Int)) = .ok (some (q : Int))) ∧
    ((∀ q, l ≤ q → ¬ Begins m q cp) → utf8Backup m cp (some (l : Int)) = .ok (some ((cp - 1 : Nat) : Int))) := by
  unfold utf8Backup
  simp only
  split
  · rename_i h6
    have e : ((cp : Int) - ((cp : Int) - 6)).toNat = 6 := by omega
    obtain ⟨k1, k2⟩ := backup_loop_exact m cp 6 hm (by omega) (by omega)
    rw [if_neg (by omega), e]
    constructor
    · intro q hq hB
      have := begins_near m q cp hB
      rw [k1 q (by omega) hB]; rfl
    · intro hno
      rw [k2 (fun q hq => hno q (by omega))]; rfl
  · have e : ((cp : Int) - (l : Int)).toNat = cp - l := by omega
    obtain ⟨k1, k2⟩ := backup_loop_exact m cp (cp - l) hm (by omega) (by omega)
    rw [if_neg (by omega), e]
    constructor
    · intro q hq hB
      rw [k1 q (by omega) hB]; rfl
    · intro hno
      rw [k2 (fun q hq => hno q (by omega))]; rfl

/-- C73. `UTF8Backup(cp)` without a limit: the same, but it reads before the buffer exactly if there are fewer than six
bytes before `cp` and all of them are continuation bytes (or there are none at all). -/
theorem C73_backup_unlimited (m : List Byte) (cp : Nat) (hm : cp ≤ m.length) :
    (∀ q, Begins m q cp → utf8Backup m cp none = .ok (some (q : Int))) ∧
    ((∀ q, ¬ Begins m q cp) → (6 ≤ cp ∨ ∃ i c, i < cp ∧ m[i]? = some c ∧ isCont c = false) →
      utf8Backup m cp none = .ok (some ((cp - 1 : Nat) : Int))) ∧
    (cp < 6 → (∀ (i : Nat) c, i < cp → m[i]? = some c → isCont c = true) → utf8Backup m cp none = .error .ub) := by
  have e : ((cp : Int) - ((cp : Int) - 6)).toNat = 6 := by omega
  unfold utf8Backup
  simp only
  rw [if_neg (by omega), e]
  rcases Nat.lt_or_ge cp 6 with hlt | hge
  · rcases nearest m cp hm cp (Nat.le_refl _) with ⟨k, b, h1, h2, h3, h4, h5⟩ | hall
    · have hb := begins_iff m cp k b h1 h2 h3 h4 h5
      rw [backupLoop_found m cp k b 1 6 h1 h2 (by omega) h3 h4 h5]
      refine ⟨?_, ?_, ?_⟩
      · intro q hB
        obtain ⟨rfl, hle⟩ := (hb q).1 hB
        rw [if_pos hle]
        show Except.ok _ = _
        congr 2; omega
      · intro hno _
        have := hno (cp - k)
        rw [hb] at this
        rw [if_neg (by intro hle; exact this ⟨rfl, hle⟩)]
        show Except.ok _ = _
        congr 2; omega
      · intro _ hall
        have := hall (cp - k) b (by omega) h3
        rw [isCont_eq, h4] at this; cases this
    · rw [loop_under m cp 6 1 (by omega) (by omega) hall]
      refine ⟨?_, ?_, fun _ _ => rfl⟩
      · intro q hB
        exact absurd hB (not_begins m cp cp hall q (by omega))
      · rintro _ (h | ⟨i, c, hi, hc, hcont⟩)
        · omega
        · obtain ⟨c', hc1, hc2⟩ := hall (cp - i) (by omega) (by omega)
          have e2 : cp - (cp - i) = i := by omega
          rw [e2, hc] at hc1; cases hc1
          rw [isCont_eq, hc2] at hcont; cases hcont
  · obtain ⟨k1, k2⟩ := backup_loop_exact m cp 6 hm hge (by omega)
    refine ⟨?_, ?_, by omega⟩
    · intro q hB
      have := begins_near m q cp hB
      rw [k1 q (by omega) hB]; rfl
    · intro hno _
      rw [k2 (fun q _ => hno q)]; rfl

/-- C73. So backing up undoes a forward step, on any bytes, exactly unless the step was over one continuation byte that
begins nothing but continues a character begun (and not completed) before. -/
theorem C73_backup_undoes (m : List Byte) (p l n : Nat) (ch : UCS4) (hl : l ≤ p) (h : decode1 (m.drop p) = some (ch, n)) :
    (utf8Backup m ((p + n : Nat) : Int) (some (l : Int)) = .ok (some (p : Int)) ↔ ¬ ∃ q, l ≤ q ∧ q < p ∧ Begins m q (p + 1)) := by
  have hpos := decode1_pos _ _ _ h
  simp only [List.length_drop] at hpos
  have hp : p < m.length := by omega
  obtain ⟨hb1, hb2⟩ := C73_backup m (p + n) l (by omega) (by omega)
  have hd : m.drop p = m[p] :: m.drop (p + 1) := List.drop_eq_getElem_cons hp
  have hget : m[p]? = some m[p] := List.getElem?_eq_getElem hp
  rw [hd] at h
  simp only [decode1] at h
  have huniq : ∀ q, Begins m q (p + 1) → q < p → isCont m[p] = true := by
    rintro q ⟨-, -, hin⟩ hq
    obtain ⟨c, hc1, hc2⟩ := hin p hq (by omega)
    rw [hget] at hc1; cases hc1; exact hc2
  cases hli : leadInfo m[p] with
  | none =>
    rw [hli] at h
    simp only [Option.some.injEq, Prod.mk.injEq] at h
    obtain ⟨-, rfl⟩ := h
    constructor
    · rintro hback ⟨q, h1, h2, h3⟩
      rw [hb1 q h1 h3] at hback
      simp only [Except.ok.injEq, Option.some.injEq] at hback
      omega
    · intro hno
      rw [hb2]
      · simp
      · intro q hq hB
        have hne : q ≠ p := by
          rintro rfl
          obtain ⟨-, ⟨b, k, v, hb, hl', -⟩, -⟩ := hB
          rw [hget] at hb; cases hb
          rw [hli] at hl'; cases hl'
        exact hno ⟨q, hq, by have := hB.1; omega, hB⟩
  | some kv =>
    obtain ⟨k, v⟩ := kv
    have hnc : isCont m[p] = false := by
      unfold isCont
      unfold leadInfo at hli
      have := m[p].isLt
      (repeat' split at hli) <;> simp only [Option.some.injEq, Prod.mk.injEq, reduceCtorEq] at hli <;> simp <;> omega
    have hright : ¬ ∃ q, l ≤ q ∧ q < p ∧ Begins m q (p + 1) := by
      rintro ⟨q, -, h2, h3⟩
      rw [huniq q h3 h2] at hnc; cases hnc
    refine ⟨fun _ => hright, fun _ => ?_⟩
    rw [hli] at h
    simp only at h
    refine hb1 p hl ?_
    split at h
    · rename_i hc
      simp only [Option.some.injEq, Prod.mk.injEq] at h
      obtain ⟨-, rfl⟩ := h
      refine ⟨by omega, ⟨m[p], k, v, hget, hli, by omega⟩, ?_⟩
      intro i h1 h2
      have hlt : i < m.length := by omega
      refine ⟨m[i], List.getElem?_eq_getElem hlt, ?_⟩
      have := List.all_eq_true.1 hc.2
      refine this _ (List.mem_of_getElem? (i := i - (p + 1)) ?_)
      rw [List.getElem?_take_of_lt (by omega), List.getElem?_drop]
      have e : p + 1 + (i - (p + 1)) = i := by omega
      rw [e, List.getElem?_eq_getElem hlt]
    · simp only [Option.some.injEq, Prod.mk.injEq] at h
      obtain ⟨-, rfl⟩ := h
      exact ⟨by omega, ⟨m[p], k, v, hget, hli, by omega⟩, fun i h1 h2 => by omega⟩

-- the step over 0x82 in E2 82 41 is not undone; the step over a stray 0x82 after 'A' is
example : Begins [0xE2#8, 0x82#8, 0x41#8] 0 2 :=
  ⟨by decide, ⟨0xE2#8, 2, 2, rfl, by decide, by decide⟩, fun i h1 h2 => by
    have : i = 1 := by omega
    subst this; exact ⟨0x82#8, rfl, by decide⟩⟩
example : utf8Backup [0x41#8, 0x82#8, 0x41#8] ((1 + 1 : Nat) : Int) (some ((0 : Nat) : Int)) = .ok (some ((1 : Nat) : Int)) := by decide

/-! ### decoding and encoding again -/

theorem lenCh_width (ch : UCS4) : utf8LenCh ch = width ch := by
  have h := illegal_iff ch
  rw [lenCh_eq]
  unfold width
  by_cases hi : ucs4IsIllegal ch = true
  · rw [if_pos hi, if_pos (h.1 hi)]
  · rw [if_neg hi, if_neg (fun hc => hi (h.2 hc))]

theorem width_le (bs : List Byte) (ch : UCS4) (n : Nat) (h : decode1 bs = some (ch, n)) : width ch ≤ n := by
  have hill : ∀ b : Byte, width (BitVec.ofNat 32 (0x80000000 + b.toNat)) = 1 := by
    intro b
    have := b.isLt
    unfold width
    rw [if_pos]
    rw [BitVec.toNat_ofNat, Nat.mod_eq_of_lt (by omega)]
    omega
  cases bs with
  | nil => cases h
  | cons b rest =>
    simp only [decode1] at h
    split at h
    · simp only [Option.some.injEq, Prod.mk.injEq] at h
      obtain ⟨rfl, rfl⟩ := h
      rw [hill]; exact Nat.le_refl _
    · rename_i k v hli
      split at h
      · rename_i hc
        simp only [Option.some.injEq, Prod.mk.injEq] at h
        obtain ⟨rfl, rfl⟩ := h
        have hb1 := (contValue_bound (rest.take k) v (List.all_eq_true.1 hc.2)).2
        rw [hc.1] at hb1
        have hb2 := (leadInfo_bound b k v hli).2.2
        have hv : (BitVec.ofNat 32 (contValue v (rest.take k))).toNat = contValue v (rest.take k) := by
          rw [BitVec.toNat_ofNat, Nat.mod_eq_of_lt (by omega)]
        have hlt := b.isLt
        unfold width
        rw [hv]
        generalize contValue v (rest.take k) = x at *
        unfold leadInfo at hli
        (repeat' split at hli) <;> simp only [Option.some.injEq, Prod.mk.injEq, reduceCtorEq] at hli <;>
          obtain ⟨rfl, rfl⟩ := hli <;> (repeat' split) <;> omega
      · simp only [Option.some.injEq, Prod.mk.injEq] at h
        obtain ⟨rfl, rfl⟩ := h
        rw [hill]; exact Nat.le_refl _

/-- C73. Every sequence of bytes can be cut into characters in exactly one way, and the characters are those that
decoding gives. -/
theorem C73_cut (bs : List Byte) : ∃ cs, Cut bs cs ∧ decodeAll bs = cs.map Prod.fst ∧ ∀ ds, Cut bs ds → ds = cs := by
  have key : ∀ (k : Nat) (bs : List Byte), bs.length ≤ k →
      ∃ cs, Cut bs cs ∧ decodeAll bs = cs.map Prod.fst ∧ ∀ ds, Cut bs ds → ds = cs := by
    intro k
    induction k with
    | zero =>
      intro bs h
      have : bs = [] := List.length_eq_zero_iff.1 (by omega)
      subst this
      refine ⟨[], .nil, by rw [decodeAll_nil]; rfl, ?_⟩
      intro ds h
      cases h with
      | nil => rfl
      | cons h _ => cases h
    | succ k ih =>
      intro bs h
      by_cases hn : bs = []
      · subst hn
        exact ih [] (by simp)
      · obtain ⟨ch, n, hd⟩ := decode1_some _ hn
        have hpos := decode1_pos _ _ _ hd
        obtain ⟨cs, h1, h2, h3⟩ := ih (bs.drop n) (by rw [List.length_drop]; omega)
        refine ⟨(ch, n) :: cs, .cons hd h1, by rw [decodeAll_step _ _ _ hd, h2]; rfl, ?_⟩
        intro ds h
        cases h with
        | nil => exact absurd rfl hn
        | cons h h' =>
          rw [hd] at h
          simp only [Option.some.injEq, Prod.mk.injEq] at h
          obtain ⟨rfl, rfl⟩ := h
          rw [h3 _ h']
  exact key bs.length bs (Nat.le_refl _)

theorem reencode_length (bs : List Byte) (cs : List (UCS4 × Nat)) (h : Cut bs cs) :
    ((cs.map Prod.fst).flatMap utf8Put).length ≤ bs.length ∧
    (((cs.map Prod.fst).flatMap utf8Put).length = bs.length → ∀ x ∈ cs, width x.1 = x.2) := by
  induction h with
  | nil => simp
  | @cons bs ch n cs hd _ ih =>
    have hw := width_le bs ch n hd
    have hp := decode1_pos _ _ _ hd
    have hl := put_length ch
    rw [lenCh_width] at hl
    obtain ⟨i1, i2⟩ := ih
    rw [List.length_drop] at i1 i2
    simp only [List.map_cons, List.flatMap_cons, List.length_append, List.mem_cons]
    refine ⟨by omega, ?_⟩
    rintro he x (rfl | hx)
    · show width ch = n
      omega
    · exact i2 (by omega) x hx

/-- C73. Decoding any bytes and encoding the characters again never gives more bytes, and gives the same bytes exactly
if each character was written in the fewest bytes it can be. -/
theorem C73_reencode (bs : List Byte) (cs : List (UCS4 × Nat)) (h : Cut bs cs) :
    ((cs.map Prod.fst).flatMap utf8Put).length ≤ bs.length ∧
    ((cs.map Prod.fst).flatMap utf8Put = bs ↔ ∀ x ∈ cs, width x.1 = x.2) := by
  refine ⟨(reencode_length bs cs h).1, fun he => (reencode_length bs cs h).2 (by rw [he]), ?_⟩
  induction h with
  | nil => simp
  | @cons bs ch n cs hd _ ih =>
    intro hall
    have hw := hall (ch, n) (by simp)
    rw [List.map_cons, List.flatMap_cons, put_decode1 bs ch n hd (by rw [lenCh_width]; exact hw),
      ih (fun x hx => hall x (by simp [hx])), List.take_append_drop]

-- an illegal byte and a two-byte character: kept; an over-long form is not
example : Cut [0xFF#8, 0xC3#8, 0xA9#8] [(0x800000FF#32, 1), (0xE9#32, 2)] ∧ width 0x800000FF#32 = 1 ∧ width 0xE9#32 = 2 ∧
    Cut [0xC0#8, 0x80#8] [(0#32, 2)] ∧ width 0#32 = 1 :=
  ⟨.cons (by decide) (.cons (by decide) .nil), by decide, by decide, .cons (by decide) .nil, by decide⟩

end Strpp
