import Verif.Proof.Utf8Seq
/-! Properties C01-C07: UTF-8 (include/char_encoding.h). -/
namespace Strpp
open Spec

/-- C01. Whatever precedes and follows in memory, reading back a written character returns it, with the pointer just
after the written bytes. -/
theorem C01_utf8_round_trip (pre rest : List Byte) (ch : UCS4) (h : ¬ Reserved ch) :
    utf8Get (pre ++ utf8Put ch ++ rest) pre.length = .ok (ch, pre.length + (utf8Put ch).length) :=
  get_put pre ch rest (not_reserved ch h)

example : ¬ Reserved 0x20AC#32 := by decide
example : utf8Put 0x20AC#32 = [0xE2#8, 0x82#8, 0xAC#8] := by decide
example : ¬ Reserved 0xFFFFFFFE#32 := by decide

/-- C01, on the excluded values: the guard is needed. The stand-in for the ASCII byte 'A' reads back as 'A'. -/
theorem C01_reserved_not_round_trip :
    utf8Get (utf8Put 0x80000041#32 ++ [0#8]) 0 = .ok (0x41#32, 1) := by decide

/-- C02. `UTF8Len(ch)` is the number of bytes `UTF8Put` writes, 1 to 6, for every value. -/
theorem C02_utf8_len (ch : UCS4) : (utf8Put ch).length = utf8LenCh ch ∧ 1 ≤ utf8LenCh ch ∧ utf8LenCh ch ≤ 6 := by
  refine ⟨put_length ch, ?_⟩
  rw [lenCh_eq]; (repeat' split) <;> omega

/-- C02. `UTF8Len(ch)` is the smallest length whose payload can hold the value (7, 11, 16, 21, 26 or 32 bits). -/
theorem C02_utf8_len_value (ch : UCS4) (h : ¬ Reserved ch) :
    utf8LenCh ch = if ch.toNat < 2 ^ 7 then 1 else if ch.toNat < 2 ^ 11 then 2 else if ch.toNat < 2 ^ 16 then 3
      else if ch.toNat < 2 ^ 21 then 4 else if ch.toNat < 2 ^ 26 then 5 else 6 := by
  rw [lenCh_eq, not_reserved ch h]; simp

/-- C02. The bytes written are one complete character of the UTF-8 specification: a lead byte announcing exactly the
continuation bytes that follow, with the value of the character. -/
theorem C02_utf8_shape (ch : UCS4) (h : ¬ Reserved ch) :
    (∀ rest, decode1 (utf8Put ch ++ rest) = some (ch, utf8LenCh ch)) ∧
    ∃ b cs v, utf8Put ch = b :: cs ∧ leadInfo b = some (cs.length, v) ∧ (∀ c ∈ cs, isCont c = true) := by
  refine ⟨fun rest => by rw [decode1_put ch rest h, put_length], ?_⟩
  obtain ⟨b0, cs, hp, hl, hc, -⟩ := put_shape ch (not_reserved ch h)
  have hcl := correctLen_leadInfo b0
  cases hli : leadInfo b0 with
  | none => rw [hli] at hcl; simp only at hcl; omega
  | some nv =>
    obtain ⟨k, v⟩ := nv
    rw [hli] at hcl
    simp only at hcl
    refine ⟨b0, cs, v, hp, ?_, fun c h' => by rw [isCont_eq, hc c h']; rfl⟩
    have : k = cs.length := by omega
    rw [hli, this]

example : utf8Put 0x10FFFF#32 = [0xF4#8, 0x8F#8, 0xBF#8, 0xBF#8] := by decide

/-- C03. On any buffer with a NUL at `z`, reading at any `p ≤ z`: the result is the character the specification gives
for the bytes from `p`; the same is obtained when everything after the NUL is cut off (so nothing after it is read: a
read past the end of a buffer is `Fault.ub`); the pointer advances 1 to 6 bytes and not past the NUL unless it was on
it. -/
theorem C03_utf8_get_safe (m : List Byte) (p z : Nat) (hp : p ≤ z) (hz : m[z]? = some 0#8) :
    ∃ ch n, decode1 (m.drop p) = some (ch, n) ∧ utf8Get m p = .ok (ch, p + n) ∧
      utf8Get (m.take (z + 1)) p = .ok (ch, p + n) ∧
      1 ≤ n ∧ n ≤ 6 ∧ p + n ≤ z + 1 ∧ (p < z → p + n ≤ z) := by
  have hz' : (m.take (z + 1))[z]? = some 0#8 := by rw [List.getElem?_take_of_lt (by omega), hz]
  rcases Nat.lt_or_eq_of_le hp with hlt | rfl
  · obtain ⟨ch, n, hd, hg, h1, h6, hle⟩ := get_decode1 m p z 0#8 hlt hz (by decide)
    obtain ⟨ch', n', hd', hg', h1', h6', hle'⟩ := get_decode1 (m.take (z + 1)) p z 0#8 hlt hz' (by decide)
    have : decode1 ((m.take (z + 1)).drop p) = decode1 (m.drop p) := by
      -- both are decoded by the same bytes: compare through the terminator
      have hx : (m.take (z + 1)).drop p = (m.drop p).take (z + 1 - p) := by rw [List.drop_take]
      rw [hx]
      have hlen : z < m.length := by
        rcases Nat.lt_or_ge z m.length with h | h
        · exact h
        · rw [List.getElem?_eq_none h] at hz; cases hz
      have hdz : (m.drop p)[z - p]? = some 0#8 := by rw [List.getElem?_drop, ← hz]; congr 1; omega
      obtain ⟨b, rest, hbr⟩ : ∃ b rest, m.drop p = b :: rest := by
        cases h : m.drop p with
        | nil => rw [h] at hdz; simp at hdz
        | cons b rest => exact ⟨b, rest, rfl⟩
      rw [hbr] at hdz ⊢
      have e1 : z + 1 - p = (z - p) + 1 := by omega
      rw [e1, List.take_succ_cons]
      have e2 : (b :: rest)[z - p]? = rest[z - p - 1]? := by
        obtain ⟨k, hk⟩ : ∃ k, z - p = k + 1 := ⟨z - p - 1, by omega⟩
        rw [hk]; simp
      rw [e2] at hdz
      simp only [decode1]
      cases hli : leadInfo b with
      | none => rfl
      | some nv =>
        obtain ⟨k, v⟩ := nv
        simp only
        rw [List.take_take]
        rcases Nat.lt_or_ge k (z - p) with hk | hk
        · rw [Nat.min_eq_left (by omega)]
        · have h0 : ¬ ((rest.take k).length = k ∧ (rest.take k).all isCont = true) := by
            rintro ⟨-, ha⟩
            rw [List.all_eq_true] at ha
            have := ha 0#8 (List.mem_of_getElem? (i := z - p - 1) (by rw [List.getElem?_take_of_lt (by omega), hdz]))
            revert this; decide
          have h0' : ¬ ((rest.take (min k (z - p))).length = k ∧ (rest.take (min k (z - p))).all isCont = true) := by
            rintro ⟨-, ha⟩
            rw [List.all_eq_true] at ha
            have := ha 0#8 (List.mem_of_getElem? (i := z - p - 1) (by rw [List.getElem?_take_of_lt (by omega), hdz]))
            revert this; decide
          rw [if_neg h0, if_neg h0']
    rw [this, hd] at hd'
    simp only [Option.some.injEq, Prod.mk.injEq] at hd'
    obtain ⟨rfl, rfl⟩ := hd'
    exact ⟨ch, n, hd, hg, hg', h1, h6, by omega, fun _ => hle⟩
  · obtain ⟨hd, hg⟩ := get_ascii m p 0#8 hz (by decide)
    obtain ⟨-, hg'⟩ := get_ascii (m.take (p + 1)) p 0#8 hz' (by decide)
    exact ⟨_, 1, hd, hg, hg', by omega, by omega, by omega, by omega⟩

-- a truncated three-byte character before the terminator: the lead byte comes back as an illegal-byte stand-in
example : utf8Get [0xE2#8, 0x82#8, 0x00#8] 0 = .ok (0x800000E2#32, 1) := by decide

/-- C04 (partial). When the buffer extends as far as the lead byte announces, `UTF8Len(const UTF8*)` is the number of
bytes the specification (and so `UTF8Get`, C03) takes. Missing: memory safety at a malformed tail, which is false, see
`C04_refuted_overread`. -/
theorem C04_len_scan_partial (m : List Byte) (p : Nat) (b : Byte) (hb : m[p]? = some b)
    (hm : ∀ k v, leadInfo b = some (k, v) → p + k < m.length)
    (ch : UCS4) (n : Nat) (h : decode1 (m.drop p) = some (ch, n)) : utf8LenAt m p = .ok n := by
  have hcl := correctLen_leadInfo b
  have hp : p < m.length := by
    rcases Nat.lt_or_ge p m.length with h | h
    · exact h
    · rw [List.getElem?_eq_none h] at hb; cases hb
  refine lenAt_decode1 m p b hb ?_ ch n h
  cases hli : leadInfo b with
  | none => rw [hli] at hcl; simp only at hcl; omega
  | some nv =>
    obtain ⟨k, v⟩ := nv
    rw [hli] at hcl
    simp only at hcl
    have := hm k v hli
    omega

/-- C04 on well-formed text: no hypothesis on what follows. -/
theorem C04_len_scan_wellformed (pre : List Byte) (ch : UCS4) (rest : List Byte) (h : ¬ Reserved ch) :
    utf8LenAt (pre ++ utf8Put ch ++ rest) pre.length = .ok (utf8LenCh ch) := by
  obtain ⟨hd, b, cs, v, hp, hli, -⟩ := C02_utf8_shape ch h
  refine C04_len_scan_partial _ _ b ?_ ?_ ch _ ?_
  · rw [hp]; simp
  · intro k v' hkv
    rw [hli] at hkv
    simp only [Option.some.injEq, Prod.mk.injEq] at hkv
    rw [hp]; simp; omega
  · rw [List.append_assoc, List.drop_left]; exact hd rest

/-- C04 is false at full strength: on the NUL-terminated buffer FC 00 the scan reads five bytes beyond the lead, past
the terminator (undefined behaviour), although `UTF8Get` is fine there. -/
theorem C04_refuted_overread :
    utf8LenAt [0xFC#8, 0x00#8] 0 = .error .ub ∧ utf8Get [0xFC#8, 0x00#8] 0 = .ok (0x800000FC#32, 1) := by
  decide

/-- C05. Decoding what was written for a sequence of characters gives the sequence. -/
theorem C05_sequence_round_trip (cs : List UCS4) (h : ∀ c ∈ cs, ¬ Reserved c) :
    decodeAll (cs.flatMap utf8Put) = cs := by
  have := decodeAll_encodeAll cs h []
  simpa [encodeAll, decodeAll_nil] using this

/-- C05. So different sequences have different bytes. -/
theorem C05_injective (a b : List UCS4) (ha : ∀ c ∈ a, ¬ Reserved c) (hb : ∀ c ∈ b, ¬ Reserved c)
    (h : a.flatMap utf8Put = b.flatMap utf8Put) : a = b := by
  rw [← C05_sequence_round_trip a ha, h, C05_sequence_round_trip b hb]

/-- C05. Text may be cut between characters: decoding distributes over concatenation after encoded characters. -/
theorem C05_append (cs : List UCS4) (h : ∀ c ∈ cs, ¬ Reserved c) (rest : List Byte) :
    decodeAll (cs.flatMap utf8Put ++ rest) = cs ++ decodeAll rest := decodeAll_encodeAll cs h rest

example : ∀ c ∈ [0x41#32, 0xE9#32, 0x1F600#32], ¬ Reserved c := by
  intro c hc
  simp only [List.mem_cons, List.not_mem_nil, or_false] at hc
  rcases hc with rfl | rfl | rfl <;> decide

/-- C06 (partial: complete characters). Wherever a complete character (lead byte with all the continuation bytes it
announces) ends, in any buffer whatever surrounds it, `UTF8Backup` returns its first byte; with no limit, or any limit
not after it. Missing: steps over illegal single bytes, where the claim is false, see `C06_refuted_malformed`. -/
theorem C06_backup_partial (m : List Byte) (p k v : Nat) (b : Byte) (hb : m[p]? = some b)
    (hli : leadInfo b = some (k, v))
    (hc : ∀ i, i < k → ∃ c, m[p + 1 + i]? = some c ∧ isCont c = true)
    (limit : Option Int) (hlim : ∀ l, limit = some l → l ≤ p) :
    utf8Backup m ((p + (k + 1) : Nat) : Int) limit = .ok (some (p : Int)) := by
  have hbd := leadInfo_bound b k v hli
  have hcl := correctLen_leadInfo b
  rw [hli] at hcl
  simp only at hcl
  have h1 : utf8Is1st b = true := by
    rw [is1st_iff]
    unfold leadInfo at hli
    (repeat' split at hli) <;> simp only [Option.some.injEq, Prod.mk.injEq, reduceCtorEq] at hli <;> omega
  have loop : ∀ n, k < n → utf8BackupLoop m ((p + (k + 1) : Nat) : Int) n 1 = .ok (p : Int) := by
    intro n hn
    rw [backupLoop_found m (p + (k + 1)) (k + 1) b 1 n (by omega) (by omega) (by omega)]
    · rw [if_pos (by omega)]
      simp only [Except.ok.injEq]; omega
    · have : p + (k + 1) - (k + 1) = p := by omega
      rw [this]; exact hb
    · exact h1
    · intro j hj hjk
      obtain ⟨c, hcm, hcc⟩ := hc (k - j) (by omega)
      refine ⟨c, ?_, by rw [isCont_eq] at hcc; simpa using hcc⟩
      rw [← hcm]; congr 1; omega
  have goal : ∀ lim : Int, lim ≤ p → p + (k + 1) - lim ≤ 6 →
      (if lim ≥ ((p + (k + 1) : Nat) : Int) then (.ok none : Res (Option Int)) else do
        let r ← utf8BackupLoop m ((p + (k + 1) : Nat) : Int) (((p + (k + 1) : Nat) : Int) - lim).toNat 1
        .ok (some r)) = .ok (some (p : Int)) := by
    intro lim h1 h2
    rw [if_neg (by omega), loop _ (by omega)]
    rfl
  unfold utf8Backup
  cases limit with
  | none => simp only; exact goal _ (by omega) (by omega)
  | some l =>
    have := hlim l rfl
    simp only
    split
    · exact goal _ (by omega) (by omega)
    · exact goal _ (by omega) (by omega)

/-- C06 on text written by `UTF8Put`. -/
theorem C06_backup_wellformed (pre rest : List Byte) (ch : UCS4) (h : ¬ Reserved ch) :
    utf8Backup (pre ++ utf8Put ch ++ rest) ((pre.length + (utf8Put ch).length : Nat) : Int)
      = .ok (some (pre.length : Int)) := by
  obtain ⟨-, b, cs, v, hp, hli, hc⟩ := C02_utf8_shape ch h
  rw [hp]
  refine C06_backup_partial _ pre.length cs.length v b ?_ hli ?_ none (by intro l h; cases h)
  · simp
  · intro i hi
    refine ⟨cs[i], ?_, hc _ (List.getElem_mem hi)⟩
    rw [List.append_assoc, List.getElem?_append_right (by omega)]
    have : pre.length + 1 + i - pre.length = i + 1 := by omega
    rw [this]
    simp [List.getElem?_append_left hi]

/-- C06: whatever the bytes, with a limit inside the buffer the result is inside `[max(limit, cp-6), cp)`, with no
read outside the buffer; and at the limit it returns null. -/
theorem C06_backup_limited (m : List Byte) (cp l : Nat) (hm : cp ≤ m.length) :
    (cp ≤ l → utf8Backup m cp (some l) = .ok none) ∧
    (l < cp → ∃ r : Nat, utf8Backup m cp (some l) = .ok (some (r : Int)) ∧ l ≤ r ∧ r < cp ∧ cp ≤ r + 6) := by
  constructor
  · intro h
    unfold utf8Backup
    simp only
    rw [if_neg (show ¬ ((cp : Int) - l > 6) by omega), if_pos (by omega)]
  · intro h
    unfold utf8Backup
    simp only
    have key : ∀ lim : Nat, l ≤ lim → lim < cp → cp ≤ lim + 6 →
      ∃ r : Nat, (if (lim : Int) ≥ (cp : Int) then (.ok none : Res (Option Int)) else do
        let r ← utf8BackupLoop m (cp : Int) ((cp : Int) - lim).toNat 1
        .ok (some r)) = .ok (some (r : Int)) ∧ l ≤ r ∧ r < cp ∧ cp ≤ r + 6 := by
      intro lim h1 h2 h3
      obtain ⟨r, hr⟩ := backupLoop_range m cp (cp - lim) 1 (by omega) (by omega) hm
      rcases hr with ⟨ha, hb, hc⟩ | h0
      · refine ⟨r, ?_, ?_, ?_, ?_⟩
        · rw [if_neg (by omega)]
          have : ((cp : Int) - lim).toNat = cp - lim := by omega
          rw [this, ha]; rfl
        · omega
        · rw [if_neg (by omega)] at hb; omega
        · omega
      · omega
    split
    · have := key (cp - 6) (by omega) (by omega) (by omega)
      have e : ((cp - 6 : Nat) : Int) = (cp : Int) - 6 := by omega
      rwa [e] at this
    · exact key l (by omega) h (by omega)

example : utf8Backup [0x41#8, 0xE2#8, 0x82#8, 0xAC#8] 4 = .ok (some 1) := by decide

/-- C06 is false on malformed text: forward, the bytes E2 82 41 are three characters at 0, 1 and 2, but backing up
from 2 skips the character at 1; and with no limit it can read before the string. -/
theorem C06_refuted_malformed :
    utf8Get [0xE2#8, 0x82#8, 0x41#8, 0#8] 0 = .ok (0x800000E2#32, 1) ∧
    utf8Get [0xE2#8, 0x82#8, 0x41#8, 0#8] 1 = .ok (0x80000082#32, 2) ∧
    utf8Backup [0xE2#8, 0x82#8, 0x41#8, 0#8] 2 (some 0) = .ok (some 0) ∧
    utf8Backup [0x82#8, 0x41#8, 0#8] 1 = .error .ub := by decide

/-- C07 (partial). Decoding any bytes and encoding again gives the same bytes, provided that each character decoded was
written in as few bytes as it needs (`UTF8Len`), i.e. no over-long form and no six-byte form of a reserved value.
Illegal bytes are allowed. Missing: those forms, for which it is false, see `C07_refuted_overlong`. -/
theorem C07_reencode_partial (bs : List Byte)
    (h : ∀ p ch n, decode1 (bs.drop p) = some (ch, n) → utf8LenCh ch = n) :
    (decodeAll bs).flatMap utf8Put = bs := by
  have key : ∀ k p, bs.length - p ≤ k → (decodeAll (bs.drop p)).flatMap utf8Put = bs.drop p := by
    intro k
    induction k with
    | zero =>
      intro p hp
      have : bs.drop p = [] := List.drop_eq_nil_of_le (by omega)
      rw [this, decodeAll_nil]; rfl
    | succ k ih =>
      intro p hp
      by_cases hn : bs.drop p = []
      · rw [hn, decodeAll_nil]; rfl
      · obtain ⟨ch, n, hd⟩ := decode1_some _ hn
        have hpos := decode1_pos _ _ _ hd
        rw [decodeAll_step _ _ _ hd, List.flatMap_cons, put_decode1 _ _ _ hd (h p ch n hd), List.drop_drop,
          ih (p + n) (by simp only [List.length_drop] at hpos; omega), ← List.drop_drop, List.take_append_drop]
  simpa using key bs.length 0 (by omega)

/-- the hypothesis of C07 is met by e.g. a lone illegal byte followed by a two-byte character -/
example : ∀ p ch n, decode1 ([0xFF#8, 0xC3#8, 0xA9#8].drop p) = some (ch, n) → utf8LenCh ch = n := by
  intro p ch n
  match p with
  | 0 => intro h; have e : decode1 ([0xFF#8, 0xC3#8, 0xA9#8].drop 0) = some (0x800000FF#32, 1) := by decide
         rw [e] at h; cases h; decide
  | 1 => intro h; have e : decode1 ([0xFF#8, 0xC3#8, 0xA9#8].drop 1) = some (0xE9#32, 2) := by decide
         rw [e] at h; cases h; decide
  | 2 => intro h; have e : decode1 ([0xFF#8, 0xC3#8, 0xA9#8].drop 2) = some (0x800000A9#32, 1) := by decide
         rw [e] at h; cases h; decide
  | p + 3 => intro h; simp [decode1] at h

/-- C07 is false at full strength: the over-long C0 80 is decoded as NUL and comes back as one byte. -/
theorem C07_refuted_overlong :
    utf8Get [0xC0#8, 0x80#8, 0x00#8] 0 = .ok (0#32, 2) ∧ utf8Put 0#32 = [0x00#8] := by decide

/-- Besides: `UTF8PutPaddedZero` (documented as writing a zero padded to `length` bytes) writes a lead byte for one
byte more than asked, and none at all for 6. -/
theorem padded_zero_off_by_one :
    utf8PutPaddedZero 2 = .ok [0xE0#8, 0x80#8] ∧
    utf8Get [0xE0#8, 0x80#8, 0x00#8] 0 = .ok (0x800000E0#32, 1) ∧
    utf8PutPaddedZero 6 = .ok [0x00#8, 0x80#8, 0x80#8, 0x80#8, 0x80#8, 0x80#8] := by decide

end Strpp
