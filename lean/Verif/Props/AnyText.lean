import Verif.Proof.AnyText
set_option linter.unusedVariables false
/-!
C98. Strings made from arbitrary bytes, malformed UTF-8 included: what their length, characters and bytes are, for which bytes reading them is
safe, for which it is exact, and where this ends.
-/
namespace Strpp.SV.Any
open Spec Arr

/-- The histories of one string value made from the bytes `bs`: `Held bs σ a n`, where the value should be the `n` characters from the `a`-th
character of `bs`. It starts from `length` bytes (with whatever follows them); then characters are looked up in it, each lookup leaving a bookmark, and
substrings are taken. -/
inductive Held (bs : List Byte) : Str → Nat → Nat → Prop
  | make {b : SBody} {σ : Str} (z : Byte) (rest : List Byte) (allocate : Nat) : allocate ≤ 2147483647 →
      mkBody (bs ++ z :: rest) 0 bs.length allocate = .ok b → Str.ofBody b = .ok σ → Held bs σ 0 (decodeAll bs).length
  | look {σ σ' : Str} {a n : Nat} {p : Option Nat} (k : Nat) : Held bs σ a n → σ.nth k = .ok (σ', p) → Held bs σ' a n
  | sub {σ : Str} {a n : Nat} (i : Nat) (len : Int) : Held bs σ a n → i < n → len = -1 ∨ 0 < len → len < 2147483648 →
      Held bs (Raw.substr σ i len) (a + i) (if len = -1 then n - i else min len.toNat (n - i))

section
variable {bs : List Byte} {cs : List (UCS4 × Nat)} {σ : Str} {a n : Nat}

theorem mkBody_any (z : Byte) (rest : List Byte) (allocate : Nat) (hne : bs ≠ []) (hl : bs.length < 1073741824) (ha : allocate ≤ 2147483647) :
    ∃ b, mkBody (bs ++ z :: rest) 0 bs.length allocate = .ok b ∧ b.nc = 0 ∧ b.arr.WF ∧ b.arr.elems = bs ++ [0#8] ∧ b.arr.num = bs.length + 1 := by
  have hp : 0 < bs.length := List.length_pos_iff.mpr hne
  obtain ⟨r, e1, e2, e3, e4, e5, e6⟩ := Raw.mkRaw_spec (bs ++ z :: rest) 0 bs.length allocate [] bs z rest (by simp) rfl (by omega)
    (by unfold lenOr; rw [if_neg (by simp; omega)]) hl ha
  unfold Raw.mkRaw at e1
  cases hm : mkBody (bs ++ z :: rest) 0 bs.length allocate with
  | error f => rw [hm] at e1; exact nomatch e1
  | ok b =>
    rw [hm, res_bind_ok] at e1
    have e7 : r = { b with nc := Raw.rawMark } := (Except.ok.inj e1).symm
    subst e7
    refine ⟨b, rfl, ?_, e3, e4, e5⟩
    unfold mkBody at hm
    cases h1 : lenOr (bs ++ z :: rest) 0 bs.length with
    | error f => rw [h1] at hm; exact nomatch hm
    | ok n =>
      rw [h1, res_bind_ok] at hm
      cases h2 : readN (bs ++ z :: rest) 0 (n + 1) with
      | error f => rw [h2] at hm; exact nomatch hm
      | ok d =>
        rw [h2, res_bind_ok] at hm
        cases h3 : Arr.Body.ofData d allocate with
        | error f => rw [h3] at hm; exact nomatch hm
        | ok arr =>
          rw [h3, res_bind_ok] at hm
          cases h4 : terminate arr bs.length with
          | error f => rw [h4] at hm; exact nomatch hm
          | ok am =>
            rw [h4, res_bind_ok] at hm
            rw [← Except.ok.inj hm]

theorem make_any (z : Byte) (rest : List Byte) (allocate : Nat) (hc : Cut bs cs) (hne : bs ≠ []) (hl : bs.length < 1073741824)
    (hno : ∀ x ∈ cs, x.1 ≠ 0xFFFFFFFF#32) (ha : allocate ≤ 2147483647) :
    ∃ b σ, mkBody (bs ++ z :: rest) 0 bs.length allocate = .ok b ∧ Str.ofBody b = .ok σ ∧ BCut σ.b bs cs ∧ σ.b.nc = cs.length ∧
      σ.off = 0 ∧ σ.num = cs.length ∧ σ.mark = ⟨0, 0⟩ := by
  obtain ⟨b, e1, e2, e3, e4, e5⟩ := mkBody_any z rest allocate hne hl ha
  have hb : BCut b bs cs := ⟨e3, e4, hc, hno, by omega, .inl e2⟩
  obtain ⟨b', c1, c2, c3, c4⟩ := hb.count
  refine ⟨b, ⟨b', 0, b'.nc, ⟨0, 0⟩⟩, e1, ?_, c2, c3, rfl, c3, rfl⟩
  unfold Str.ofBody
  rw [c1]; rfl

/-- what every history keeps -/
structure Inv (bs : List Byte) (cs : List (UCS4 × Nat)) (σ : Str) (a n : Nat) : Prop where
  body : BCut σ.b bs cs
  nc : σ.b.nc = cs.length
  off : σ.off = a
  num : σ.num = n
  le : a + n ≤ cs.length
  isIn : Tame bs → MarkIn bs σ.mark
  isAt : Fine bs cs → MarkAt cs σ.mark

theorem cut_ne (hc : Cut bs cs) (hne : bs ≠ []) : 0 < cs.length := by
  cases hc with
  | nil => exact absurd rfl hne
  | cons => simp

theorem count_same {b : SBody} (hb : b.nc ≠ 0) : b.count = .ok b := by
  unfold SBody.count
  rw [if_neg (by intro hx; simp only [Bool.and_eq_true, beq_iff_eq] at hx; omega)]

theorem nthChar_body {b b' : SBody} {m m' : Mark} {p : Option Nat} (k : Nat) (hb : b.nc ≠ 0) (h : nthChar b k m = .ok (b', m', p)) : b' = b := by
  unfold nthChar at h
  split at h
  · have := Except.ok.inj h; simp only [Prod.mk.injEq] at this; exact this.1.symm
  · rw [count_same hb, res_bind_ok] at h
    split at h
    · exact nomatch h
    · cases hs : searchChar b k (searchFrom b k m) with
      | error f => rw [hs] at h; exact nomatch h
      | ok r =>
        rw [hs, res_bind_ok] at h
        have := Except.ok.inj h; simp only [Prod.mk.injEq] at this; exact this.1.symm

theorem Held.inv (h : Held bs σ a n) (hc : Cut bs cs) (hd : decodeAll bs = cs.map Prod.fst) (hne : bs ≠ []) (hl : bs.length < 1073741824)
    (hno : ∀ x ∈ cs, x.1 ≠ 0xFFFFFFFF#32) : Inv bs cs σ a n := by
  have hpos := cut_ne hc hne
  induction h with
  | make z rest allocate ha h1 h2 =>
    obtain ⟨b', σ', e1, e2, e3, e4, e5, e6, e7⟩ := make_any z rest allocate hc hne hl hno ha
    rw [e1] at h1
    cases h1
    rw [e2] at h2
    cases h2
    refine ⟨e3, e4, e5, by rw [e6, hd]; simp, by rw [hd]; simp, fun _ => by rw [e7]; exact Nat.zero_le _, fun _ => by
      rw [e7]; exact ⟨Nat.zero_le _, (spos_zero cs).symm⟩⟩
  | @look σ σ' a n p k _ h ih =>
    unfold Str.nth at h
    split at h
    · have := Except.ok.inj h; simp only [Prod.mk.injEq] at this; rw [← this.1]; exact ih
    · next hk =>
      have hk' : σ.off + k ≤ cs.length := by have := ih.le; have := ih.off; have := ih.num; omega
      cases hn : nthChar σ.b (σ.off + k) σ.mark with
      | error f => rw [hn] at h; exact nomatch h
      | ok r =>
        obtain ⟨b', m', q⟩ := r
        rw [hn, res_bind_ok] at h
        have := Except.ok.inj h; simp only [Prod.mk.injEq] at this
        rw [← this.1]
        have hb := nthChar_body _ (by rw [ih.nc]; omega) hn
        subst hb
        refine ⟨ih.body, ih.nc, ih.off, ih.num, ih.le, fun ht => ?_, fun hf => ?_⟩
        · obtain ⟨b2, m2, p2, q1, _, _, _, q2⟩ := nthChar_any ih.body ht (σ.off + k) hk' σ.mark (ih.isIn ht)
          rw [hn] at q1
          simp only [Except.ok.injEq, Prod.mk.injEq] at q1
          show MarkIn bs m'
          rw [q1.2.1]; exact q2
        · obtain ⟨m2, q1, q2⟩ := nthChar_exact ih.body hf ih.nc (σ.off + k) hk' σ.mark (ih.isAt hf)
          rw [hn] at q1
          simp only [Except.ok.injEq, Prod.mk.injEq] at q1
          show MarkAt cs m'
          rw [q1.2.1]; exact q2
  | @sub σ a n i len _ hi hlen hlt ih =>
    have hnum := ih.num
    have hle := ih.le
    unfold Raw.substr
    rw [if_neg (by simp only [Bool.or_eq_true, decide_eq_true_eq, beq_iff_eq]; omega)]
    refine ⟨ih.body, ih.nc, by show σ.off + i = _; rw [ih.off], ?_, ?_, fun _ => Nat.zero_le _, fun _ => ⟨Nat.zero_le _, (spos_zero cs).symm⟩⟩
    · have hw : 0 < len → wrap len = len.toNat := fun _ => by unfold wrap; omega
      simp only [hnum]
      rcases hlen with h | h
      · subst h; simp
      · rw [if_pos h, hw h, if_neg (show ¬ len = -1 by omega)]
        split <;> omega
    · split <;> omega

theorem Inv.nth (h : Inv bs cs σ a n) (hf : Fine bs cs) (k : Nat) (hk : k ≤ n) : ∃ σ', σ.nth k = .ok (σ', some (spos cs (a + k))) := by
  obtain ⟨m', e1, e2⟩ := nthChar_exact h.body hf h.nc (σ.off + k) (by have := h.le; have := h.off; omega) σ.mark (h.isAt hf)
  unfold Str.nth
  rw [if_neg (by have := h.num; omega), e1, res_bind_ok, h.off]
  exact ⟨_, rfl⟩

theorem Inv.nthC (h : Inv bs cs σ a n) (hf : Fine bs cs) (k : Nat) (hk : k ≤ n) : σ.nthC k = .ok (some (spos cs (a + k))) := by
  obtain ⟨σ', e⟩ := h.nth hf k hk
  unfold Str.nthC
  rw [e]; rfl

theorem spos_mono (hc : Cut bs cs) {j k : Nat} (hjk : j ≤ k) (hk : k ≤ cs.length) : spos cs j ≤ spos cs k := by
  have := spos_step hc hjk hk; omega

theorem read_mid {b : SBody} (hb : BCut b bs cs) {i j : Nat} (hij : i ≤ j) (hj : j ≤ bs.length) :
    readN b.arr.mem i (j - i) = .ok ((bs.drop i).take (j - i)) := by
  obtain ⟨slack, hm⟩ := hb.mem
  rw [readN_spec _ _ _ (by rw [hm]; simp; omega), hm, List.drop_append_of_le_length (by omega), List.take_append_of_le_length (by simp; omega)]


end

/-! ### the property -/

/-- Any bytes at all make a string: its length is the number of characters the bytes are cut into (a byte that is part of no character
counting as one), it keeps the bytes, and all of them. Only text with the value UCS4_NONE, which the bytes FF BF BF BF BF BF spell, is left out. -/
theorem C98_make (bs : List Byte) (hne : bs ≠ []) (hl : bs.length < 1073741824) (hno : 0xFFFFFFFF#32 ∉ decodeAll bs)
    (z : Byte) (rest : List Byte) (allocate : Nat) (ha : allocate ≤ 2147483647) :
    ∃ b σ, mkBody (bs ++ z :: rest) 0 bs.length allocate = .ok b ∧ Str.ofBody b = .ok σ ∧ Held bs σ 0 (decodeAll bs).length ∧
      σ.num = (decodeAll bs).length ∧ σ.numBytes = .ok bs.length ∧ σ.bytes = .ok bs := by
  obtain ⟨cs, hc, hd, _⟩ := C73_cut bs
  have hno' : ∀ x ∈ cs, x.1 ≠ 0xFFFFFFFF#32 := fun x hx e => hno (by rw [hd, ← e]; exact List.mem_map_of_mem hx)
  obtain ⟨b, σ, e1, e2, e3, e4, e5, e6, e7⟩ := make_any z rest allocate hc hne hl hno' ha
  obtain ⟨m1, q1⟩ := nthChar_ends e3 e4 0 (.inl rfl)
  obtain ⟨m2, q2⟩ := nthChar_ends e3 e4 cs.length (.inr (.inl rfl))
  have n0 : σ.nthC 0 = .ok (some 0) := by
    unfold Str.nthC Str.nth
    rw [if_neg (by omega), e5, e7, Nat.zero_add, q1, spos_zero]; rfl
  have n1 : σ.nthC σ.num = .ok (some bs.length) := by
    unfold Str.nthC Str.nth
    rw [if_neg (by omega), e5, e7, Nat.zero_add, e6, q2, (cut_at hc).1]; rfl
  refine ⟨b, σ, e1, e2, .make z rest allocate ha e1 e2, by rw [e6, hd]; simp, ?_, ?_⟩
  · unfold Str.numBytes
    rw [n1, res_bind_ok, n0]; rfl
  · unfold Str.bytes
    rw [n1, n0]
    show readN σ.b.arr.mem 0 (bs.length - 0) = _
    rw [read_mid e3 (Nat.zero_le _) (Nat.le_refl _)]
    simp

/-- As long as no byte announces more bytes than there are, nothing that is looked up in such a string, in whatever order and in whatever part of it,
reads outside of it or fails; however broken the bytes are. -/
theorem C98_safe {bs : List Byte} (hne : bs ≠ []) (hl : bs.length < 1073741824) (hno : 0xFFFFFFFF#32 ∉ decodeAll bs) (ht : Tame bs)
    {σ : Str} {a n : Nat} (h : Held bs σ a n) :
    σ.num = n ∧ (∀ k, k ≤ n → ∃ σ' p, σ.nth k = .ok (σ', some p) ∧ p ≤ bs.length) ∧ (∀ k, n < k → σ.nth k = .ok (σ, none)) ∧
    (∀ i, ∃ ch, σ.get i = .ok ch) := by
  obtain ⟨cs, hc, hd, _⟩ := C73_cut bs
  have hno' : ∀ x ∈ cs, x.1 ≠ 0xFFFFFFFF#32 := fun x hx e => hno (by rw [hd, ← e]; exact List.mem_map_of_mem hx)
  have hi := h.inv hc hd hne hl hno'
  have k1 : ∀ k, k ≤ n → ∃ σ' p, σ.nth k = .ok (σ', some p) ∧ p ≤ bs.length := by
    intro k hk
    obtain ⟨b', m', p, e1, _, _, e2, _⟩ := nthChar_any hi.body ht (σ.off + k) (by have := hi.le; have := hi.off; omega) σ.mark (hi.isIn ht)
    unfold Str.nth
    rw [if_neg (by have := hi.num; omega), e1, res_bind_ok]
    exact ⟨_, _, rfl, e2⟩
  have k2 : ∀ k, n < k → σ.nth k = .ok (σ, none) := by
    intro k hk
    unfold Str.nth
    rw [if_pos (by have := hi.num; omega)]
  refine ⟨hi.num, k1, k2, fun i => ?_⟩
  unfold Str.get
  split
  · exact ⟨_, rfl⟩
  · unfold Str.nthC
    by_cases hk : wrap i ≤ n
    · obtain ⟨σ', p, e1, e2⟩ := k1 (wrap i) hk
      obtain ⟨r, e3⟩ := hi.body.get_any p e2
      rw [e1]
      refine ⟨r.1, ?_⟩
      show (utf8Get σ.b.arr.mem p >>= fun r => (Except.ok r.1 : Res UCS4)) = _
      rw [e3]; rfl
    · rw [k2 _ (by omega)]
      exact ⟨_, rfl⟩

/-- If moreover no lone continuation byte continues a sequence begun before it - or if every byte is a character of its own - then every lookup, in
whatever order and in whatever part, is exact: the byte where a character begins, the character there, and the bytes of the part are those of cutting
`bs` from its beginning. -/
theorem C98_exact {bs : List Byte} {cs : List (UCS4 × Nat)} (hc : Cut bs cs) (hne : bs ≠ []) (hl : bs.length < 1073741824)
    (hno : 0xFFFFFFFF#32 ∉ decodeAll bs) (hf : Fine bs cs) {σ : Str} {a n : Nat} (h : Held bs σ a n) :
    σ.num = n ∧ a + n ≤ (decodeAll bs).length ∧ (∀ k, k ≤ n → ∃ σ', σ.nth k = .ok (σ', some (spos cs (a + k)))) ∧
    (∀ k : Nat, k < n → ∃ ch, (decodeAll bs)[a + k]? = some ch ∧ σ.get k = .ok ch) ∧
    σ.get n = .ok 0#32 ∧
    σ.numBytes = .ok (spos cs (a + n) - spos cs a) ∧
    σ.bytes = .ok ((bs.drop (spos cs a)).take (spos cs (a + n) - spos cs a)) := by
  obtain ⟨cs', hc', hd, hu⟩ := C73_cut bs
  have e := hu cs hc
  subst e
  have hno' : ∀ x ∈ cs, x.1 ≠ 0xFFFFFFFF#32 := fun x hx e => hno (by rw [hd, ← e]; exact List.mem_map_of_mem hx)
  have hi := h.inv hc hd hne hl hno'
  have hle := hi.le
  have hnum := hi.num
  have hcl := cut_len hc
  have hw : ∀ k : Nat, k ≤ n → wrap (k : Int) = k := fun k hk => by rw [wrap_nat (by omega)]
  have n0 := hi.nthC hf 0 (Nat.zero_le _)
  have n1 := hi.nthC hf n (Nat.le_refl _)
  rw [Nat.add_zero] at n0
  have hend : spos cs (a + n) ≤ bs.length := by have := spos_end hc hle; omega
  refine ⟨hnum, by rw [hd]; simpa using hle, fun k hk => hi.nth hf k hk, fun k hk => ?_, ?_, ?_, ?_⟩
  · refine ⟨cs[a + k].1, by rw [hd]; simp [List.getElem?_eq_getElem (show a + k < cs.length by omega)], ?_⟩
    unfold Str.get
    rw [hw k (by omega), if_neg (by simp; omega), hi.nthC hf k (by omega), res_bind_ok]
    show (utf8Get σ.b.arr.mem (spos cs (a + k)) >>= fun r => (Except.ok r.1 : Res UCS4)) = _
    rw [hi.body.get (a + k) (by omega)]; rfl
  · unfold Str.get
    rw [hw n (Nat.le_refl _), if_pos (by simp [hnum])]
  · unfold Str.numBytes
    rw [hnum, n1, res_bind_ok, n0]; rfl
  · unfold Str.bytes
    rw [hnum, n1, n0]
    show readN σ.b.arr.mem (spos cs a) (spos cs (a + n) - spos cs a) = _
    exact read_mid hi.body (spos_mono hc (by omega) hle) hend

/-- In a new string, as long as no byte announces more bytes than there are, the first half of the characters are exact, however broken the bytes. -/
theorem C98_front (bs : List Byte) (hne : bs ≠ []) (hl : bs.length < 1073741824) (hno : 0xFFFFFFFF#32 ∉ decodeAll bs) (ht : Tame bs)
    (z : Byte) (rest : List Byte) (allocate : Nat) (ha : allocate ≤ 2147483647) :
    ∃ b σ, mkBody (bs ++ z :: rest) 0 bs.length allocate = .ok b ∧ Str.ofBody b = .ok σ ∧
      ∀ k : Nat, 2 * k < (decodeAll bs).length → ∃ ch, (decodeAll bs)[k]? = some ch ∧ σ.get k = .ok ch := by
  obtain ⟨cs, hc, hd, _⟩ := C73_cut bs
  have hno' : ∀ x ∈ cs, x.1 ≠ 0xFFFFFFFF#32 := fun x hx e => hno (by rw [hd, ← e]; exact List.mem_map_of_mem hx)
  obtain ⟨b, σ, e1, e2, e3, e4, e5, e6, e7⟩ := make_any z rest allocate hc hne hl hno' ha
  have hcl := cut_len hc
  refine ⟨b, σ, e1, e2, fun k hk => ?_⟩
  rw [hd, List.length_map] at hk
  refine ⟨cs[k].1, by rw [hd]; simp [List.getElem?_eq_getElem (show k < cs.length by omega)], ?_⟩
  obtain ⟨m, q⟩ := nthChar_ends e3 e4 k (.inr (.inr ⟨ht, hk⟩))
  unfold Str.get
  rw [wrap_nat (by omega), if_neg (by simp; omega)]
  unfold Str.nthC Str.nth
  rw [if_neg (by omega), e5, e7, Nat.zero_add, q]
  show (utf8Get σ.b.arr.mem (spos cs k) >>= fun r => (Except.ok r.1 : Res UCS4)) = _
  rw [e3.get k (by omega)]; rfl

/-! ### examples -/

/-- an incomplete sequence, a letter, a whole sequence, a byte that continues nothing, a letter -/
def sample : List Byte := [0xC3#8, 0x41#8, 0xC3#8, 0xA9#8, 0x80#8, 0x42#8]

def sampleCut : List (UCS4 × Nat) := [(0x800000C3#32, 1), (0x41#32, 1), (0xE9#32, 2), (0x80000080#32, 1), (0x42#32, 1)]

theorem sample_cut : Cut sample sampleCut :=
  .cons (by decide +kernel) (.cons (by decide +kernel) (.cons (by decide +kernel) (.cons (by decide +kernel) (.cons (by decide +kernel) .nil))))

theorem tame_of {bs : List Byte} (h : ∀ p : Fin bs.length, ∀ x ∈ (leadInfo bs[p]).toList, p.1 + x.1 ≤ bs.length) : Tame bs := by
  intro p b k v h1 h2
  obtain ⟨hp, e⟩ := List.getElem?_eq_some_iff.1 h1
  have := h ⟨p, hp⟩ (k, v) (by show _ ∈ (leadInfo bs[p]).toList; rw [e, h2]; simp)
  exact this

theorem sample_tame : Tame sample := tame_of (by decide +kernel)

/-- no character of the sample but the fourth is a continuation byte, and before that there is a whole character -/
theorem sample_unbroken : Unbroken sample sampleCut := by
  intro k hk
  rintro ⟨q, hq, _, ⟨b, n, v, hb, hl, hn⟩, hcont⟩
  have hk5 : k < 5 := hk
  rcases k with _ | _ | _ | _ | _ | k
  · exact absurd hq (by rw [spos_zero]; omega)
  · obtain ⟨c, hc, hi⟩ := hcont (spos sampleCut 1) (by exact hq) (Nat.lt_succ_self _)
    have : sample[spos sampleCut 1]? = some 0x41#8 := by decide +kernel
    rw [this] at hc; cases hc; exact absurd hi (by decide +kernel)
  · obtain ⟨c, hc, hi⟩ := hcont (spos sampleCut 2) (by exact hq) (Nat.lt_succ_self _)
    have : sample[spos sampleCut 2]? = some 0xC3#8 := by decide +kernel
    rw [this] at hc; cases hc; exact absurd hi (by decide +kernel)
  · have e : spos sampleCut 3 = 4 := by decide +kernel
    have hq' : q < 4 := by rw [← e]; exact hq
    have hn' : 4 + 1 - q ≤ n + 1 := by rw [← e]; exact hn
    have hc' : ∀ i : Nat, q < i → i < 5 → ∃ c, sample[i]? = some c ∧ isCont c = true := by
      intro i h1 h2; exact hcont i h1 (by show i < spos sampleCut 3 + 1; omega)
    rcases q with _ | _ | _ | _ | q
    · obtain ⟨c, hc, hi⟩ := hc' 1 (by omega) (by omega)
      have : sample[1]? = some 0x41#8 := by decide +kernel
      rw [this] at hc; cases hc; exact absurd hi (by decide +kernel)
    · obtain ⟨c, hc, hi⟩ := hc' 2 (by omega) (by omega)
      have : sample[2]? = some 0xC3#8 := by decide +kernel
      rw [this] at hc; cases hc; exact absurd hi (by decide +kernel)
    · have : sample[2]? = some 0xC3#8 := by decide +kernel
      rw [this] at hb; cases hb
      have : leadInfo 0xC3#8 = some (1, 3) := by decide +kernel
      rw [this] at hl; cases hl; omega
    · have : sample[3]? = some 0xA9#8 := by decide +kernel
      rw [this] at hb; cases hb
      have : leadInfo 0xA9#8 = none := by decide +kernel
      rw [this] at hl; exact nomatch hl
    · omega
  · obtain ⟨c, hc, hi⟩ := hcont (spos sampleCut 4) (by exact hq) (Nat.lt_succ_self _)
    have : sample[spos sampleCut 4]? = some 0x42#8 := by decide +kernel
    rw [this] at hc; cases hc; exact absurd hi (by decide +kernel)
  · omega

theorem sample_plain : (0xFFFFFFFF#32 : UCS4) ∉ decodeAll sample := by
  obtain ⟨cs, hc, hd, hu⟩ := C73_cut sample
  rw [hd, ← hu _ sample_cut]
  simp [sampleCut]

/-- the hypotheses of all the theorems are met by the sample: five characters, six bytes -/
example : ∃ σ, Held sample σ 0 5 ∧ σ.num = 5 ∧ σ.numBytes = .ok 6 ∧ σ.bytes = .ok sample ∧ σ.get 2 = .ok 0xE9#32 ∧ σ.get 3 = .ok 0x80000080#32 := by
  obtain ⟨b, σ, e1, e2, e3, e4, e5, e6⟩ := C98_make sample (by decide) (by decide) sample_plain 0x7A#8 [] 0 (by omega)
  have hd : decodeAll sample = sampleCut.map Prod.fst := by
    obtain ⟨cs, hc, hd, hu⟩ := C73_cut sample
    rw [hd, ← hu _ sample_cut]
  rw [hd] at e3 e4
  obtain ⟨_, _, _, x, _⟩ := C98_exact sample_cut (by decide) (by decide) sample_plain (.inl ⟨sample_tame, sample_unbroken⟩) e3
  obtain ⟨c2, h2, g2⟩ := x 2 (by decide)
  obtain ⟨c3, h3, g3⟩ := x 3 (by decide)
  rw [hd] at h2 h3
  cases h2; cases h3
  exact ⟨σ, e3, e4, e5, e6, g2, g3⟩

/-- a part of it, from its second character, looked at backwards -/
example : ∃ σ, Held sample σ 1 3 ∧ σ.num = 3 ∧ σ.bytes = .ok [0x41#8, 0xC3#8, 0xA9#8, 0x80#8] ∧ ∃ τ p, σ.nth 2 = .ok (τ, p) ∧ Held sample τ 1 3 := by
  obtain ⟨b, σ, e1, e2, e3, _⟩ := C98_make sample (by decide) (by decide) sample_plain 0x7A#8 [] 0 (by omega)
  have hd : decodeAll sample = sampleCut.map Prod.fst := by
    obtain ⟨cs, hc, hd, hu⟩ := C73_cut sample
    rw [hd, ← hu _ sample_cut]
  rw [hd] at e3
  have h := e3.sub 1 3 (by decide) (by decide) (by decide)
  obtain ⟨y1, _, y3, _, _, _, y7⟩ := C98_exact sample_cut (by decide) (by decide) sample_plain (.inl ⟨sample_tame, sample_unbroken⟩) h
  obtain ⟨τ, hτ⟩ := y3 2 (by decide)
  refine ⟨_, h, y1, ?_, τ, _, hτ, h.look 2 hτ⟩
  rw [y7]
  decide +kernel

/-- the characters of a new string of the given bytes, as `operator[]` gives them -/
def chars (bs : List Byte) : Res (List (Res UCS4)) := do
  let b ← mkBody (bs ++ [0#8]) 0 bs.length 0
  let σ ← Str.ofBody b
  .ok ((List.range σ.num).map fun (k : Nat) => σ.get k)

/-! ### where it ends -/

/-- A character cut short: "éa", two bytes of "€", then "A". The byte 82 is the fourth character, but, found backwards from the end, it is
taken for the E2 before it. -/
theorem C98_limit_backwards :
    chars [0xC3#8, 0xA9#8, 0x61#8, 0xE2#8, 0x82#8, 0x41#8] =
      .ok [.ok 0xE9#32, .ok 0x61#32, .ok 0x800000E2#32, .ok 0x800000E2#32, .ok 0x41#32] ∧
    Cut [0xC3#8, 0xA9#8, 0x61#8, 0xE2#8, 0x82#8, 0x41#8]
      [(0xE9#32, 2), (0x61#32, 1), (0x800000E2#32, 1), (0x80000082#32, 1), (0x41#32, 1)] :=
  ⟨by decide +kernel, .cons (by decide +kernel) (.cons (by decide +kernel) (.cons (by decide +kernel) (.cons (by decide +kernel)
    (.cons (by decide +kernel) .nil))))⟩

/-- A byte that announces more than there is: "€", FC, "abc" in a body of eight bytes. Looking for the third character reads past its end. -/
theorem C98_limit_overread :
    chars [0xE2#8, 0x82#8, 0xAC#8, 0xFC#8, 0x61#8, 0x62#8, 0x63#8] =
      .ok [.ok 0x20AC#32, .ok 0x800000FC#32, .error .ub, .ok 0x62#32, .ok 0x63#32] := by decide +kernel

/-- The bytes that spell UCS4_NONE end the text: "a", those, "b" is a string of one character. -/
theorem C98_limit_none :
    chars [0x61#8, 0xFF#8, 0xBF#8, 0xBF#8, 0xBF#8, 0xBF#8, 0xBF#8, 0x62#8] = .ok [.ok 0x61#32] := by decide +kernel

end Strpp.SV.Any
