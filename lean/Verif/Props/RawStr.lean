import Verif.Proof.RawText
set_option linter.unusedVariables false
/-!
C97. Strings of raw bytes (StrRawBinary): one byte is one character, whatever the bytes are; and where this ends.
-/
namespace Strpp.SV.Raw
open Spec Arr

/-- The histories of one raw string value: `Made σ t f`, where `t` are the bytes it should have and `f` the bytes that lie after them in its body.
It starts from a C string or from `length` bytes; then substrings are taken, the value gets a body of its own (as it does whenever it is changed
while shared), and strings of as many characters as bytes are inserted into such a body. -/
inductive Made : Str → List Byte → List Byte → Prop
  | ofC {σ : Str} (d rest : List Byte) : d ≠ [] → 0#8 ∉ d → d.length < 1073741824 → ofC (d ++ 0#8 :: rest) = .ok σ → Made σ d []
  | ofData {σ : Str} (d : List Byte) (z : Byte) (rest : List Byte) : d ≠ [] → d.length < 1073741824 →
      ofData (d ++ z :: rest) d.length = .ok σ → Made σ d []
  | substr {σ : Str} {t f : List Byte} (a : Nat) (len : Int) : Made σ t f → -1 ≤ len → len < 2147483648 → part t a len ≠ [] →
      Made (substr σ a len) (part t a len) (t.drop (a + (part t a len).length) ++ f)
  | copy {σ σ' : Str} {t f : List Byte} : Made σ t f → copyBody σ = .ok σ' → Made σ' t []
  | insert {σ σ' σ'' τ : Str} {t f u : List Byte} (pos : Nat) : Made σ t f → copyBody σ = .ok σ' → pos ≤ t.length →
      bytes τ = .ok u → τ.num = u.length → t.length + u.length < 1073741824 → insert σ' pos τ = .ok σ'' →
      Made σ'' (t.take pos ++ u ++ t.drop pos) []

theorem part_len (t : List Byte) (a : Nat) (len : Int) : part t a len = (t.drop a).take (part t a len).length := by
  unfold part
  split
  · exact (List.take_of_length_le (Nat.le_refl _)).symm
  · simp [List.take_take]

theorem lenOr_given (mem : List Byte) (p : Nat) (d : List Byte) (hd : d ≠ []) : lenOr mem p d.length = .ok d.length := by
  have : 0 < d.length := List.length_pos_iff.mpr hd
  unfold lenOr; rw [if_neg (by simp; omega)]

theorem lenOr_found (d rest : List Byte) (h0 : 0#8 ∉ d) : lenOr (d ++ 0#8 :: rest) 0 0 = .ok d.length := by
  unfold lenOr strlen
  rw [if_pos (by rfl)]
  refine strlenLoop_spec _ _ 0 d.length (by simp) (by simp) ?_
  intro i hi
  refine ⟨d[i], ?_, fun e => h0 (by rw [← e]; exact List.getElem_mem hi)⟩
  rw [Nat.zero_add, List.getElem?_append_left hi, List.getElem?_eq_getElem hi]

theorem ofC_raw (d rest : List Byte) (hd : d ≠ []) (h0 : 0#8 ∉ d) (h1 : d.length < 1073741824) :
    ∃ σ, ofC (d ++ 0#8 :: rest) = .ok σ ∧ RawOf σ [] d [] ∧ σ.mark = ⟨0, 0⟩ ∧ σ.b.arr.static = false := by
  obtain ⟨b, e1, e2, e3, e4, e5, e6⟩ := mkRaw_spec (d ++ 0#8 :: rest) 0 0 0 [] d 0#8 rest (by simp) rfl (fun _ => rfl) (lenOr_found d rest h0) h1 (by omega)
  have : ∃ c, rd (d ++ 0#8 :: rest) 0 = .ok c ∧ c ≠ 0#8 := by
    cases d with
    | nil => exact absurd rfl hd
    | cons c d => exact ⟨c, by simp, fun e => h0 (by rw [e]; exact List.mem_cons_self ..)⟩
  obtain ⟨c, hc, hne⟩ := this
  unfold Raw.ofC
  rw [hc, res_bind_ok, if_neg (by simpa using hne), e1, res_bind_ok]
  unfold ofBody numChars
  rw [if_pos (isRaw_eq e2), res_bind_ok, e5]
  exact ⟨_, rfl, ⟨e2, e3, by simpa using e4, rfl, by simp, by show b.arr.num ≤ _; omega⟩, rfl, e6⟩

theorem ofData_raw (d : List Byte) (z : Byte) (rest : List Byte) (hd : d ≠ []) (h1 : d.length < 1073741824) :
    ∃ σ, ofData (d ++ z :: rest) d.length = .ok σ ∧ RawOf σ [] d [] ∧ σ.mark = ⟨0, 0⟩ ∧ σ.b.arr.static = false := by
  have hl : 0 < d.length := List.length_pos_iff.mpr hd
  obtain ⟨b, e1, e2, e3, e4, e5, e6⟩ := mkRaw_spec (d ++ z :: rest) 0 d.length 0 [] d z rest (by simp) rfl (by omega)
    (lenOr_given _ _ d hd) h1 (by omega)
  unfold Raw.ofData
  rw [e1, res_bind_ok]
  unfold ofBody numChars
  rw [if_pos (isRaw_eq e2), res_bind_ok, e5]
  exact ⟨_, rfl, ⟨e2, e3, by simpa using e4, rfl, by simp, by show b.arr.num ≤ _; omega⟩, rfl, e6⟩

theorem insert_raw {σ τ : Str} {t f u : List Byte} (h : RawOf σ [] t f) (hs : σ.b.arr.static = false) (pos : Nat) (hp : pos ≤ t.length)
    (hb : bytes τ = .ok u) (hn : τ.num = u.length) (hsz : t.length + f.length + u.length < 1073741824) :
    ∃ σ', insert σ pos τ = .ok σ' ∧ RawOf σ' [] (t.take pos ++ u ++ t.drop pos) f := by
  obtain ⟨σ', hid, e1, e2, e3, e4⟩ := h.insertOwn hs 1 (Nat.le_refl _) pos hp u τ.num (by omega) hsz
  unfold Raw.insert
  rw [hb, res_bind_ok]
  refine ⟨σ', e1, ?_⟩
  rw [e3 hn] at e2
  rwa [List.take_of_length_le (by simp; omega)] at e2

theorem Made.raw {σ : Str} {t f : List Byte} (h : Made σ t f) : t ≠ [] ∧ ∃ pre, RawOf σ pre t f := by
  induction h with
  | ofC d rest hd h0 h1 e =>
    obtain ⟨σ', e', r, -⟩ := ofC_raw d rest hd h0 h1
    rw [e'] at e; cases e
    exact ⟨hd, [], r⟩
  | ofData d z rest hd h1 e =>
    obtain ⟨σ', e', r, -⟩ := ofData_raw d z rest hd h1
    rw [e'] at e; cases e
    exact ⟨hd, [], r⟩
  | @substr σ t f a len _ hl hl2 hne ih =>
    obtain ⟨ht, pre, r⟩ := ih
    obtain ⟨pre', post', r', -⟩ := r.substr a len hl hl2 hne
    refine ⟨hne, pre ++ t.take a, ?_⟩
    have hb : (Raw.substr σ a len).b = σ.b := by
      unfold Raw.substr; split
      · rename_i hx
        exfalso
        have : part t a len = [] := by
          rw [r.num] at hx
          simp only [Bool.or_eq_true, decide_eq_true_eq, beq_iff_eq] at hx
          unfold part
          rcases hx with (hx | hx) | hx
          · omega
          · rw [hx]; simp
          · rw [List.drop_eq_nil_of_le hx]; simp
        exact hne this
      · rfl
    have hpos : a < t.length := by
      rcases Nat.lt_or_ge a t.length with h1 | h1
      · exact h1
      · exfalso; apply hne; unfold part; rw [List.drop_eq_nil_of_le h1]; simp
    have hsplit : t = t.take a ++ (part t a len ++ t.drop (a + (part t a len).length)) := by
      have hp := part_len t a len
      have : part t a len ++ t.drop (a + (part t a len).length) = t.drop a := by
        rw [← List.drop_drop]
        conv => lhs; arg 1; rw [hp]
        rw [List.take_append_drop]
      rw [this, List.take_append_drop]
    refine ⟨r'.raw, r'.wf, ?_, ?_, r'.num, r'.small⟩
    · rw [hb, r.txt]
      conv => lhs; rw [hsplit]
      simp
    · have ho : (Raw.substr σ a len).off = σ.off + a := by
        unfold Raw.substr; split
        · rename_i hx
          exfalso
          rw [r.num] at hx
          simp only [Bool.or_eq_true, decide_eq_true_eq, beq_iff_eq] at hx
          rcases hx with (hx | hx) | hx
          · omega
          · apply hne; unfold part; rw [hx]; simp
          · omega
        · rfl
      rw [ho, r.off]; simp; omega
  | copy _ e ih =>
    obtain ⟨ht, pre, r⟩ := ih
    obtain ⟨σ', e', r', -⟩ := r.copyBody ht
    rw [e'] at e; cases e
    exact ⟨ht, [], r'⟩
  | @insert σ σ' σ'' τ t f u pos _ e hp hb hn hsz e2 ih =>
    obtain ⟨ht, pre, r⟩ := ih
    obtain ⟨σ1, e', r', hst⟩ := r.copyBody ht
    rw [e'] at e; cases e
    obtain ⟨σ2, e3, r2⟩ := insert_raw r' hst pos hp hb hn (by simpa using hsz)
    rw [e3] at e2; cases e2
    refine ⟨?_, [], r2⟩
    intro hnil
    apply ht
    have := congrArg List.length hnil
    simp only [List.length_append, List.length_take, List.length_drop, List.length_nil] at this
    exact List.eq_nil_of_length_eq_zero (by omega)

/-- C97. None of the operations that make a raw string fails; an empty C string, or an empty part of a string, gives the empty string. -/
theorem C97_total :
    (∀ (d rest : List Byte), 0#8 ∉ d → d.length < 1073741824 → ∃ σ, ofC (d ++ 0#8 :: rest) = .ok σ ∧ (d = [] → σ.num = 0) ∧ (d ≠ [] → Made σ d [])) ∧
    (∀ (d : List Byte) (z : Byte) (rest : List Byte), d ≠ [] → d.length < 1073741824 → ∃ σ, ofData (d ++ z :: rest) d.length = .ok σ ∧ Made σ d []) ∧
    (∀ {σ : Str} {t f : List Byte}, Made σ t f → ∃ σ', copyBody σ = .ok σ' ∧
      ∀ (τ : Str) (u : List Byte) (pos : Nat), pos ≤ t.length → bytes τ = .ok u → τ.num = u.length → t.length + u.length < 1073741824 →
        ∃ σ'', insert σ' pos τ = .ok σ'') ∧
    (∀ {σ : Str} {t f : List Byte}, Made σ t f → ∀ (a : Nat) (len : Int), len < 2147483648 → len < -1 ∨ part t a len = [] →
      (substr σ a len).num = 0) := by
  refine ⟨fun d rest h0 h1 => ?_, fun d z rest hd h1 => ?_, fun {σ t f} h => ?_, fun {σ t f} h a len hl hx => ?_⟩
  · by_cases hd : d = []
    · subst hd
      refine ⟨⟨nullBody, 0, 0, ⟨0, 0⟩⟩, rfl, fun _ => rfl, fun h => absurd rfl h⟩
    · obtain ⟨σ, e, -⟩ := ofC_raw d rest hd h0 h1
      exact ⟨σ, e, fun h => absurd h hd, fun _ => .ofC d rest hd h0 h1 e⟩
  · obtain ⟨σ, e, -⟩ := ofData_raw d z rest hd h1
    exact ⟨σ, e, .ofData d z rest hd h1 e⟩
  · obtain ⟨ht, pre, r⟩ := h.raw
    obtain ⟨σ', e, r', hs⟩ := r.copyBody ht
    refine ⟨σ', e, fun τ u pos hp hb hn hsz => ?_⟩
    obtain ⟨σ2, e3, -⟩ := insert_raw r' hs pos hp hb hn (by simpa using hsz)
    exact ⟨σ2, e3⟩
  · obtain ⟨ht, pre, r⟩ := h.raw
    exact substr_nil σ t r.num a len hl hx

/-- C97. What a raw string shows: as many characters as bytes, exactly the bytes it was made of, and each of them as a character: a byte from 128 up
as a value from 0xFFFFFF80 up. `asUTF8()` gives these bytes, with a NUL after them. -/
theorem C97_shows {σ : Str} {t f : List Byte} (h : Made σ t f) :
    σ.num = t.length ∧ numBytes σ = .ok t.length ∧ bytes σ = .ok t ∧ σ.b.nc = rawMark ∧
    (∀ i : Nat, i < t.length → get σ i = .ok (charOf (t[i]?.getD 0))) ∧ get σ t.length = .ok 0#32 ∧
    (∀ i : Int, -2147483648 ≤ i → i < 2147483648 → (i < 0 ∨ (t.length : Int) < i) → get σ i = .ok 0xFFFFFFFF#32) ∧
    (∃ σ' p, asUTF8 σ = .ok (σ', p) ∧ readN σ'.b.arr.mem p (t.length + 1) = .ok (t ++ [0#8]) ∧ bytes σ' = .ok t) := by
  obtain ⟨ht, pre, r⟩ := h.raw
  have hcap := r.cap
  refine ⟨r.num, r.numBytes, r.bytes, r.raw, fun i hi => ?_, ?_, fun i h1 h2 h3 => ?_, ?_⟩
  · rw [r.get, wrap_nat (by omega), if_neg (by omega), List.getElem?_map, List.getElem?_eq_getElem hi]; rfl
  · rw [r.get, wrap_nat (by omega), if_pos rfl]
  · have hw : t.length < wrap i := by unfold wrap; omega
    rw [r.get, if_neg (by omega), List.getElem?_eq_none (by simp; omega)]; rfl
  · obtain ⟨σ', p, e1, e2, pre', e3, -⟩ := r.asUTF8 (Or.inl ht)
    exact ⟨σ', p, e1, e2, e3.bytes⟩

/-- C97. `==` tells whether the bytes are the same. `compare` is the order of the bytes as unsigned numbers — provided that, where the second string
is a proper beginning of the first, it ends its body and the first goes on with a byte that is not NUL. -/
theorem C97_compare {σ τ : Str} {t f u g : List Byte} (h1 : Made σ t f) (h2 : Made τ u g) :
    eq σ τ = .ok (decide (t = u)) ∧
    ((∀ c x, t = u ++ c :: x → g = [] ∧ c ≠ 0#8) →
      ∃ r, compare σ τ = .ok r ∧ (r < 0 ↔ BytesLt t u) ∧ (r = 0 ↔ t = u) ∧ (0 < r ↔ BytesLt u t)) := by
  obtain ⟨-, p1, r1⟩ := h1.raw
  obtain ⟨-, p2, r2⟩ := h2.raw
  exact ⟨r1.eq r2, r1.compare r2⟩

/-- C97. The searches forwards, for characters as C97_shows gives them: they find the first such byte after `after`, but also look at the byte that follows
the string in its body. -/
theorem C97_find {σ τ : Str} {t f u g : List Byte} (h1 : Made σ t f) (h2 : Made τ u g) (ch : UCS4) (after : Int) (ha : -1 ≤ after ∧ after < 2147483647) :
    (∃ r, find σ ch after = .ok r ∧
      IsFirst (fun i => ∃ c, ((t ++ [f.headD 0#8]).map charOf)[i]? = some c ∧ ch = c) (after + 1).toNat (t.length + 1) r) ∧
    (∃ r, findAny σ τ after = .ok r ∧
      IsFirst (fun i => ∃ c, ((t ++ [f.headD 0#8]).map charOf)[i]? = some c ∧ c ∈ u.map charOf) (after + 1).toNat (t.length + 1) r) ∧
    (∃ r, findNot σ τ after = .ok r ∧
      IsFirst (fun i => ∃ c, ((t ++ [f.headD 0#8]).map charOf)[i]? = some c ∧ c ∉ u.map charOf) (after + 1).toNat (t.length + 1) r) := by
  obtain ⟨-, p1, r1⟩ := h1.raw
  obtain ⟨-, p2, r2⟩ := h2.raw
  refine ⟨?_, ?_, ?_⟩
  · exact findFrom r1 _ (fun c => ch = c) (fun c => by congr 1) after ha
  · exact findFrom r1 _ (fun c => c ∈ u.map charOf) (has_spec r2) after ha
  · exact findFrom r1 _ (fun c => c ∉ u.map charOf) (hasNot_spec r2) after ha

/-- C97. The searches backwards are exact. -/
theorem C97_rfind {σ τ : Str} {t f u g : List Byte} (h1 : Made σ t f) (h2 : Made τ u g) (ch : UCS4) (before : Int)
    (hb : before = -1 ∨ (0 ≤ before ∧ before ≤ t.length)) :
    (∃ r, rfind σ ch before = .ok r ∧
      IsLast (fun i => ∃ c, (t.map charOf)[i]? = some c ∧ ch = c) (if before = -1 then t.length else before.toNat) r) ∧
    (∃ r, rfindAny σ τ before = .ok r ∧
      IsLast (fun i => ∃ c, (t.map charOf)[i]? = some c ∧ c ∈ u.map charOf) (if before = -1 then t.length else before.toNat) r) ∧
    (∃ r, rfindNot σ τ before = .ok r ∧
      IsLast (fun i => ∃ c, (t.map charOf)[i]? = some c ∧ c ∉ u.map charOf) (if before = -1 then t.length else before.toNat) r) := by
  obtain ⟨-, p1, r1⟩ := h1.raw
  obtain ⟨-, p2, r2⟩ := h2.raw
  refine ⟨?_, ?_, ?_⟩
  · exact rfindFrom r1 _ (fun c => ch = c) (fun c => by congr 1) before hb
  · exact rfindFrom r1 _ (fun c => c ∈ u.map charOf) (has_spec r2) before hb
  · exact rfindFrom r1 _ (fun c => c ∉ u.map charOf) (hasNot_spec r2) before hb

/-- C97. Searching for a string that is not longer than this one finds where its bytes first occur. -/
theorem C97_findStr {σ τ : Str} {t f u g : List Byte} (h1 : Made σ t f) (h2 : Made τ u g) (hle : u.length ≤ t.length)
    (after : Int) (ha : -1 ≤ after ∧ after < 2147483647) :
    ∃ r, findStr σ τ after = .ok r ∧ IsFirst (fun i => (t.drop i).take u.length = u) (after + 1).toNat (t.length - u.length + 1) r := by
  obtain ⟨-, p1, r1⟩ := h1.raw
  obtain ⟨-, p2, r2⟩ := h2.raw
  exact r1.findStr r2 hle after ha

/-- C97. A sum is a UTF-8 string, not a raw one. If the first string's bytes are the encoding of some characters, and the second's are ASCII, it
has the bytes of both; its characters are those encoded, and one for each byte of the second string. -/
theorem C97_sum {σ τ : Str} {t f u g : List Byte} (h1 : Made σ t f) (h2 : Made τ u g) (cs : List UCS4) (hc : t = encodeAll cs)
    (hg : ∀ c ∈ cs, ¬ Reserved c) (hu : ∀ b ∈ u, b.toNat < 128) (hsz : t.length + u.length < 1073741824) :
    ∃ σ', plus σ τ = .ok σ' ∧ σ'.b.nc ≠ rawMark ∧ bytes σ' = .ok (t ++ u) ∧ σ'.num = cs.length + u.length ∧
      ∀ i : Nat, i < cs.length + u.length → get σ' i = .ok (((cs ++ u.map charOf)[i]?).getD 0) := by
  obtain ⟨ht, p1, r1⟩ := h1.raw
  obtain ⟨-, p2, r2⟩ := h2.raw
  obtain ⟨a1, a2⟩ := ascii_bytes u hu
  subst hc
  have hne : cs ≠ [] := by rintro rfl; exact ht rfl
  obtain ⟨σ', e, d⟩ := plus_spec (ds := u.map charOf) r1 hne hg a2 (by rw [a1]; exact r2.bytes) (by rw [a1]; exact r2.numBytes) (by rw [r2.num]; simp)
    (by rw [a1]; exact hsz)
  have hnr := notRaw d
  have hcap := d.cap
  simp only [List.length_append, List.length_map, List.length_nil] at hcap
  refine ⟨σ', e, ?_, ?_, by rw [d.num]; simp, fun i hi => ?_⟩
  · intro hx; rw [isRaw_eq hx] at hnr; cases hnr
  · rw [bytes_text hnr, d.bytes, encodeAll_append, a1]
  · rw [get_text hnr, d.get, wrap_nat (by omega), if_neg (by simp; omega), List.getElem?_eq_getElem (by simp; omega)]; rfl

/-- C97. So is the result of `toLower` and `toUpper`: new raw data that encodes some characters becomes the UTF-8 string of these, converted. -/
theorem C97_case (d : List Byte) (z : Byte) (rest : List Byte) (cs : List UCS4) (hd : d = encodeAll cs) (hne : d ≠ []) (h1 : d.length < 1073741824)
    (hg : ∀ c ∈ cs, ¬ Reserved c) {σ : Str} (hσ : ofData (d ++ z :: rest) d.length = .ok σ) (memo : Int) (h0 : 0 ≤ memo) :
    (memo < unicodeToLower.length → (encodeAll (cs.map (convert unicodeToLower))).length < 1073741824 →
      ∃ σ', toCase ucs4ToLower memo σ = .ok σ' ∧ σ'.b.nc ≠ rawMark ∧ bytes σ' = .ok (encodeAll (cs.map (convert unicodeToLower))) ∧ σ'.num = cs.length) ∧
    (memo < unicodeToUpper.length → (encodeAll (cs.map (convert unicodeToUpper))).length < 1073741824 →
      ∃ σ', toCase ucs4ToUpper memo σ = .ok σ' ∧ σ'.b.nc ≠ rawMark ∧ bytes σ' = .ok (encodeAll (cs.map (convert unicodeToUpper))) ∧ σ'.num = cs.length) := by
  obtain ⟨σ0, e, r, hm, hs⟩ := ofData_raw d z rest hne h1
  rw [e] at hσ; cases hσ
  subst hd
  refine ⟨fun hM hsz => ?_, fun hM hsz => ?_⟩
  · obtain ⟨σ', k, dn⟩ := toCase_spec r hs hg hm lower_conv memo h0 (by have : unicodeToLower.length = 396 := by decide +kernel
                                                                        omega) hsz
    have hnr := notRaw dn
    refine ⟨σ', k, ?_, by rw [bytes_text hnr, dn.bytes], by rw [dn.num]; simp⟩
    intro hx; rw [isRaw_eq hx] at hnr; cases hnr
  · obtain ⟨σ', k, dn⟩ := toCase_spec r hs hg hm upper_conv memo h0 (by have : unicodeToUpper.length = 406 := by decide +kernel
                                                                        omega) hsz
    have hnr := notRaw dn
    refine ⟨σ', k, ?_, by rw [bytes_text hnr, dn.bytes], by rw [dn.num]; simp⟩
    intro hx; rw [isRaw_eq hx] at hnr; cases hnr

/-- C97. Strings that are not raw are those of Model/StrBody.lean: every member function of both models is the same on them. -/
theorem C97_otherwise {σ τ : Str} (h1 : σ.b.nc ≠ rawMark) (h2 : τ.b.nc ≠ rawMark) :
    numBytes σ = σ.numBytes ∧ bytes σ = σ.bytes ∧ (∀ i, get σ i = σ.get i) ∧ (∀ k, nthC σ k = σ.nthC k) ∧
    compare σ τ = σ.compare τ ∧ eq σ τ = σ.eq τ ∧ (∀ ch a, find σ ch a = σ.find ch a) ∧ (∀ ch a, rfind σ ch a = σ.rfind ch a) ∧
    (∀ a, findAny σ τ a = σ.findAny τ a) ∧ (∀ a, rfindAny σ τ a = σ.rfindAny τ a) ∧ (∀ a, findNot σ τ a = σ.findNot τ a) ∧
    (∀ a, rfindNot σ τ a = σ.rfindNot τ a) ∧ (∀ a, findStr σ τ a = σ.findStr τ a) ∧
    (∀ {b : SBody}, b.nc ≠ rawMark → ofBody b = Str.ofBody b) ∧ (∀ a len, (substr σ a len).mark = ⟨0, 0⟩) := by
  have n : ∀ {b : SBody}, b.nc ≠ rawMark → isRaw b = false := fun h => by simpa [isRaw] using h
  have g1 := n h1
  have g2 := n h2
  have f1 : (Raw.has τ) = τ.has := funext (has_text g2)
  have f2 : (Raw.hasNot τ) = τ.hasNot := funext (hasNot_text g2)
  refine ⟨numBytes_text g1, bytes_text g1, get_text g1, nthC_text g1, compare_text g1 g2, eq_text g1 g2, fun ch a => findLoop_text g1 _ _ _,
    fun ch a => rfindLoop_text g1 _ _ _, fun a => ?_, fun a => ?_, fun a => ?_, fun a => ?_, findStr_text g1 g2, fun h => ofBody_text (n h), fun a len => by unfold Raw.substr; split <;> rfl⟩
  · unfold Raw.findAny Str.findAny; rw [f1]; exact findLoop_text g1 _ _ _
  · unfold Raw.rfindAny Str.rfindAny; rw [f1]; exact rfindLoop_text g1 _ _ _
  · unfold Raw.findNot Str.findNot; rw [f2]; exact findLoop_text g1 _ _ _
  · unfold Raw.rfindNot Str.rfindNot; rw [f2]; exact rfindLoop_text g1 _ _ _

/-! ### examples -/

/-- "é", its two bytes as raw data with a NUL inside: three characters -/
def sample : List Byte := [0xC3#8, 0xA9#8, 0x00#8, 0x41#8]

def sampleStr : Res Str := ofData (sample ++ [0x7A#8]) 4

example : ∃ σ, sampleStr = .ok σ ∧ Made σ sample [] := C97_total.2.1 sample 0x7A#8 [] (by decide) (by decide)

example : (do let σ ← sampleStr; let n ← numBytes σ; let b ← bytes σ; let c ← get σ 1; .ok (σ.num, n, b, c))
    = (.ok (4, 4, sample, 0xFFFFFFA9#32) : Res (Nat × Nat × List Byte × UCS4)) := by decide +kernel

/-- a substring of it, which shows the hidden byte when searched -/
example : ∃ σ, sampleStr = .ok σ ∧ Made (substr σ 1 2) [0xA9#8, 0x00#8] [0x41#8] := by
  obtain ⟨σ, e, h⟩ := C97_total.2.1 sample 0x7A#8 [] (by decide) (by decide)
  exact ⟨σ, e, .substr 1 2 h (by decide) (by decide) (by decide)⟩

example : (do let σ ← sampleStr; find (substr σ 1 2) 0x41#32 (-1)) = (.ok 2 : Res Int) := by decide +kernel

/-- insertion of a raw string into it -/
example : (do let σ ← sampleStr; let σ ← copyBody σ; let τ ← ofC [0xFF#8, 0xFE#8, 0#8]; let σ ← insert σ 3 τ; bytes σ)
    = (.ok [0xC3#8, 0xA9#8, 0x00#8, 0xFF#8, 0xFE#8, 0x41#8] : Res (List Byte)) := by decide +kernel

/-- a sum of ASCII data, and of data that is UTF-8 and ASCII data -/
example : (do let σ ← ofC [0xC3#8, 0xA9#8, 0#8]; let τ ← ofC [0x41#8, 0#8]; let r ← plus σ τ; let b ← bytes r; .ok (r.num, b))
    = (.ok (2, [0xC3#8, 0xA9#8, 0x41#8]) : Res (Nat × List Byte)) := by decide +kernel

/-- upper case of "é" -/
example : (do let σ ← ofData [0xC3#8, 0xA9#8, 0#8] 2; let r ← toCase ucs4ToUpper 0 σ; let b ← bytes r; .ok (σ.num, r.num, b))
    = (.ok (2, 1, [0xC3#8, 0x89#8]) : Res (Nat × Nat × List Byte)) := by decide +kernel

/-- C97, a limit: raw "a" + raw "\xC3\xA9" claims three characters, its UTF-8 body has two; asking for its size fails an assertion. -/
theorem C97_limit_sum : (do let σ ← ofC [0x61#8, 0#8]; let τ ← ofC [0xC3#8, 0xA9#8, 0#8]; let r ← plus σ τ; numBytes r)
    = .error .assertion := by decide +kernel

/-- C97, a limit: inserting the one-character UTF-8 string "é" into raw "ab" adds one to the length, and the last byte is lost. -/
theorem C97_limit_insert : (do
      let σ ← ofC [0x61#8, 0x62#8, 0#8]
      let b ← mkBody [0xC3#8, 0xA9#8, 0#8] 0 0 0
      let τ ← ofBody b
      let r ← insert σ 1 τ
      let bs ← bytes r
      .ok (r.num, bs))
    = .ok (3, [0x61#8, 0xC3#8, 0xA9#8]) := by decide +kernel

/-- C97, a limit: the byte 0xE9 is not found by its value, which is sign-extended. -/
theorem C97_limit_find : (do let σ ← ofC [0xE9#8, 0#8]; let a ← find σ 0xE9#32 (-1); let b ← find σ 0xFFFFFFE9#32 (-1); .ok (a, b))
    = .ok (-1, 0) := by decide +kernel

/-- C97, a limit: where the second string is a beginning of the first, `compare` goes on into what lies after it: "abc" comes before the "ab" of
"abz". -/
theorem C97_limit_compare : (do
      let σ ← ofC [0x61#8, 0x62#8, 0x63#8, 0#8]
      let τ ← ofC [0x61#8, 0x62#8, 0x7A#8, 0#8]
      compare σ (substr τ 0 2)) = .ok (-23) := by decide +kernel

end Strpp.SV.Raw
