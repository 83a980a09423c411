import Verif.Model.RawStr
import Verif.Spec.RawStr
import Verif.Proof.StrFind
set_option linter.unusedVariables false
set_option linter.unusedSimpArgs false
namespace Strpp.SV.Raw
open Spec Arr

/-- `σ` is a slice of a body of raw bytes: it shows `t`, its body has `pre` before and `post` after this -/
structure RawOf (σ : Str) (pre t post : List Byte) : Prop where
  raw : σ.b.nc = rawMark
  wf : σ.b.arr.WF
  txt : σ.b.arr.elems = pre ++ t ++ post ++ [0#8]
  off : σ.off = pre.length
  num : σ.num = t.length
  small : σ.b.arr.num ≤ 1073741824

theorem isRaw_eq {b : SBody} (h : b.nc = rawMark) : isRaw b = true := by simp [isRaw, h]

theorem charOf_eq (b : Byte) : b.signExtend 32 = charOf b := by
  revert b; decide +kernel

/-- A new body with the bytes `d`, whose length is given or found -/
theorem mkRaw_spec (mem : List Byte) (p length allocate : Nat) (a d : List Byte) (z : Byte) (rest : List Byte)
    (hm : mem = a ++ (d ++ z :: rest)) (hp : p = a.length) (hz : length = 0 → z = 0#8)
    (hn : lenOr mem p length = .ok d.length) (h1 : d.length < 1073741824) (h2 : allocate ≤ 2147483647) :
    ∃ b, mkRaw mem p length allocate = .ok b ∧ b.nc = rawMark ∧ b.arr.WF ∧ b.arr.elems = d ++ [0#8] ∧ b.arr.num = d.length + 1 ∧
      b.arr.static = false := by
  subst hp
  have hr : readN mem a.length (d.length + 1) = .ok (d ++ [z]) := by
    rw [readN_spec _ _ _ (by rw [hm]; simp), hm]
    simp [List.take_append]
    exact List.take_of_length_le (by simp)
  obtain ⟨arr, e1, e2, e3, e4, e5⟩ := ofData_spec (d ++ [z]) allocate (by simp; omega) h2
  simp only [List.length_append, List.length_cons, List.length_nil, Nat.zero_add] at e5
  have hle := e2.le
  have hmem : arr.mem = d ++ (z :: arr.mem.drop arr.num) := by
    have : arr.mem = arr.elems ++ arr.mem.drop arr.num := by rw [Body.elems, List.take_append_drop]
    rw [e4] at this
    simpa using this
  have ht : terminate arr length = .ok (d ++ (0#8 :: arr.mem.drop arr.num)) := by
    unfold terminate
    by_cases h0 : length = 0
    · rw [if_pos (by simpa using h0), ← hz h0, ← hmem]
    · rw [if_neg (by simpa using h0), wr_lt _ _ _ (by omega), e5, Nat.add_sub_cancel]
      congr 1
      conv => lhs; rw [hmem]
      rw [List.set_append_right _ _ (Nat.le_refl _), Nat.sub_self, List.set_cons_zero, e5]
  unfold mkRaw mkBody
  rw [hn, res_bind_ok, hr, res_bind_ok, e1, res_bind_ok, ht, res_bind_ok]
  have hl : (d ++ (0#8 :: arr.mem.drop arr.num)).length = arr.mem.length := by
    simp only [List.length_append, List.length_cons, List.length_drop]; omega
  refine ⟨_, rfl, rfl, ⟨?_, ?_, ?_, ?_⟩, ?_, e5, e3⟩
  · simp only [hl]; exact hle
  · intro hs; simp only [hl]; exact e2.alloc hs
  · intro hs; exact e2.static hs
  · exact e2.cap
  · simp only [Body.elems, e5]
    simp [List.take_append, List.take_of_length_le]

theorem ofBody_spec {b : SBody} {d : List Byte} (h1 : b.nc = rawMark) (h2 : b.arr.WF) (h3 : b.arr.elems = d ++ [0#8])
    (h4 : b.arr.num = d.length + 1) (h5 : d.length < 1073741824) :
    ∃ σ, ofBody b = .ok σ ∧ RawOf σ [] d [] ∧ σ.b = b := by
  unfold ofBody numChars
  rw [if_pos (isRaw_eq h1), res_bind_ok, h4]
  exact ⟨_, rfl, ⟨h1, h2, by simpa using h3, rfl, by simp, by show b.arr.num ≤ _; omega⟩, rfl⟩

section
variable {σ : Str} {pre t post : List Byte}

theorem RawOf.mem (h : RawOf σ pre t post) : ∃ rest, σ.b.arr.mem = pre ++ (t ++ (post ++ 0#8 :: rest)) := by
  refine ⟨σ.b.arr.mem.drop σ.b.arr.num, ?_⟩
  have : σ.b.arr.mem = σ.b.arr.elems ++ σ.b.arr.mem.drop σ.b.arr.num := by rw [Body.elems, List.take_append_drop]
  rw [h.txt] at this
  simpa using this

theorem RawOf.total (h : RawOf σ pre t post) : σ.b.arr.num = pre.length + t.length + post.length + 1 := by
  have h1 := congrArg List.length h.txt
  have h2 := h.wf.le
  simp [Body.elems] at h1
  omega

theorem RawOf.cap (h : RawOf σ pre t post) : pre.length + t.length + post.length < 1073741824 := by
  have := h.total; have := h.small; omega

theorem RawOf.nth (h : RawOf σ pre t post) (k : Nat) (hk : k ≤ t.length) : Raw.nth σ k = .ok (σ, some (pre.length + k)) := by
  unfold Raw.nth nthChar
  rw [if_neg (by rw [h.num]; omega), if_pos (isRaw_eq h.raw), res_bind_ok, ← h.off]

theorem RawOf.nth_out (h : RawOf σ pre t post) (k : Nat) (hk : t.length < k) : Raw.nth σ k = .ok (σ, none) := by
  unfold Raw.nth
  rw [if_pos (by rw [h.num]; omega)]

theorem RawOf.nthC (h : RawOf σ pre t post) (k : Nat) (hk : k ≤ t.length) : Raw.nthC σ k = .ok (some (pre.length + k)) := by
  unfold Raw.nthC
  rw [h.nth k hk, res_bind_ok]

theorem RawOf.nthC_out (h : RawOf σ pre t post) (k : Nat) (hk : t.length < k) : Raw.nthC σ k = .ok none := by
  unfold Raw.nthC
  rw [h.nth_out k hk, res_bind_ok]

theorem RawOf.numBytes (h : RawOf σ pre t post) : Raw.numBytes σ = .ok t.length := by
  unfold Raw.numBytes
  rw [h.num, h.nthC _ (Nat.le_refl _), res_bind_ok]
  simp only [Option.isSome_some, assert_true, res_bind_ok, deref]
  rw [h.nthC 0 (Nat.zero_le _), res_bind_ok]
  simp only [deref, res_bind_ok]
  congr 1
  omega

/-- the byte after the slice: hidden data, or the terminating NUL -/
def nextByte (post : List Byte) : Byte := post.headD 0#8

theorem RawOf.charAt (h : RawOf σ pre t post) (n : Nat) (hn : n ≤ t.length) :
    Raw.charAt σ (pre.length + n) = .ok (charOf ((t ++ [nextByte post])[n]'(by simp; omega))) := by
  unfold Raw.charAt
  rw [if_pos (isRaw_eq h.raw)]
  obtain ⟨rest, hm⟩ := h.mem
  have : σ.b.arr.mem[pre.length + n]? = some ((t ++ [nextByte post])[n]'(by simp; omega)) := by
    rw [hm, List.getElem?_append_right (by omega), Nat.add_sub_cancel_left]
    rcases Nat.lt_or_ge n t.length with h1 | h1
    · rw [List.getElem?_append_left h1, List.getElem_append_left h1, List.getElem?_eq_getElem h1]
    · have hnt : n = t.length := by omega
      subst hnt
      rw [List.getElem?_append_right (Nat.le_refl _), List.getElem_append_right (Nat.le_refl _)]
      simp only [Nat.sub_self, List.getElem_cons_zero]
      cases post <;> simp [nextByte]
  rw [show rd σ.b.arr.mem (pre.length + n) = .ok ((t ++ [nextByte post])[n]'(by simp; omega)) by simpa using this, res_bind_ok, charOf_eq]

theorem RawOf.get (h : RawOf σ pre t post) (i : Int) :
    Raw.get σ i = .ok (if wrap i = t.length then 0#32 else ((t.map charOf)[wrap i]?).getD 0xFFFFFFFF#32) := by
  unfold Raw.get
  rw [h.num]
  by_cases h0 : wrap i = t.length
  · rw [if_pos (by simpa using h0), if_pos h0]
  · rw [if_neg (by simpa using h0), if_neg h0]
    rcases Nat.lt_or_ge t.length (wrap i) with h1 | h1
    · rw [h.nthC_out _ h1, res_bind_ok, List.getElem?_eq_none (by simp; omega)]
      rfl
    · have hlt : wrap i < t.length := by omega
      rw [h.nthC _ h1, res_bind_ok]
      simp only
      rw [h.charAt _ h1, List.getElem_append_left hlt, List.getElem?_map, List.getElem?_eq_getElem hlt]
      rfl

theorem RawOf.readAll (h : RawOf σ pre t post) : readN σ.b.arr.mem pre.length t.length = .ok t := by
  obtain ⟨rest, hm⟩ := h.mem
  rw [readN_spec _ _ _ (by rw [hm]; simp), hm]
  simp

theorem RawOf.bytes (h : RawOf σ pre t post) : Raw.bytes σ = .ok t := by
  unfold Raw.bytes
  rw [h.nthC 0 (Nat.zero_le _), res_bind_ok, h.num, h.nthC _ (Nat.le_refl _), res_bind_ok]
  simp only [deref, res_bind_ok, Nat.add_zero]
  rw [Nat.add_sub_cancel_left, h.readAll]

theorem RawOf.copyBody (h : RawOf σ pre t post) (ht : t ≠ []) :
    ∃ σ', Raw.copyBody σ = .ok σ' ∧ RawOf σ' [] t [] ∧ σ'.b.arr.static = false := by
  have hl : 0 < t.length := List.length_pos_iff.mpr ht
  obtain ⟨rest, hm⟩ := h.mem
  have hcap := h.cap
  unfold Raw.copyBody
  rw [h.nth 0 (Nat.zero_le _), res_bind_ok]
  simp only
  rw [h.num, h.nth _ (Nat.le_refl _), res_bind_ok]
  simp only [deref, res_bind_ok, Nat.add_zero]
  rw [Nat.add_sub_cancel_left]
  obtain ⟨z, r2, hz⟩ : ∃ z r2, post ++ 0#8 :: rest = z :: r2 := by
    cases post with
    | nil => exact ⟨_, _, rfl⟩
    | cons z r => exact ⟨_, _, rfl⟩
  obtain ⟨b, e1, e2, e3, e4, e5, e6⟩ := mkRaw_spec σ.b.arr.mem pre.length t.length 0 pre t z r2 (by rw [hm, hz]) rfl (by omega)
    (by unfold lenOr; rw [if_neg (by simp; omega)]) (by omega) (by omega)
  unfold mkLike
  rw [if_pos (isRaw_eq h.raw), e1, res_bind_ok]
  exact ⟨_, rfl, ⟨e2, e3, by simpa using e4, rfl, by exact h.num, by show b.arr.num ≤ _; omega⟩, e6⟩

theorem RawOf.substr (h : RawOf σ pre t post) (a : Nat) (len : Int) (hl : -1 ≤ len) (hl2 : len < 2147483648) (hne : part t a len ≠ []) :
    ∃ pre' post', RawOf (Raw.substr σ a len) pre' (part t a len) post' ∧ (Raw.substr σ a len).b = σ.b := by
  have hcap := h.cap
  have hat : a < t.length := by
    rcases Nat.lt_or_ge a t.length with h1 | h1
    · exact h1
    · exfalso; apply hne; unfold part; rw [List.drop_eq_nil_of_le h1]; simp
  have h0 : len ≠ 0 := by
    intro e; apply hne; subst e; unfold part; simp
  have hp : part t a len = (t.drop a).take (part t a len).length := by
    unfold part
    split
    · exact (List.take_of_length_le (Nat.le_refl _)).symm
    · simp [List.take_take]
  have hlen : (part t a len).length = if len > 0 then (if wrap len > t.length - a then t.length - a else wrap len) else t.length - a := by
    unfold part
    by_cases e : len = -1
    · subst e; simp
    · rw [if_neg e, if_pos (show len > 0 by omega)]
      have hw : wrap len = len.toNat := by unfold wrap; omega
      rw [hw]
      simp only [List.length_take, List.length_drop]
      split <;> omega
  have hnl : (part t a len).length ≤ t.length - a := by
    have := congrArg List.length hp
    simp only [List.length_take, List.length_drop] at this
    omega
  refine ⟨pre ++ t.take a, (t.drop a).drop (part t a len).length ++ post, ?_, ?_⟩
  · unfold Raw.substr
    rw [if_neg (by rw [h.num]; simp; omega)]
    simp only [h.num]
    rw [← hlen]
    refine ⟨h.raw, h.wf, ?_, ?_, rfl, h.small⟩
    · show σ.b.arr.elems = _
      rw [h.txt]
      have : t = t.take a ++ (part t a len ++ (t.drop a).drop (part t a len).length) := by
        conv => rhs; rw [hp]
        simp only [List.length_take, List.length_drop]
        rw [show min (part t a len).length (t.length - a) = (part t a len).length by omega, List.take_append_drop, List.take_append_drop]
      conv => lhs; rw [this]
      simp
    · show σ.off + a = _
      rw [h.off]; simp; omega
  · unfold Raw.substr
    rw [if_neg (by rw [h.num]; simp; omega)]

theorem substr_nil (σ : Str) (t : List Byte) (hn : σ.num = t.length) (a : Nat) (len : Int) (hl2 : len < 2147483648)
    (hne : len < -1 ∨ part t a len = []) : (Raw.substr σ a len).num = 0 := by
  unfold Raw.substr
  rw [if_pos]
  rcases hne with h | h
  · simp; omega
  · unfold part at h
    rw [hn]
    simp only [Bool.or_eq_true, decide_eq_true_eq, beq_iff_eq]
    by_cases e : len = -1
    · rw [if_pos e] at h
      have := congrArg List.length h
      simp at this; omega
    · rw [if_neg e] at h
      have := congrArg List.length h
      simp at this; omega

theorem RawOf.asUTF8 (h : RawOf σ pre t post) (ht : t ≠ [] ∨ post = []) :
    ∃ σ' p, Raw.asUTF8 σ = .ok (σ', p) ∧ readN σ'.b.arr.mem p (t.length + 1) = .ok (t ++ [0#8]) ∧
      ∃ pre', RawOf σ' pre' t [] ∧ (post = [] → σ' = σ) := by
  have fin : ∀ {σ : Str} {pre : List Byte}, RawOf σ pre t [] → readN σ.b.arr.mem pre.length (t.length + 1) = .ok (t ++ [0#8]) := by
    intro σ pre h
    obtain ⟨rest, hm⟩ := h.mem
    rw [readN_spec _ _ _ (by rw [hm]; simp), hm]
    simp [List.take_append]
    exact List.take_of_length_le (by omega)
  have hz : σ.b.nulTerminated = .ok true := by
    unfold SBody.nulTerminated
    split
    · rfl
    · obtain ⟨rest, hm⟩ := h.mem
      have : rd σ.b.arr.mem (σ.b.arr.num - 1) = .ok 0#8 := by
        have e : σ.b.arr.mem[σ.b.arr.num - 1]? = some 0#8 := by
          rw [hm, h.total, Nat.add_sub_cancel]
          rw [List.getElem?_append_right (by omega), List.getElem?_append_right (by omega), List.getElem?_append_right (by omega)]
          rw [show pre.length + t.length + post.length - pre.length - t.length - post.length = 0 by omega]
          rfl
        simpa using e
      rw [this, res_bind_ok]; rfl
  unfold Raw.asUTF8 numChars
  rw [if_pos (isRaw_eq h.raw), res_bind_ok]
  simp only
  rw [hz, res_bind_ok]
  simp only [Bool.not_true, Bool.or_false]
  by_cases hp : post = []
  · subst hp
    rw [if_neg (by rw [h.off, h.num, h.total]; simp)]
    have := h.nth 0 (Nat.zero_le _)
    rw [show ({ σ with b := σ.b } : Str) = σ from rfl, this, res_bind_ok]
    simp only [deref, res_bind_ok]
    exact ⟨_, _, rfl, fin h, pre, h, fun _ => rfl⟩
  · have ht' : t ≠ [] := ht.resolve_right hp
    have : 0 < post.length := List.length_pos_iff.mpr hp
    rw [if_pos (by rw [h.off, h.num, h.total]; simp; omega)]
    obtain ⟨σ', e1, e2, e3⟩ := h.copyBody ht'
    rw [show ({ σ with b := σ.b } : Str) = σ from rfl, e1, res_bind_ok, e2.nth 0 (Nat.zero_le _), res_bind_ok]
    simp only [deref, res_bind_ok]
    exact ⟨_, _, rfl, fin e2, [], e2, fun h => absurd h hp⟩

end

/-! ### comparison -/

theorem bytesLt_prefix (a : List Byte) (c : Byte) (r : List Byte) : BytesLt a (a ++ c :: r) := by
  unfold BytesLt
  rw [List.map_append]
  have := (lt_append_left (a.map BitVec.toNat) [] ((c :: r).map BitVec.toNat)).mpr (by simp)
  simpa using this

theorem bytesLt_diff (q : List Byte) (c d : Byte) (r r' : List Byte) (h : c.toNat < d.toNat) : BytesLt (q ++ c :: r) (q ++ d :: r') := by
  unfold BytesLt
  rw [List.map_append, List.map_append]
  refine (lt_append_left _ _ _).mpr ?_
  simp [List.cons_lt_cons_iff, h]

theorem bsign_iff {t u : List Byte} {r : Int} (h1 : r < 0 → BytesLt t u) (h2 : r = 0 → t = u) (h3 : 0 < r → BytesLt u t) :
    (r < 0 ↔ BytesLt t u) ∧ (r = 0 ↔ t = u) ∧ (0 < r ↔ BytesLt u t) := by
  have irr : ∀ a : List Byte, ¬ BytesLt a a := fun a => List.lt_irrefl _
  have asy : ∀ {a b : List Byte}, BytesLt a b → ¬ BytesLt b a := fun h => List.lt_asymm h
  refine ⟨⟨h1, fun h => ?_⟩, ⟨h2, fun h => ?_⟩, ⟨h3, fun h => ?_⟩⟩
  · rcases Int.lt_trichotomy r 0 with g | g | g
    · exact g
    · rw [h2 g] at h; exact absurd h (irr _)
    · exact absurd h (asy (h3 g))
  · subst h
    rcases Int.lt_trichotomy r 0 with g | g | g
    · exact absurd (h1 g) (irr _)
    · exact g
    · exact absurd (h3 g) (irr _)
  · rcases Int.lt_trichotomy r 0 with g | g | g
    · exact absurd h (asy (h1 g))
    · rw [h2 g] at h; exact absurd h (irr _)
    · exact g

theorem RawOf.compare {σ τ : Str} {p1 t q1 p2 u q2 : List Byte} (h1 : RawOf σ p1 t q1) (h2 : RawOf τ p2 u q2)
    (hx : ∀ c x, t = u ++ c :: x → q2 = [] ∧ c ≠ 0#8) :
    ∃ r, Raw.compare σ τ = .ok r ∧ (r < 0 ↔ BytesLt t u) ∧ (r = 0 ↔ t = u) ∧ (0 < r ↔ BytesLt u t) := by
  obtain ⟨r1, m1⟩ := h1.mem
  obtain ⟨r2, m2⟩ := h2.mem
  have c1 := h1.cap
  have c2 := h2.cap
  unfold Raw.compare
  rw [h1.nthC 0 (Nat.zero_le _), res_bind_ok]
  simp only [deref, res_bind_ok]
  rw [h2.nthC 0 (Nat.zero_le _), res_bind_ok]
  simp only [deref, res_bind_ok, Nat.add_zero]
  rw [h1.numBytes, res_bind_ok]
  rcases diff_split t u with ⟨r, hr⟩ | ⟨a, r, hr⟩ | ⟨q, a, ra, b, rb, e1, e2, e3⟩
  · rw [memcmp_same _ _ (q1 ++ 0#8 :: r1) (r ++ (q2 ++ 0#8 :: r2)) t p1 p2 m1 (by rw [m2, hr]; simp), res_bind_ok, if_pos (by rfl), res_bind_ok,
      h2.numBytes, res_bind_ok]
    have hle : t.length ≤ u.length := by rw [hr]; simp
    refine ⟨_, rfl, ?_⟩
    rw [toInt_wrap_le hle (by omega)]
    refine bsign_iff ?_ ?_ ?_
    · intro h
      cases r with
      | nil => rw [hr] at h; simp at h
      | cons c r => rw [hr]; exact bytesLt_prefix t c r
    · intro h
      have := congrArg List.length hr
      simp at this
      rw [hr, List.eq_nil_of_length_eq_zero (show r.length = 0 by omega)]; simp
    · intro h; omega
  · obtain ⟨hq, ha⟩ := hx a r hr
    subst hq
    rw [memcmp_diff _ _ (r ++ (q1 ++ 0#8 :: r1)) r2 a 0#8 ha u p1 p2 t.length (by rw [m1, hr]; simp) (by rw [m2]; simp) (by rw [hr]; simp)]
    have hpos : a.toNat ≠ 0 := fun e => ha (BitVec.eq_of_toNat_eq e)
    rw [res_bind_ok, if_neg (by simp; exact hpos)]
    refine ⟨_, rfl, bsign_iff ?_ ?_ ?_⟩
    · intro h; simp at h; omega
    · intro h; simp at h; omega
    · intro h; rw [hr]; exact bytesLt_prefix u a r
  · have hn : a.toNat ≠ b.toNat := fun e => e3 (BitVec.eq_of_toNat_eq e)
    rw [memcmp_diff _ _ (ra ++ (q1 ++ 0#8 :: r1)) (rb ++ (q2 ++ 0#8 :: r2)) a b e3 q p1 p2 t.length (by rw [m1, e1]; simp) (by rw [m2, e2]; simp)
      (by rw [e1]; simp)]
    rw [res_bind_ok, if_neg (by simp; omega)]
    refine ⟨_, rfl, bsign_iff ?_ ?_ ?_⟩
    · intro h; rw [e1, e2]; exact bytesLt_diff q a b ra rb (by omega)
    · intro h; omega
    · intro h; rw [e1, e2]; exact bytesLt_diff q b a rb ra (by omega)

theorem RawOf.eq {σ τ : Str} {p1 t q1 p2 u q2 : List Byte} (h1 : RawOf σ p1 t q1) (h2 : RawOf τ p2 u q2) :
    Raw.eq σ τ = .ok (decide (t = u)) := by
  unfold Raw.eq
  rw [h1.num, h2.num]
  by_cases hl : t.length = u.length
  · rw [if_pos (by simpa using hl)]
    obtain ⟨r, e, -, e2, -⟩ := h1.compare h2 (by
      rintro c w rfl
      simp at hl)
    rw [e, res_bind_ok]
    congr 1
    rw [Bool.eq_iff_iff]
    simpa using e2
  · rw [if_neg (by simpa using hl)]
    congr 1
    symm
    rw [decide_eq_false_iff_not]
    exact fun e => hl (by rw [e])

end Strpp.SV.Raw
