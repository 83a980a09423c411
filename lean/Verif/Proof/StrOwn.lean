import Verif.Proof.StrBody
namespace Strpp.SV

open Spec Arr

theorem strlenLoop_spec (mem : List Byte) (n : Nat) : ∀ (p l : Nat), l < n → mem[p + l]? = some 0#8 →
    (∀ i, i < l → ∃ c, mem[p + i]? = some c ∧ c ≠ 0#8) → strlenLoop mem p n = .ok l := by
  induction n with
  | zero => intro p l h; omega
  | succ n ih =>
    intro p l hl hz hnz
    unfold strlenLoop
    cases l with
    | zero =>
      rw [show rd mem p = .ok 0#8 by simpa using hz]
      rfl
    | succ l =>
      obtain ⟨c, hc, hne⟩ := hnz 0 (by omega)
      rw [show rd mem p = .ok c by simpa using hc, res_bind_ok, if_neg (by simpa using hne)]
      rw [ih (p + 1) l (by omega) (by rw [← hz]; congr 1; omega)
        (fun i hi => by have := hnz (i + 1) (by omega); rwa [show p + (i + 1) = p + 1 + i by omega] at this)]
      rfl

theorem strlen_zero (mem : List Byte) (p : Nat) (h : mem[p]? = some 0#8) : strlen mem p = .ok 0 := by
  have hp : p < mem.length := by
    rcases Nat.lt_or_ge p mem.length with h1 | h1
    · exact h1
    · rw [List.getElem?_eq_none h1] at h; cases h
  exact strlenLoop_spec mem _ p 0 (by omega) (by simpa using h) (by omega)

theorem put_nz (c : UCS4) (h : ¬ Reserved c) (h0 : c ≠ 0#32) : ∀ b ∈ utf8Put c, b ≠ 0#8 := by
  obtain ⟨hd, b0, ds, v, hput, hli, hc⟩ := C02_utf8_shape c h
  intro b hb h00
  subst h00
  rw [hput] at hb
  rcases List.mem_cons.mp hb with rfl | hb
  · have : ds.length = 0 := by
      have e : leadInfo 0#8 = some (0, 0) := by decide
      rw [e] at hli
      simp only [Option.some.injEq, Prod.mk.injEq] at hli
      exact hli.1.symm
    have hds := List.eq_nil_of_length_eq_zero this
    subst hds
    have hd' := hd []
    rw [hput, List.append_nil] at hd'
    have e : decode1 [0#8] = some (0#32, 1) := by decide
    rw [e] at hd'
    simp only [Option.some.injEq, Prod.mk.injEq] at hd'
    exact h0 hd'.1.symm
  · have := hc _ hb
    revert this; decide

/-- A new body with the bytes of `cs`, whose length is given or found -/
theorem mkBody_gen (mem : List Byte) (p length allocate : Nat) (a : List Byte) (cs : List UCS4) (z : Byte) (rest : List Byte)
    (hm : mem = a ++ (encodeAll cs ++ z :: rest)) (hp : p = a.length) (hz : length = 0 → z = 0#8)
    (hn : lenOr mem p length = .ok (encodeAll cs).length)
    (hg : ∀ c ∈ cs, ¬ Reserved c) (h1 : (encodeAll cs).length < 1073741824) (h2 : allocate ≤ 2147483647) :
    ∃ b, mkBody mem p length allocate = .ok b ∧ BDen b cs ∧ b.nc = 0 ∧ b.arr.static = false := by
  subst hp
  have hr : readN mem a.length ((encodeAll cs).length + 1) = .ok (encodeAll cs ++ [z]) := by
    rw [readN_spec _ _ _ (by rw [hm]; simp), hm]
    simp [List.take_append]
    exact List.take_of_length_le (by simp)
  obtain ⟨arr, e1, e2, e3, e4, e5⟩ := ofData_spec (encodeAll cs ++ [z]) allocate (by simp; omega) h2
  simp only [List.length_append, List.length_cons, List.length_nil, Nat.zero_add] at e5
  have hle := e2.le
  have hmem : arr.mem = encodeAll cs ++ (z :: arr.mem.drop arr.num) := by
    have : arr.mem = arr.elems ++ arr.mem.drop arr.num := by rw [Body.elems, List.take_append_drop]
    rw [e4] at this
    simpa using this
  have ht : terminate arr length = .ok (encodeAll cs ++ (0#8 :: arr.mem.drop arr.num)) := by
    unfold terminate
    by_cases h0 : length = 0
    · rw [if_pos (by simpa using h0), ← hz h0, ← hmem]
    · rw [if_neg (by simpa using h0), wr_lt _ _ _ (by omega), e5, Nat.add_sub_cancel]
      congr 1
      conv => lhs; rw [hmem]
      rw [List.set_append_right _ _ (Nat.le_refl _), Nat.sub_self, List.set_cons_zero, e5]
  unfold mkBody
  rw [hn, res_bind_ok, hr, res_bind_ok, e1, res_bind_ok, ht, res_bind_ok]
  have hl : (encodeAll cs ++ (0#8 :: arr.mem.drop arr.num)).length = arr.mem.length := by
    simp only [List.length_append, List.length_cons, List.length_drop]; omega
  refine ⟨_, rfl, ⟨⟨?_, ?_, ?_, ?_⟩, ?_, hg, ?_, Or.inl rfl⟩, rfl, e3⟩
  · simp only [hl]; exact hle
  · intro hs; simp only [hl]; exact e2.alloc hs
  · intro hs; exact e2.static hs
  · exact e2.cap
  · simp only [Body.elems, e5]
    simp [List.take_append, List.take_of_length_le]
  · simp only [e5]; omega

/-- A new body with the bytes of `cs` -/
theorem mkBody_spec (mem : List Byte) (p allocate : Nat) (a : List Byte) (cs : List UCS4) (z : Byte) (rest : List Byte)
    (hm : mem = a ++ (encodeAll cs ++ z :: rest)) (hp : p = a.length) (hz : cs = [] → z = 0#8)
    (hg : ∀ c ∈ cs, ¬ Reserved c) (h1 : (encodeAll cs).length < 1073741824) (h2 : allocate ≤ 2147483647) :
    ∃ b, mkBody mem p (encodeAll cs).length allocate = .ok b ∧ BDen b cs ∧ b.nc = 0 ∧ b.arr.static = false := by
  have hcs : (encodeAll cs).length = 0 → cs = [] := by
    intro h0
    have := encodeAll_length_ge cs
    exact List.eq_nil_of_length_eq_zero (by omega)
  refine mkBody_gen mem p _ allocate a cs z rest hm hp (fun h0 => hz (hcs h0)) ?_ hg h1 h2
  subst hp
  unfold lenOr
  by_cases h0 : (encodeAll cs).length = 0
  · rw [if_pos (by simpa using h0), h0]
    refine strlen_zero mem _ ?_
    rw [hm, hcs h0, hz (hcs h0)]; simp
  · rw [if_neg (by simpa using h0)]

theorem staticBody_spec (cs : List UCS4) (hg : ∀ c ∈ cs, ¬ Reserved c) (h1 : (encodeAll cs).length < 1073741824) :
    BDen (staticBody (encodeAll cs ++ [0#8])) cs := by
  refine ⟨⟨by simp [staticBody, Body.ofStatic], nofun, fun _ => rfl, ?_⟩, ?_, hg, ?_, Or.inl rfl⟩
  · simp [staticBody, Body.ofStatic]; omega
  · simp only [staticBody, Body.ofStatic, Body.elems, List.take_length]
  · simp [staticBody, Body.ofStatic]; omega

theorem ofBody_spec {b : SBody} {cs : List UCS4} (h : BDen b cs) :
    ∃ b', Str.ofBody b = .ok ⟨b', 0, cs.length, ⟨0, 0⟩⟩ ∧ BDen b' cs ∧ b'.nc = cs.length ∧ b'.arr = b.arr := by
  obtain ⟨b', e1, e2, e3, e4⟩ := h.count
  unfold Str.ofBody
  rw [e1, res_bind_ok, e3]
  exact ⟨b', rfl, e2, e3, e4⟩

theorem Den.whole {b : SBody} {cs : List UCS4} (h : BDen b cs) : Den ⟨b, 0, cs.length, ⟨0, 0⟩⟩ [] cs [] :=
  ⟨by simpa using h, rfl, rfl, Or.inl ⟨by simp, by simp⟩, Or.inl (by simp)⟩

section
variable {σ : Str} {pre t post : List UCS4}

theorem Den.good (h : Den σ pre t post) : ∀ c ∈ t, ¬ Reserved c :=
  fun c hc => h.body.good c (by simp [hc])

theorem Den.size (h : Den σ pre t post) :
    (encodeAll pre).length + (encodeAll t).length + (encodeAll post).length < 1073741824 := by
  have h1 := h.body.num
  have h2 := h.body.small
  simp only [encodeAll_append, List.length_append] at h1
  omega

theorem Den.copyBody' (h : Den σ pre t post) (he : t = [] → post = []) :
    ∃ σ', σ.copyBody = .ok σ' ∧ Den σ' [] t [] ∧ σ'.b.arr.static = false ∧ σ'.mark.cn = wrap ((σ.mark.cn : Int) - σ.off) := by
  obtain ⟨σ1, e1, d1, a1, o1, n1, -⟩ := h.nth 0 (by omega)
  obtain ⟨σ2, e2, d2, a2, o2, n2, -⟩ := d1.nth t.length (Nat.le_refl _)
  have hsz := h.size
  have hcap := h.cap
  have p0 := bpos_mid pre t post 0 (by omega)
  have p1 := bpos_mid pre t post t.length (Nat.le_refl _)
  rw [bpos_end t _ (Nat.le_refl _)] at p1
  rw [bpos_zero] at p0
  obtain ⟨slack, hm⟩ := d2.memAt
  obtain ⟨z, rest, hzr⟩ : ∃ z rest, encodeAll post ++ ([0#8] ++ slack) = z :: rest ∧ (t = [] → z = 0#8) := by
    cases hp : encodeAll post with
    | nil => exact ⟨0#8, slack, rfl, fun _ => rfl⟩
    | cons c cs =>
      refine ⟨c, cs ++ ([0#8] ++ slack), rfl, fun ht => ?_⟩
      rw [he ht] at hp; cases hp
  rw [hzr.1] at hm
  obtain ⟨b, eb, db, nb, sb⟩ := mkBody_spec σ2.b.arr.mem (encodeAll pre).length 0 (encodeAll pre) t z rest hm rfl hzr.2 h.good
    (by omega) (by omega)
  unfold Str.copyBody
  simp only
  rw [e1, res_bind_ok, h.num, e2, res_bind_ok]
  simp only [deref, res_bind_ok]
  rw [p0, p1, Nat.add_zero, show (encodeAll pre).length + (encodeAll t).length - (encodeAll pre).length = (encodeAll t).length by omega,
    eb, res_bind_ok, o2, o1, h.off, n2, n1, h.num]
  have hgp := encodeAll_length_ge pre
  refine ⟨_, rfl, ⟨by simpa using db, rfl, rfl, ?_, ?_⟩, sb, rfl⟩
  · simp only [List.nil_append, List.append_nil]
    unfold MarkOk
    simp only
    rcases h.mark with ⟨hm1, hm2⟩ | ⟨hm1, hm2, hm3, hm4⟩
    · rcases Nat.lt_or_ge σ.mark.cn pre.length with hlt | hge
      · right
        have hb := bpos_strict (pre ++ t ++ post) hlt (by simp)
        rw [show pre.length = pre.length + 0 from rfl, p0] at hb
        rw [wrap_of_neg hlt (by omega), wrap_of_neg (by omega) (by omega)]
        omega
      · left
        have hcn : σ.mark.cn ≤ pre.length + t.length := by
          simp only [List.length_append] at hm1
          rcases h.markIn with h | h <;> omega
        have hb := bpos_mid pre t post (σ.mark.cn - pre.length) (by omega)
        rw [show pre.length + (σ.mark.cn - pre.length) = σ.mark.cn by omega] at hb
        have hle := bpos_le_end t (σ.mark.cn - pre.length)
        rw [wrap_of_nonneg hge (by omega), wrap_of_nonneg (by omega) (by omega)]
        refine ⟨by omega, by omega⟩
    · rcases h.markIn with h' | ⟨hpre, h'⟩
      · omega
      · right
        subst hpre
        simp only [List.length_nil, encodeAll_nil]
        rw [wrap_of_nonneg (by omega) (by omega), wrap_of_nonneg (by omega) (by omega)]
        omega
  · simp only [List.length_nil, Nat.zero_add, true_and]
    rcases h.markIn with h' | ⟨hpre, h'⟩
    · rcases Nat.lt_or_ge σ.mark.cn pre.length with hlt | hge
      · right; rw [wrap_of_neg hlt (by omega)]; omega
      · left; rw [wrap_of_nonneg hge (by omega)]; omega
    · right
      subst hpre
      rcases h.mark with ⟨hm1, hm2⟩ | ⟨hm1, hm2, hm3, hm4⟩
      · simp only [List.length_append] at hm1; omega
      · rw [List.length_nil, wrap_of_nonneg (by omega) (by omega)]; omega

theorem splice_length (t a : List UCS4) (pos : Nat) (h : pos ≤ t.length) : (splice t pos a).length = t.length + a.length := by
  simp [splice]; omega

theorem splice_bytes (t a : List UCS4) (pos : Nat) :
    encodeAll (splice t pos a) = encodeAll (t.take pos) ++ encodeAll a ++ encodeAll (t.drop pos) := by
  simp [splice]

theorem encodeAll_split (t : List UCS4) (pos : Nat) : encodeAll t = encodeAll (t.take pos) ++ encodeAll (t.drop pos) := by
  rw [← encodeAll_append, List.take_append_drop]

theorem Den.insertOwn (h : Den σ [] t post) (hs : σ.b.arr.static = false) (rc : Nat) (hrc : rc ≤ 1) (pos : Nat)
    (hpos : pos ≤ t.length) (a : List UCS4) (ha : ∀ c ∈ a, ¬ Reserved c)
    (hsz : (encodeAll t).length + (encodeAll post).length + (encodeAll a).length < 1073741824)
    (hmk : σ.mark.cn ≤ pos ∨ 3221225472 ≤ σ.mark.cn) :
    ∃ σ', σ.insertOwn rc pos (encodeAll a) a.length = .ok σ' ∧ Den σ' [] (splice t pos a) post ∧ σ'.b.arr.static = false := by
  obtain ⟨σ1, e1, d1, a1, o1, n1, m1⟩ := h.nth pos hpos
  obtain ⟨σ2, e2, d2, a2, o2, n2, m2⟩ := d1.nth 0 (by omega)
  have p1 := bpos_mid [] t post pos hpos
  simp only [encodeAll_nil, List.length_nil, Nat.zero_add] at p1
  simp only [List.length_nil, Nat.zero_add] at e1 e2
  have hm0 : σ2.mark = σ1.mark := by
    rcases m2 with m2 | m2
    · exact m2
    · simp at m2
  have hbp := bpos_le_end t pos
  have hnum := d2.body.num
  simp only [List.nil_append, encodeAll_append, List.length_append] at hnum
  obtain ⟨arr, i1, i2, i3, i4, i5⟩ := insert_spec σ2.b.arr d2.body.wf (by rw [a2, a1]; exact hs) rc hrc (bpos t pos) (by omega)
    (encodeAll a) (by omega)
  unfold Str.insertOwn
  rw [e1, res_bind_ok]
  simp only
  rw [e2, res_bind_ok]
  simp only [deref, res_bind_ok]
  rw [p1, bpos_zero, wrap_of_nonneg (by omega) (by omega), Nat.sub_zero, i1, res_bind_ok]
  have htxt : arr.elems = encodeAll (splice t pos a ++ post) ++ [0#8] := by
    have hte := d2.body.txt
    have hspl := encodeAll_split t pos
    rw [i5, hte]
    simp only [List.nil_append, encodeAll_append, List.append_assoc]
    rw [splice_bytes, hspl]
    have hb : bpos t pos = (encodeAll (t.take pos)).length := rfl
    rw [hb]
    simp
  have hgood : ∀ c ∈ splice t pos a ++ post, ¬ Reserved c := by
    intro c hc
    simp only [splice, List.mem_append] at hc
    rcases hc with ((hc | hc) | hc) | hc
    · exact h.body.good c (by simp [List.mem_of_mem_take hc])
    · exact ha c hc
    · exact h.body.good c (by simp [List.mem_of_mem_drop hc])
    · exact h.body.good c (by simp [hc])
  have hcn : σ2.mark.cn ≤ pos ∨ 3221225472 ≤ σ2.mark.cn := by
    rw [hm0]
    rcases m1 with m1 | m1
    · rw [m1]; exact hmk
    · rw [m1.1]; left; simp
  refine ⟨_, rfl, ⟨⟨i2, ?_, ?_, ?_, Or.inl rfl⟩, ?_, ?_, ?_, ?_⟩, i3⟩
  · simpa using htxt
  · simpa using hgood
  · simp only [i4]; omega
  · simp only [d2.off]
  · simp only; rw [n2, n1, h.num, splice_length t a pos hpos]
  · rcases d2.mark with ⟨k1, k2⟩ | k
    · left
      simp only [List.nil_append, List.length_append] at k1
      have hc : σ2.mark.cn ≤ pos := by
        rcases hcn with hcn | hcn
        · exact hcn
        · have := h.cap; simp at this; omega
      refine ⟨by simp [splice]; omega, ?_⟩
      simp only
      rw [k2]
      unfold bpos
      simp only [List.nil_append, splice]
      congr 2
      rw [List.take_append_of_le_length (by omega), List.take_append_of_le_length (by simp; omega),
        List.take_append_of_le_length (by simp; omega), List.take_append_of_le_length (by simp; omega), List.take_take]
      congr 1; omega
    · right; exact k
  · simp only [List.length_nil, Nat.zero_add, true_and]
    rw [splice_length t a pos hpos]
    rcases hcn with hcn | hcn
    · left; omega
    · right; exact hcn

end

end Strpp.SV
