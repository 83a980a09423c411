import Verif.Proof.RawFind
set_option linter.unusedVariables false
set_option linter.unusedSimpArgs false
namespace Strpp.SV.Raw
open Spec Arr

/-! ### strings that are not raw -/

section
variable {σ τ : Str} (h : isRaw σ.b = false)

theorem numChars_text {b : SBody} (h : isRaw b = false) : numChars b = (do let b ← b.count; .ok (b, b.nc)) := by
  unfold numChars; rw [if_neg (by simp [h])]

theorem ofBody_text {b : SBody} (h : isRaw b = false) : ofBody b = Str.ofBody b := by
  unfold ofBody Str.ofBody
  rw [numChars_text h]
  cases b.count <;> rfl

include h in
theorem nth_text (k : Nat) : Raw.nth σ k = σ.nth k := by
  unfold Raw.nth Str.nth nthChar
  simp only [h, Bool.false_eq_true, if_false]

include h in
theorem nthC_text (k : Nat) : Raw.nthC σ k = σ.nthC k := by
  unfold Raw.nthC Str.nthC; rw [nth_text h]

include h in
theorem numBytes_text : Raw.numBytes σ = σ.numBytes := by
  unfold Raw.numBytes Str.numBytes; rw [nthC_text h, nthC_text h]

include h in
theorem charAt_text (p : Nat) : Raw.charAt σ p = (do let r ← utf8Get σ.b.arr.mem p; .ok r.1) := by
  unfold Raw.charAt; rw [if_neg (by simp [h])]

include h in
theorem get_text (i : Int) : Raw.get σ i = σ.get i := by
  unfold Raw.get Str.get
  simp only [nthC_text h, charAt_text h]
  rfl

include h in
theorem bytes_text : Raw.bytes σ = σ.bytes := by
  unfold Raw.bytes Str.bytes; rw [nthC_text h, nthC_text h]

theorem compare_text (h1 : isRaw σ.b = false) (h2 : isRaw τ.b = false) : Raw.compare σ τ = σ.compare τ := by
  unfold Raw.compare Str.compare
  rw [nthC_text h1, nthC_text h2, numBytes_text h1, numBytes_text h2]

theorem eq_text (h1 : isRaw σ.b = false) (h2 : isRaw τ.b = false) : Raw.eq σ τ = σ.eq τ := by
  unfold Raw.eq Str.eq
  rw [compare_text h1 h2]

theorem bind_assoc' {α β γ : Type} (x : Res α) (f : α → Res β) (g : β → Res γ) : ((x >>= f) >>= g) = (x >>= fun a => f a >>= g) := by
  cases x <;> rfl

include h in
theorem findLoop_text (hit : UCS4 → Res Bool) : ∀ fuel n, Raw.findLoop hit σ fuel n = σ.findLoop hit fuel n := by
  intro fuel
  induction fuel with
  | zero => intro n; rfl
  | succ fuel ih =>
    intro n
    unfold Raw.findLoop Str.findLoop
    simp only [nthC_text h, charAt_text h, ih, bind_assoc', res_bind_ok]
    rfl

include h in
theorem rfindLoop_text (hit : UCS4 → Res Bool) : ∀ fuel n, Raw.rfindLoop hit σ fuel n = σ.rfindLoop hit fuel n := by
  intro fuel
  induction fuel with
  | zero => intro n; rfl
  | succ fuel ih =>
    intro n
    unfold Raw.rfindLoop Str.rfindLoop
    simp only [nthC_text h, charAt_text h, ih, bind_assoc', res_bind_ok]
    rfl

include h in
theorem has_text (ch : UCS4) : Raw.has σ ch = σ.has ch := by
  have key : ∀ fuel i, Raw.memLoop σ ch fuel i = σ.memLoop ch fuel i := by
    intro fuel
    induction fuel with
    | zero => intro i; rfl
    | succ fuel ih => intro i; unfold Raw.memLoop Str.memLoop; rw [get_text h]; simp only [ih]
  unfold Raw.has Str.has; rw [key]

include h in
theorem hasNot_text (ch : UCS4) : Raw.hasNot σ ch = σ.hasNot ch := by
  unfold Raw.hasNot Str.hasNot; rw [has_text h]

theorem findStr_text (h1 : isRaw σ.b = false) (h2 : isRaw τ.b = false) (after : Int) : Raw.findStr σ τ after = σ.findStr τ after := by
  have key : ∀ a l fuel n, Raw.findStrLoop σ τ a l fuel n = σ.findStrLoop τ a l fuel n := by
    intro a l fuel
    induction fuel with
    | zero => intro i; rfl
    | succ fuel ih => intro i; unfold Raw.findStrLoop Str.findStrLoop; rw [nthC_text h1]; simp only [ih, numBytes_text h2]; rfl
  unfold Raw.findStr Str.findStr
  rw [nthC_text h2]
  simp only [key]

end

theorem notRaw_of {b : SBody} {cs : List UCS4} (h : BDen b cs) : isRaw b = false := by
  have h1 := h.num
  have h2 := h.small
  have h3 := encodeAll_length_ge cs
  unfold isRaw rawMark
  rcases h.nc with e | e <;> rw [e] <;> simp <;> omega

section
variable {σ : Str} {pre t post : List UCS4}

theorem notRaw (h : Den σ pre t post) : isRaw σ.b = false := notRaw_of h.body

theorem copyBody_text (h : Den σ pre t post) : Raw.copyBody σ = σ.copyBody := by
  obtain ⟨σ1, e1, d1, -, o1, n1, -⟩ := h.nth 0 (Nat.zero_le _)
  obtain ⟨σ2, e2, d2, -⟩ := d1.nth σ.num (by rw [h.num]; omega)
  unfold Raw.copyBody Str.copyBody
  rw [nth_text (notRaw h), e1, res_bind_ok, res_bind_ok]
  simp only
  rw [nth_text (notRaw d1), e2, res_bind_ok, res_bind_ok]
  simp only
  unfold mkLike
  simp only [notRaw d2, Bool.false_eq_true, if_false]

theorem insertOwn_text (h : Den σ pre t post) (rc pos : Nat) (hp : pos ≤ t.length) (ab : List Byte) (an : Nat) :
    Raw.insertOwn rc σ pos ab an = σ.insertOwn rc pos ab an := by
  obtain ⟨σ1, e1, d1, -, o1, n1, -⟩ := h.nth pos hp
  obtain ⟨σ2, e2, d2, -⟩ := d1.nth 0 (Nat.zero_le _)
  unfold Raw.insertOwn Str.insertOwn insertBytes
  rw [nth_text (notRaw h), e1, res_bind_ok, res_bind_ok]
  simp only
  rw [nth_text (notRaw d1), e2, res_bind_ok, res_bind_ok]
  simp only [deref, res_bind_ok]
  rw [if_neg (by simp [notRaw d2])]
  cases σ2.b.arr.insert rc _ ab <;> rfl

end

/-! ### sums -/

theorem plus_spec {σ τ : Str} {pre post : List Byte} {cs ds : List UCS4} (h : RawOf σ pre (encodeAll cs) post) (hne : cs ≠ [])
    (hg : ∀ c ∈ cs, ¬ Reserved c) (hgd : ∀ c ∈ ds, ¬ Reserved c)
    (hb : Raw.bytes τ = .ok (encodeAll ds)) (hl : Raw.numBytes τ = .ok (encodeAll ds).length) (hn : τ.num = ds.length)
    (hsz : (encodeAll cs).length + (encodeAll ds).length < 1073741824) :
    ∃ σ', Raw.plus σ τ = .ok σ' ∧ Den σ' [] (cs ++ ds) [] := by
  obtain ⟨rest, hm⟩ := h.mem
  obtain ⟨z, r2, hz⟩ : ∃ z r2, post ++ 0#8 :: rest = z :: r2 := by
    cases post with
    | nil => exact ⟨_, _, rfl⟩
    | cons z r => exact ⟨_, _, rfl⟩
  have hlen : (if (encodeAll cs).length + (encodeAll ds).length ≤ (encodeAll cs).length then 0
      else (encodeAll cs).length + (encodeAll ds).length) ≤ 2147483647 := by split <;> omega
  obtain ⟨b, m1, m2, m3, m4⟩ := mkBody_spec σ.b.arr.mem pre.length (if (encodeAll cs).length + (encodeAll ds).length ≤ (encodeAll cs).length then 0
      else (encodeAll cs).length + (encodeAll ds).length) pre cs z r2 (by rw [hm, hz]) rfl (fun e => absurd e hne) hg (by omega) hlen
  obtain ⟨b', e1, e2, e3, e4⟩ := SV.ofBody_spec m2
  unfold Raw.plus
  rw [h.nthC 0 (Nat.zero_le _), res_bind_ok]
  simp only [deref, res_bind_ok, Nat.add_zero]
  rw [h.numBytes, res_bind_ok, hl, res_bind_ok, m1, res_bind_ok, ofBody_text (notRaw_of m2), e1, res_bind_ok]
  unfold Raw.insert
  rw [hb, res_bind_ok]
  have hd := Den.whole e2
  simp only
  rw [insertOwn_text hd 1 cs.length (Nat.le_refl _), hn]
  obtain ⟨σ', k1, k2, k3⟩ := hd.insertOwn (by show b'.arr.static = false; rw [e4]; exact m4) 1 (Nat.le_refl _) cs.length (Nat.le_refl _) ds hgd
    (by simp; omega) (Or.inl (by simp))
  refine ⟨σ', k1, ?_⟩
  have : splice cs cs.length ds = cs ++ ds := by simp [splice]
  rwa [this] at k2

theorem ascii_bytes : ∀ (u : List Byte), (∀ b ∈ u, b.toNat < 128) → encodeAll (u.map charOf) = u ∧ (∀ c ∈ u.map charOf, ¬ Reserved c) := by
  intro u
  induction u with
  | nil => intro _; exact ⟨rfl, by simp⟩
  | cons b u ih =>
    intro h
    obtain ⟨i1, i2⟩ := ih (fun x hx => h x (List.mem_cons_of_mem _ hx))
    have hb := h b (List.mem_cons_self ..)
    have hp : ∀ b : Byte, b.toNat < 128 → utf8Put (charOf b) = [b] ∧ ¬ (Reserved (charOf b)) := by
      intro b hb'
      have e : (charOf b).toNat = b.toNat := by
        unfold charOf; rw [if_pos hb']; simp; omega
      constructor
      · clear e; revert b; decide +kernel
      · rintro (h | h)
        · omega
        · rw [h] at e
          have : (0xFFFFFFFF#32).toNat = 4294967295 := rfl
          omega
    refine ⟨?_, ?_⟩
    · rw [List.map_cons, encodeAll_cons, i1, (hp b hb).1]; rfl
    · intro c hc
      rw [List.map_cons] at hc
      rcases List.mem_cons.mp hc with rfl | hc
      · exact (hp b hb).2
      · exact i2 c hc

/-! ### case -/

theorem toCase_spec {σ : Str} {cs : List UCS4} (h : RawOf σ [] (encodeAll cs) []) (hs : σ.b.arr.static = false)
    (hg : ∀ c ∈ cs, ¬ Reserved c) (hm : σ.mark = ⟨0, 0⟩)
    {conv : Int → UCS4 → Res (UCS4 × Option Int)} {M : Int} {g : UCS4 → UCS4} (hc : Conv conv M g) (memo : Int) (h0 : 0 ≤ memo) (hM : memo < M)
    (hsz : (encodeAll (cs.map g)).length < 1073741824) :
    ∃ σ', Raw.toCase conv memo σ = .ok σ' ∧ Den σ' [] (cs.map g) [] := by
  have hden : BDen { σ.b with nc := 0 } cs := ⟨h.wf, by have := h.txt; simpa using this, hg, h.small, Or.inl rfl⟩
  have hgood : ∀ c ∈ cs.map g, ¬ Reserved c := by
    intro c hc'
    obtain ⟨d, hd, rfl⟩ := List.mem_map.mp hc'
    exact hc.good d (hg d hd)
  have eq := case_after hc cs (false, memo) h0 hM
  have hwr : wrap (-1 + 1) = 0 := by decide
  obtain ⟨b', t1, t2, t3, t4⟩ := transform_spec _ (caseX conv) (caseF conv) ((case_behaves hc).at hden) (false, memo) ⟨h0, hM⟩ 1 (Nat.le_refl _) hden hs (-1) 0 hwr
    (by rw [eq]; exact hgood) (by rw [eq]; exact hsz)
  rw [eq] at t2 t3
  have hcase : ∃ b3, SBody.toCase conv memo 1 σ.b = .ok b3 ∧ BDen b3 (cs.map g) := by
    unfold SBody.toCase
    have e : SBody.transform (caseX conv) (false, memo) 1 σ.b (-1) = SBody.transform (caseX conv) (false, memo) 1 { σ.b with nc := 0 } (-1) := rfl
    rw [e, t1, res_bind_ok]
    simp only
    split
    · exact ⟨_, rfl, ⟨t2.wf, t2.txt, t2.good, t2.small, Or.inl rfl⟩⟩
    · exact ⟨_, rfl, t2⟩
  obtain ⟨b3, k1, k2⟩ := hcase
  unfold Raw.toCase
  rw [k1, res_bind_ok, numChars_text (notRaw_of k2)]
  obtain ⟨b4, e1, e2, e3, e4⟩ := k2.count
  rw [e1, res_bind_ok, res_bind_ok]
  refine ⟨_, rfl, ⟨by simpa using e2, h.off, by show b4.nc = _; exact e3, Or.inl ?_, Or.inl ?_⟩⟩
  · simp only [hm]; exact ⟨by simp, by simp⟩
  · simp only [hm]; simp

end Strpp.SV.Raw
