import Verif.Model.Format
import Verif.Spec.Format
import Verif.Proof.Variant
import Verif.Proof.StrInt
namespace Strpp.Fmt
open Spec SV Var

/-- no script has a digit with this code -/
def NotDigit (c : UCS4) : Prop := ∀ v, ¬ IsDigit c.toNat v

theorem has10 (c : UCS4) (v : Nat) : HasDigit 10 c v ↔ IsDigit c.toNat v := by
  constructor
  · rintro ⟨h | h, -⟩
    · exact h
    · omega
  · intro h
    refine ⟨Or.inl h, ?_⟩
    obtain ⟨b, -, -, h, -⟩ := h
    omega

theorem dig (memo : Int) (h0 : 0 ≤ memo) (hm : memo < 20) (c : UCS4) :
    (∃ v : Nat, v ≤ 9 ∧ IsDigit c.toNat v ∧ digit memo c 10 = .ok (v : Int)) ∨ (NotDigit c ∧ digit memo c 10 = .ok (-1)) := by
  obtain ⟨d, e, h1, h2⟩ := digit_iff memo h0 hm c 10
  rcases h1 with rfl | h1
  · refine Or.inr ⟨fun v hv => ?_, e⟩
    have := (h2 v).mpr ((has10 c v).mpr hv)
    omega
  · obtain ⟨v, rfl⟩ := Int.eq_ofNat_of_zero_le h1
    have hd := (has10 c v).mp ((h2 v).mp rfl)
    refine Or.inl ⟨v, ?_, hd, e⟩
    obtain ⟨b, -, -, h, -⟩ := hd
    exact h

theorem dig_no (memo : Int) (h0 : 0 ≤ memo) (hm : memo < 20) {c : UCS4} (h : NotDigit c) : digit memo c 10 = .ok (-1) := by
  rcases dig memo h0 hm c with ⟨v, -, h1, -⟩ | ⟨-, h1⟩
  · exact absurd h1 (h v)
  · exact h1

theorem dig_yes (memo : Int) (h0 : 0 ≤ memo) (hm : memo < 20) {c : UCS4} (h : ∃ v, IsDigit c.toNat v) :
    ∃ v : Nat, v ≤ 9 ∧ digit memo c 10 = .ok (v : Int) := by
  rcases dig memo h0 hm c with ⟨v, h1, -, h2⟩ | ⟨h1, -⟩
  · exact ⟨v, h1, h2⟩
  · obtain ⟨v, h⟩ := h; exact absurd h (h1 v)

theorem digit_not (c : Nat) (v : Nat) (h : IsDigit c v) : c ≠ 0x24 ∧ c ≠ 0x25 ∧ c ≠ 0x2A ∧ c ≠ 0x2E ∧ c ≠ 0 := by
  obtain ⟨b, hb, h1, h2, h3⟩ := h
  have hx : ∀ b ∈ digitBlocks, 0x30 ≤ b.1 := by decide +kernel
  have := hx b hb
  omega

theorem nul_not : NotDigit 0#32 := fun v h => (digit_not _ _ h).2.2.2.2 rfl
theorem dot_not : NotDigit 0x2E#32 := fun v h => (digit_not _ _ h).2.2.2.1 rfl

theorem charAt_append (a : List UCS4) (c : UCS4) (r : List UCS4) : charAt (a ++ c :: r) a.length = c := by
  unfold charAt; simp

theorem charAt_eq {f a : List UCS4} {c : UCS4} {r : List UCS4} (h : f = a ++ c :: r) {i : Nat} (hi : i = a.length) : charAt f i = c := by
  subst h; subst hi; exact charAt_append a c r

section
variable (memo : Int) (h0 : 0 ≤ memo) (hm : memo < 20)
include h0 hm

omit h0 hm in
theorem fold_ge (vs : List Nat) : ∀ n : Nat, n ≤ vs.foldl (fun n v => n * 10 + v) n := by
  induction vs with
  | nil => intro n; exact Nat.le_refl _
  | cons v vs ih => intro n; have := ih (n * 10 + v); simp only [List.foldl_cons]; omega

omit h0 hm in
theorem Digits.each {ds : List UCS4} : ∀ {vs : List Nat}, Digits 10 ds vs → ∀ x ∈ ds, ∃ v, IsDigit x.toNat v := by
  induction ds with
  | nil => intro vs _ x hx; cases hx
  | cons c ds ih =>
    intro vs h x hx
    cases vs with
    | nil => exact h.elim
    | cons v vs =>
      rcases List.mem_cons.1 hx with rfl | hx
      · exact ⟨v, (has10 _ _).1 h.1⟩
      · exact ih h.2 x hx

theorem dig_val {c : UCS4} {v : Nat} (h : HasDigit 10 c v) : digit memo c 10 = .ok (v : Int) := by
  obtain ⟨d, e, h1, h2⟩ := digit_iff memo h0 hm c 10
  have h3 : d = (v : Int) := (h2 v).2 h
  rw [h3] at e
  exact e

theorem digitLoop_spec (f : List UCS4) (e : UCS4) (he : NotDigit e) (r : List UCS4) :
    ∀ (ds : List UCS4) (vs : List Nat) (a : List UCS4) (c : UCS4) (n fuel : Nat), f = a ++ c :: (ds ++ e :: r) → Digits 10 ds vs →
      n ≤ 2147483647 → ds.length + 1 ≤ fuel →
      digitLoop memo f fuel a.length c n = if vs.foldl (fun n v => n * 10 + v) n ≤ 2147483647 then
        .ok (a.length + ds.length + 1, e, (vs.foldl (fun n v => n * 10 + v) n : Nat)) else .error .ub := by
  intro ds
  induction ds with
  | nil =>
    intro vs a c n fuel hf hd hn hfu
    cases vs with
    | cons v vs => exact hd.elim
    | nil =>
    obtain ⟨fuel, rfl⟩ : ∃ m, fuel = m + 1 := ⟨fuel - 1, by omega⟩
    have hc : charAt f (a.length + 1) = e := charAt_eq (a := a ++ [c]) (r := r) (by rw [hf]; simp) (by simp)
    rw [digitLoop, if_pos (by rw [hf]; simp), hc, dig_no memo h0 hm he, res_bind_ok, if_neg (by decide)]
    simp [hn]
  | cons x ds ih =>
    intro vs a c n fuel hf hd hn hfu
    cases vs with
    | nil => exact hd.elim
    | cons v vs =>
    obtain ⟨fuel, rfl⟩ : ∃ m, fuel = m + 1 := ⟨fuel - 1, by omega⟩
    have hc : charAt f (a.length + 1) = x := charAt_eq (a := a ++ [c]) (r := ds ++ e :: r) (by rw [hf]; simp) (by simp)
    have ev := dig_val memo h0 hm hd.1
    simp only [List.length_cons] at hfu
    rw [digitLoop, if_pos (by rw [hf]; simp), hc, ev, res_bind_ok, if_pos (by omega)]
    unfold addDigit
    simp only [List.foldl_cons]
    by_cases hov : n * 10 + v ≤ 2147483647
    · rw [if_neg (by omega), res_bind_ok]
      have g := ih vs (a ++ [c]) x (n * 10 + v) fuel (by rw [hf]; simp) hd.2 hov (by omega)
      rw [List.length_append, List.length_singleton] at g
      have hcast : ((n * 10 + v : Nat) : Int) = (n : Int) * 10 + v := by omega
      rw [hcast] at g
      rw [g, List.length_cons]
      have : a.length + 1 + ds.length + 1 = a.length + (ds.length + 1) + 1 := by omega
      rw [this]
      by_cases hb : vs.foldl (fun n v => n * 10 + v) (n * 10 + v) ≤ 2147483647
      · exact (if_pos hb).trans (if_pos hb).symm
      · exact (if_neg hb).trans (if_neg hb).symm
    · rw [if_pos (by omega)]
      have := fold_ge vs (n * 10 + v)
      have hb : ¬ vs.foldl (fun n v => n * 10 + v) (n * 10 + v) ≤ 2147483647 := by omega
      exact (if_neg hb).symm

theorem sizeAt_val (f : List UCS4) (e : UCS4) (he : NotDigit e) (hs : e ≠ 0x2A#32) (r ds a : List UCS4) (vs : List Nat)
    (hf : f = a ++ (ds ++ e :: r)) (hd : Digits 10 ds vs) :
    sizeAt memo f a.length (charAt f a.length) = if numeral 10 vs ≤ 2147483647 then
      .ok (a.length + ds.length, e, (numeral 10 vs : Nat)) else .error .ub := by
  cases ds with
  | nil =>
    cases vs with
    | cons v vs => exact hd.elim
    | nil =>
    rw [charAt_eq hf rfl]
    unfold sizeAt
    rw [if_neg (by simpa using hs), dig_no memo h0 hm he, res_bind_ok, if_neg (by decide)]
    rfl
  | cons x ds =>
    cases vs with
    | nil => exact hd.elim
    | cons v vs =>
    rw [charAt_eq (by rw [hf]; rfl) rfl]
    have hx : IsDigit x.toNat v := (has10 _ _).1 hd.1
    have ev := dig_val memo h0 hm hd.1
    have hv : v < 10 := by
      rcases hd.1.2 with h | h
      · exact h
      · omega
    unfold sizeAt
    rw [if_neg, ev, res_bind_ok, if_pos (by omega)]
    · rw [digitLoop_spec memo h0 hm f e he r ds vs a x v (f.length + 1) (by rw [hf]; simp) hd.2 (by omega) (by rw [hf]; simp; omega)]
      have : numeral 10 (v :: vs) = vs.foldl (fun n v => n * 10 + v) v := by simp [numeral]
      rw [this, List.length_cons]
      rfl
    · have := (digit_not _ _ hx).2.2.1
      simp only [beq_iff_eq]
      rintro rfl
      exact this rfl

theorem sizeAt_spec (f : List UCS4) (e : UCS4) (he : NotDigit e) (hs : e ≠ 0x2A#32) (r ds a : List UCS4) (hf : f = a ++ (ds ++ e :: r))
    (hd : AreDigits ds) : ∃ n, 0 ≤ n ∧ sizeAt memo f a.length (charAt f a.length) = .ok (a.length + ds.length, e, n) := by
  obtain ⟨vs, h1, h2⟩ := hd
  refine ⟨(numeral 10 vs : Nat), by omega, ?_⟩
  rw [sizeAt_val memo h0 hm f e he hs r ds a vs hf h1, if_pos h2]

theorem numbered_digits (f : List UCS4) (e : UCS4) (he : NotDigit e) (hs : e ≠ 0x24#32) (r ds a : List UCS4) (hf : f = a ++ (ds ++ e :: r))
    (hd : ∀ x ∈ ds, ∃ v, IsDigit x.toNat v) : numbered memo f a.length (charAt f a.length) = .ok (a.length, charAt f a.length) := by
  unfold numbered
  cases ds with
  | nil =>
    rw [charAt_eq hf rfl, dig_no memo h0 hm he, res_bind_ok, if_neg (by simp)]
  | cons x ds =>
    have hne : charAt f (a.length + 1) ≠ 0x24#32 := by
      cases ds with
      | nil => rw [charAt_eq (a := a ++ [x]) (r := r) (c := e) (by rw [hf]; simp) (by simp)]; exact hs
      | cons y ds =>
        rw [charAt_eq (a := a ++ [x]) (c := y) (by rw [hf]; simp; rfl) (by simp)]
        obtain ⟨v, hv⟩ := hd y (by simp)
        have := (digit_not _ _ hv).1
        rintro rfl
        exact this rfl
    obtain ⟨v, hv, ev⟩ := dig_yes memo h0 hm (hd x (by simp))
    rw [show charAt f a.length = x from charAt_eq (by rw [hf]; rfl) rfl, ev, res_bind_ok, if_neg]
    simp [hne]

theorem numbered_spec (f : List UCS4) (e : UCS4) (he : NotDigit e) (hs : e ≠ 0x24#32) (r ds a : List UCS4) (hf : f = a ++ (ds ++ e :: r))
    (hd : AreDigits ds) : numbered memo f a.length (charAt f a.length) = .ok (a.length, charAt f a.length) := by
  obtain ⟨vs, h1, _⟩ := hd
  exact numbered_digits memo h0 hm f e he hs r ds a hf (Digits.each h1)

theorem star_none (junk : BitVec 64) (args : List Variant) (n : Int) (hn : 0 ≤ n) (a : Nat) : star memo junk args n a = .ok a := by
  unfold star; rw [if_neg (by simp; omega)]

theorem directive_spec (junk : BitVec 64) (f : List UCS4) (args : List Variant) (size : List UCS4) (prec : Option (List UCS4)) (conv : UCS4)
    (hv : (Piece.dir size prec conv).Valid) (pre r : List UCS4) (hf : f = pre ++ (Piece.dir size prec conv).render ++ r) (a : Nat) :
    directive memo junk f args pre.length a = (do
      let o ← conversion memo junk args conv a
      .ok (pre.length + (Piece.dir size prec conv).render.length - 1, o.1, o.2)) := by
  obtain ⟨v1, v2, v3, v4, v5, v6⟩ := hv
  unfold directive
  cases prec with
  | none =>
    have hf1 : f = (pre ++ [0x25#32]) ++ (size ++ conv :: r) := by rw [hf]; simp [Piece.render]
    have hl : (pre ++ [0x25#32]).length = pre.length + 1 := by simp
    have g1 := numbered_spec memo h0 hm f conv v3 v6 r size _ hf1 v1
    obtain ⟨n, hn, g2⟩ := sizeAt_spec memo h0 hm f conv v3 v5 r size _ hf1 v1
    rw [hl] at g1 g2
    rw [g1, res_bind_ok]
    simp only
    rw [g2, res_bind_ok]
    simp only
    have hc : charAt f (pre.length + 1 + size.length) = conv := charAt_eq (a := pre ++ [0x25#32] ++ size) (r := r) (by rw [hf1]; simp) (by simp; omega)
    unfold precAt
    rw [hc, if_neg (by simp [v4]), res_bind_ok]
    simp only
    rw [star_none memo h0 hm junk args n hn, res_bind_ok, star_none memo h0 hm junk args 0 (by omega), res_bind_ok]
    have : pre.length + 1 + size.length = pre.length + (Piece.dir size none conv).render.length - 1 := by simp [Piece.render]; omega
    rw [this]
  | some p =>
    have hf1 : f = (pre ++ [0x25#32]) ++ (size ++ 0x2E#32 :: (p ++ conv :: r)) := by rw [hf]; simp [Piece.render]
    have hl : (pre ++ [0x25#32]).length = pre.length + 1 := by simp
    have g1 := numbered_spec memo h0 hm f _ dot_not (by decide) _ size _ hf1 v1
    obtain ⟨n, hn, g2⟩ := sizeAt_spec memo h0 hm f _ dot_not (by decide) _ size _ hf1 v1
    rw [hl] at g1 g2
    rw [g1, res_bind_ok]
    simp only
    rw [g2, res_bind_ok]
    simp only
    have hf2 : f = (pre ++ [0x25#32] ++ size ++ [0x2E#32]) ++ (p ++ conv :: r) := by rw [hf1]; simp
    have hl2 : (pre ++ [0x25#32] ++ size ++ [0x2E#32]).length = pre.length + 1 + size.length + 1 := by simp; omega
    have hc : charAt f (pre.length + 1 + size.length) = 0x2E#32 := charAt_eq (a := pre ++ [0x25#32] ++ size) (r := p ++ conv :: r) (by rw [hf1]; simp) (by simp; omega)
    have hlt : pre.length + 1 + size.length < f.length := by rw [hf1]; simp; omega
    obtain ⟨n2, hn2, g3⟩ := sizeAt_spec memo h0 hm f conv v3 v5 r p _ hf2 (v2 p rfl)
    rw [hl2] at g3
    unfold precAt
    rw [hc, if_pos (by simpa using hlt), g3, res_bind_ok]
    simp only
    rw [star_none memo h0 hm junk args n hn, res_bind_ok, star_none memo h0 hm junk args n2 hn2, res_bind_ok]
    have : pre.length + 1 + size.length + 1 + p.length = pre.length + (Piece.dir size (some p) conv).render.length - 1 := by simp [Piece.render]; omega
    rw [this]

omit h0 hm in
theorem conversion_spec (junk : BitVec 64) (args : List Variant) (size : List UCS4) (prec : Option (List UCS4)) (conv : UCS4) (a : Nat) :
    (∃ e, conversion memo junk args conv a = .error e ∧ (Piece.dir size prec conv).expand memo junk (args.drop a) = .error e) ∨
    ∃ a' t, conversion memo junk args conv a = .ok (a', t) ∧ (Piece.dir size prec conv).expand memo junk (args.drop a) = .ok (t, args.drop a') := by
  unfold conversion Piece.expand
  simp only [beq_iff_eq, Bool.or_eq_true]
  have hd : args.drop a = match args[a]? with | some v => v :: args.drop (a + 1) | none => [] := by
    by_cases h : a < args.length
    · rw [List.drop_eq_getElem_cons h, List.getElem?_eq_getElem h]
    · rw [List.drop_of_length_le (by omega), List.getElem?_eq_none (by omega)]
  unfold arg
  rw [hd]
  by_cases h1 : conv = 0x73#32
  · rw [if_pos h1, if_pos h1]
    cases args[a]? with
    | none => exact Or.inl ⟨_, rfl, rfl⟩
    | some v =>
      simp only [res_bind_ok]
      cases asStrval memo junk v with
      | error e => exact Or.inl ⟨e, rfl, rfl⟩
      | ok r => exact Or.inr ⟨_, _, rfl, rfl⟩
  · rw [if_neg h1, if_neg h1]
    by_cases h2 : conv = 0x64#32 ∨ conv = 0x66#32 ∨ conv = 0x67#32
    · rw [if_pos h2, if_pos h2]
      cases args[a]? with
      | none => exact Or.inl ⟨_, rfl, rfl⟩
      | some v =>
        simp only [res_bind_ok]
        cases asJson (-1) v with
        | error e => exact Or.inl ⟨e, rfl, rfl⟩
        | ok r => exact Or.inr ⟨_, _, rfl, rfl⟩
    · rw [if_neg h2, if_neg h2]
      refine Or.inr ⟨a, [], rfl, ?_⟩
      rw [← hd]

/-- the rest of the format string may be a single percent sign -/
def Tail (t : List UCS4) : Prop := t = [] ∨ t = [0x25#32]

omit h0 hm in
theorem tail_spec (junk : BitVec 64) (f : List UCS4) (args : List Variant) (pre tail : List UCS4) (hf : f = pre ++ tail) (ht : Tail tail) (a fuel : Nat)
    (hfu : tail.length + 1 ≤ fuel) : formatLoop memo junk f args fuel pre.length a = .ok tail := by
  rcases ht with rfl | rfl
  · obtain ⟨fuel, rfl⟩ : ∃ m, fuel = m + 1 := ⟨fuel - 1, by omega⟩
    rw [formatLoop, if_neg (by rw [hf]; simp)]
  · simp only [List.length_singleton] at hfu
    obtain ⟨fuel, rfl⟩ : ∃ m, fuel = m + 2 := ⟨fuel - 2, by omega⟩
    have hc := charAt_eq hf rfl
    have hl : f.length = pre.length + 1 := by rw [hf]; simp
    rw [formatLoop, if_pos (by omega), if_pos (by simp [hl]), formatLoop, if_neg (by omega), res_bind_ok, hc]

omit h0 hm in
theorem text_spec (junk : BitVec 64) (f : List UCS4) (args : List Variant) : ∀ (t pre r : List UCS4) (a fuel : Nat), f = pre ++ t ++ r → 0x25#32 ∉ t →
    formatLoop memo junk f args (fuel + t.length) pre.length a = (do
      let x ← formatLoop memo junk f args fuel (pre.length + t.length) a
      .ok (t ++ x)) := by
  intro t
  induction t with
  | nil =>
    intro pre r a fuel _ _
    simp only [List.length_nil, Nat.add_zero, List.nil_append]
    cases formatLoop memo junk f args fuel pre.length a <;> rfl
  | cons c t ih =>
    intro pre r a fuel hf hn
    simp only [List.mem_cons, not_or] at hn
    have hc : charAt f pre.length = c := charAt_eq (r := t ++ r) (by rw [hf]; simp) rfl
    have := ih (pre ++ [c]) r a fuel (by rw [hf]; simp) hn.2
    rw [List.length_append, List.length_singleton] at this
    rw [List.length_cons, show fuel + (t.length + 1) = (fuel + t.length) + 1 by omega, formatLoop, if_pos (by rw [hf]; simp),
      if_pos (by rw [hc]; simp [Ne.symm hn.1]), this, hc, show pre.length + 1 + t.length = pre.length + (t.length + 1) by omega]
    cases formatLoop memo junk f args fuel (pre.length + (t.length + 1)) a <;> rfl

theorem format_spec (junk : BitVec 64) (f : List UCS4) (args : List Variant) (tail : List UCS4) (ht : Tail tail) :
    ∀ (ps : List Piece) (pre : List UCS4) (a fuel : Nat), f = pre ++ renderAll ps ++ tail → (∀ p ∈ ps, p.Valid) → (renderAll ps).length + tail.length + 1 ≤ fuel →
      formatLoop memo junk f args fuel pre.length a = (do
        let x ← expandAll memo junk ps (args.drop a)
        .ok (x ++ tail)) := by
  intro ps
  induction ps with
  | nil =>
    intro pre a fuel hf _ hfu
    rw [tail_spec memo junk f args pre tail (by rw [hf]; simp [renderAll]) ht a fuel (by omega)]
    rfl
  | cons p ps ih =>
    intro pre a fuel hf hv hfu
    have hr : renderAll (p :: ps) = p.render ++ renderAll ps := by simp [renderAll]
    rw [hr] at hf hfu
    rw [List.length_append] at hfu
    have ih' := ih (pre ++ p.render)
    have hv' : ∀ p ∈ ps, p.Valid := fun q hq => hv q (by simp [hq])
    have hp := hv p (by simp)
    cases p with
    | text t =>
      have e : fuel = (fuel - t.length) + t.length := by simp only [Piece.render] at hfu; omega
      rw [e, text_spec memo junk f args t pre (renderAll ps ++ tail) a _ (by rw [hf]; simp [Piece.render]) hp]
      have := ih' a (fuel - t.length) (by rw [hf]; simp) hv' (by simp only [Piece.render] at hfu; omega)
      rw [List.length_append] at this
      simp only [Piece.render] at this
      rw [this, expandAll]
      simp only [Piece.expand, res_bind_ok]
      cases expandAll memo junk ps (args.drop a) with
      | error e => rfl
      | ok x => simp only [res_bind_ok, List.append_assoc]
    | dir size prec conv =>
      obtain ⟨fuel, rfl⟩ : ∃ m, fuel = m + 1 := ⟨fuel - 1, by omega⟩
      have hl2 : 2 ≤ ((Piece.dir size prec conv).render).length := by cases prec <;> simp [Piece.render] <;> omega
      have hlen : f.length = pre.length + (Piece.dir size prec conv).render.length + (renderAll ps).length + tail.length := by
        rw [hf]; simp only [List.length_append]; omega
      obtain ⟨rr, hrr⟩ : ∃ rr, (Piece.dir size prec conv).render = 0x25#32 :: rr := by cases prec <;> exact ⟨_, rfl⟩
      have hc : charAt f pre.length = 0x25#32 := charAt_eq (r := rr ++ renderAll ps ++ tail) (by rw [hf, hrr]; simp) rfl
      rw [formatLoop, if_pos (by omega), if_neg (by rw [hc]; simp; omega),
        directive_spec memo h0 hm junk f args size prec conv hp pre (renderAll ps ++ tail) (by rw [hf]; simp) a, expandAll]
      rcases conversion_spec memo junk args size prec conv a with ⟨e, e1, e2⟩ | ⟨a', t, e1, e2⟩
      · rw [e1, e2]; rfl
      · rw [e1, e2]
        simp only [res_bind_ok]
        have := ih' a' fuel (by rw [hf]; simp) hv' (by omega)
        rw [List.length_append] at this
        rw [show pre.length + (Piece.dir size prec conv).render.length - 1 + 1 = pre.length + (Piece.dir size prec conv).render.length by omega, this]
        cases expandAll memo junk ps (args.drop a') with
        | error e => rfl
        | ok x => simp only [res_bind_ok, List.append_assoc]

end

end Strpp.Fmt
