import Verif.Props.Format
import Verif.Props.VariantExact
import Verif.Spec.FormatExact
/-! C85: `StrVal::format` of any format string and arguments. -/
set_option linter.unusedSimpArgs false
set_option linter.unusedVariables false
set_option linter.unusedSectionVars false
namespace Strpp.Fmt
open Spec SV Var

/-- the character at the end of `a` -/
def hd (r : List UCS4) : UCS4 := r.head?.getD 0#32

theorem charAt_hd {f a r : List UCS4} (h : f = a ++ r) {i : Nat} (hi : i = a.length) : charAt f i = hd r := by
  subst h; subst hi
  cases r with
  | nil => unfold charAt hd; simp
  | cons c r => rw [charAt_append]; rfl

theorem hd_not {r : List UCS4} (h : NoDigit 10 r) : NotDigit (hd r) := by
  cases r with
  | nil => exact nul_not
  | cons c r => exact fun v hv => h v ((has10 c v).mpr hv)

section
variable (memo : Int) (h0 : 0 ≤ memo) (hm : memo < 20)
include h0 hm

theorem digitLoop_gen (f rest : List UCS4) (hr : NoDigit 10 rest) :
    ∀ (ds : List UCS4) (vs : List Nat) (a : List UCS4) (c : UCS4) (n fuel : Nat), f = a ++ c :: (ds ++ rest) → Digits 10 ds vs →
      n ≤ 2147483647 → ds.length + 1 ≤ fuel →
      digitLoop memo f fuel a.length c n = if vs.foldl (fun n v => n * 10 + v) n ≤ 2147483647 then
        .ok (a.length + ds.length + 1, hd rest, (vs.foldl (fun n v => n * 10 + v) n : Nat)) else .error .ub := by
  intro ds
  induction ds with
  | nil =>
    intro vs a c n fuel hf hd' hn hfu
    cases vs with
    | cons v vs => exact hd'.elim
    | nil =>
    obtain ⟨fuel, rfl⟩ : ∃ m, fuel = m + 1 := ⟨fuel - 1, by omega⟩
    have hc : charAt f (a.length + 1) = hd rest := charAt_hd (a := a ++ [c]) (by rw [hf]; simp) (by simp)
    rw [digitLoop, if_pos (by rw [hf]; simp), hc, dig_no memo h0 hm (hd_not hr), res_bind_ok, if_neg (by decide)]
    simp [hn]
  | cons x ds ih =>
    intro vs a c n fuel hf hd' hn hfu
    cases vs with
    | nil => exact hd'.elim
    | cons v vs =>
    obtain ⟨fuel, rfl⟩ : ∃ m, fuel = m + 1 := ⟨fuel - 1, by omega⟩
    have hc : charAt f (a.length + 1) = x := charAt_eq (a := a ++ [c]) (r := ds ++ rest) (by rw [hf]; simp) (by simp)
    have ev := dig_val memo h0 hm hd'.1
    simp only [List.length_cons] at hfu
    rw [digitLoop, if_pos (by rw [hf]; simp), hc, ev, res_bind_ok, if_pos (by omega)]
    unfold addDigit
    simp only [List.foldl_cons]
    by_cases hov : n * 10 + v ≤ 2147483647
    · rw [if_neg (by omega), res_bind_ok]
      have g := ih vs (a ++ [c]) x (n * 10 + v) fuel (by rw [hf]; simp) hd'.2 hov (by omega)
      rw [List.length_append, List.length_singleton] at g
      have hcast : ((n * 10 + v : Nat) : Int) = (n : Int) * 10 + v := by omega
      rw [hcast] at g
      rw [g, List.length_cons]
      have : a.length + 1 + ds.length + 1 = a.length + (ds.length + 1) + 1 := by omega
      rw [this]
      by_cases hb : vs.foldl (fun n v => n * 10 + v) (n * 10 + v) ≤ 2147483647
      · exact (if_pos hb).trans (if_pos hb).symm
      · exact (if_neg hb).trans (if_neg hb).symm
    · rw [if_pos (by omega)]
      have := fold_ge vs (n * 10 + v)
      have hb : ¬ vs.foldl (fun n v => n * 10 + v) (n * 10 + v) ≤ 2147483647 := by omega
      exact (if_neg hb).symm

/-- a number, at the end of `a` -/
theorem sizeAt_gen {f a r rest : List UCS4} {n : Nat} (hf : f = a ++ r) (hn : NumberAt r n rest) (hs : r.head? ≠ some 0x2A#32) :
    sizeAt memo f a.length (charAt f a.length) = if n ≤ 2147483647 then .ok (f.length - rest.length, hd rest, (n : Int)) else .error .ub := by
  obtain ⟨ds, vs, rfl, hd', hr, rfl⟩ := hn
  rw [charAt_hd hf rfl]
  cases ds with
  | nil =>
    cases vs with
    | cons v vs => exact hd'.elim
    | nil =>
    simp only [List.nil_append] at hs hf ⊢
    unfold sizeAt
    have h1 : hd rest ≠ 0x2A#32 := by
      cases rest with
      | nil => decide
      | cons c rest => intro h; exact hs (by rw [List.head?_cons]; exact congrArg some h)
    rw [if_neg (by simpa using h1), dig_no memo h0 hm (hd_not hr), res_bind_ok, if_neg (by decide)]
    have : numeral 10 [] = 0 := rfl
    rw [this, if_pos (by decide), hf, List.length_append, Nat.add_sub_cancel]; rfl
  | cons c ds =>
    cases vs with
    | nil => exact hd'.elim
    | cons v vs =>
    have ev := dig_val memo h0 hm hd'.1
    have hv9 : v ≤ 9 := by
      obtain ⟨h | h, -⟩ := hd'.1
      · obtain ⟨b, -, -, h, -⟩ := h; omega
      · omega
    unfold sizeAt
    have h1 : hd (c :: ds ++ rest) = c := rfl
    have h2 : c ≠ 0x2A#32 := by
      rintro rfl
      exact (digit_not _ _ ((has10 _ v).mp hd'.1)).2.2.1 rfl
    rw [h1, if_neg (by simpa using h2), ev, res_bind_ok, if_pos (by omega)]
    rw [digitLoop_gen memo h0 hm f rest hr ds vs a c v (f.length + 1) (by rw [hf]; simp) hd'.2 (by omega) (by rw [hf]; simp; omega)]
    have e1 : a.length + ds.length + 1 = f.length - rest.length := by rw [hf]; simp; omega
    have e2 : numeral 10 (v :: vs) = vs.foldl (fun n v => n * 10 + v) v := by unfold numeral; simp
    rw [e1, e2]

/-- an argument number, at the end of `a` -/
theorem numbered_gen {f a r r1 : List UCS4} (hf : f = a ++ r) (hn : AfterNumber r r1) :
    ∃ a1, f = a1 ++ r1 ∧ a.length ≤ a1.length ∧ numbered memo f a.length (charAt f a.length) = .ok (a1.length, charAt f a1.length) := by
  cases hn with
  | skip d x _ v hd' hv =>
    refine ⟨a ++ [d, 0x24#32, x], by rw [hf]; simp, by simp, ?_⟩
    have c0 : charAt f a.length = d := charAt_eq hf rfl
    have c1 : charAt f (a.length + 1) = 0x24#32 := charAt_eq (a := a ++ [d]) (r := x :: r1) (by rw [hf]; simp) (by simp)
    unfold numbered
    rw [c0, dig_val memo h0 hm hd', res_bind_ok, c1, if_pos (by rw [hf]; simp; omega)]
    simp
  | keep _ hk =>
    refine ⟨a, hf, Nat.le_refl _, ?_⟩
    unfold numbered
    rcases dig memo h0 hm (charAt f a.length) with ⟨v, h1, h2, h3⟩ | ⟨h1, h3⟩
    · rw [h3, res_bind_ok, if_neg]
      intro hc
      simp only [Bool.and_eq_true, decide_eq_true_eq, beq_iff_eq] at hc
      obtain ⟨g1, g2, g3⟩ := hc
      rw [hf, List.length_append] at g1
      rcases r with _ | ⟨d, _ | ⟨e, _ | ⟨x, r⟩⟩⟩
      · simp at g1
      · simp at g1
      · simp at g1
      · have c1 : charAt f (a.length + 1) = e := charAt_eq (a := a ++ [d]) (r := x :: r) (by rw [hf]; simp) (by simp)
        have c0 : charAt f a.length = d := charAt_eq hf rfl
        rw [c1] at g3
        rw [c0] at h2
        subst g3
        have := hk d x r v rfl ((has10 d v).mpr h2)
        omega
    · rw [h3, res_bind_ok, if_neg (by simp)]

theorem star_gen (junk : BitVec 64) (args : List Variant) (a : Nat) : star memo junk args (-1) a = (do
    let v ← arg args a
    let _ ← asInt memo junk v
    .ok (a + 1)) := by
  unfold star; exact if_pos (by decide)

/-- the directive whose percent sign is at the end of `a` -/
theorem directive_gen (junk : BitVec 64) (f : List UCS4) (args : List Variant) (a r : List UCS4) (hf : f = a ++ 0x25#32 :: r) (hr : r ≠ [])
    (n : Nat) {act : Action} {rest : List UCS4} (h : Directive r act rest) :
    directive memo junk f args a.length n = (match act with
      | .overflow => .error .ub
      | .star => do
        let v ← arg args n
        let _ ← asInt memo junk v
        .ok (f.length - rest.length - 1, n + 1, [])
      | .convert c => do
        let x ← conversion memo junk args (c.getD 0#32) n
        .ok (if c = none then f.length else f.length - rest.length - 1, x.1, x.2)) := by
  have ha : (a ++ [0x25#32]).length = a.length + 1 := by simp
  have hf' : f = (a ++ [0x25#32]) ++ r := by rw [hf]; simp
  have conv0 : conversion memo junk args 0x2A#32 = fun n => .ok (n, []) := by funext n; rfl
  unfold directive
  cases h with
  | @sizeStar rest hA =>
    obtain ⟨a1, e1, -, e2⟩ := numbered_gen memo h0 hm hf' hA
    rw [ha] at e2
    rw [e2, res_bind_ok]
    have c1 : charAt f a1.length = 0x2A#32 := charAt_eq e1 rfl
    have s1 : sizeAt memo f a1.length (charAt f a1.length) = .ok (a1.length, 0x2A#32, -1) := by rw [c1]; rfl
    simp only [s1, res_bind_ok]
    have p1 : precAt memo f a1.length 0x2A#32 = .ok (a1.length, 0x2A#32, 0) := by
      unfold precAt; rw [c1]; rw [if_neg (by simp)]
    have e3 : f.length - rest.length - 1 = a1.length := by rw [e1]; simp; omega
    simp only [p1, res_bind_ok, star_gen memo h0 hm, e3]
    cases ho : arg args n with
    | error e => rfl
    | ok v =>
      simp only [res_bind_ok]
      cases ho2 : asInt memo junk v with
      | error e => rfl
      | ok w => simp only [res_bind_ok]; rfl
  | @sizeOverflow r1 r2 k hA hN hk =>
    obtain ⟨a1, e1, -, e2⟩ := numbered_gen memo h0 hm hf' hA
    rw [ha] at e2
    rw [e2, res_bind_ok]
    have hs : r1.head? ≠ some 0x2A#32 := by
      intro h
      obtain ⟨ds, vs, rfl, hd', -, rfl⟩ := hN
      cases ds with
      | nil => cases vs with
        | nil => simp [numeral] at hk
        | cons _ _ => exact hd'.elim
      | cons c ds => cases vs with
        | nil => exact hd'.elim
        | cons v vs =>
          cases h
          exact (digit_not _ _ ((has10 _ v).mp hd'.1)).2.2.1 rfl
    have s1 := sizeAt_gen memo h0 hm e1 hN hs
    rw [if_neg (by omega)] at s1
    simp only [s1]; rfl
  | @plain r1 r2 k hA hs hN hk hdot =>
    obtain ⟨a1, e1, -, e2⟩ := numbered_gen memo h0 hm hf' hA
    rw [ha] at e2
    rw [e2, res_bind_ok]
    have s1 := sizeAt_gen memo h0 hm e1 hN hs
    rw [if_pos hk] at s1
    simp only [s1, res_bind_ok]
    obtain ⟨ds, vs, hr1, hd', hnd, rfl⟩ := hN
    have e4 : f = (a1 ++ ds) ++ r2 := by rw [e1, hr1]; simp
    have e5 : f.length - r2.length = (a1 ++ ds).length := by rw [e4]; simp <;> omega
    have p1 : precAt memo f (f.length - r2.length) (hd r2) = .ok (f.length - r2.length, hd r2, 0) := by
      unfold precAt
      rw [if_neg]
      rw [e5, charAt_hd e4 rfl]
      intro hc
      simp only [Bool.and_eq_true, decide_eq_true_eq, beq_iff_eq] at hc
      cases r2 with
      | nil => have := hc.2; exact absurd this (by decide)
      | cons c r2 => exact hdot (congrArg some hc.2)
    simp only [p1, res_bind_ok]
    rw [star_none memo h0 hm junk args _ (by omega), res_bind_ok, star_none memo h0 hm junk args _ (by omega), res_bind_ok]
    have e6 : (if r2.head? = none then f.length else f.length - r2.tail.length - 1) = f.length - r2.length := by
      cases r2 with
      | nil => rfl
      | cons c r2 => simp; omega
    rw [e6]; rfl
  | @precStar r1 k rest hA hN hk =>
    obtain ⟨a1, e1, -, e2⟩ := numbered_gen memo h0 hm hf' hA
    rw [ha] at e2
    rw [e2, res_bind_ok]
    have hs : r1.head? ≠ some 0x2A#32 := by
      intro h
      obtain ⟨ds, vs, rfl, hd', -, rfl⟩ := hN
      cases ds with
      | nil => cases h
      | cons c ds => cases vs with
        | nil => exact hd'.elim
        | cons v vs =>
          cases h
          exact (digit_not _ _ ((has10 _ v).mp hd'.1)).2.2.1 rfl
    have s1 := sizeAt_gen memo h0 hm e1 hN hs
    rw [if_pos hk] at s1
    simp only [s1, res_bind_ok]
    obtain ⟨ds, vs, hr1, hd', hnd, rfl⟩ := hN
    have e4 : f = (a1 ++ ds) ++ 0x2E#32 :: 0x2A#32 :: rest := by rw [e1, hr1]; simp
    have e5 : f.length - (0x2E#32 :: 0x2A#32 :: rest).length = (a1 ++ ds).length := by rw [e4]; simp <;> omega
    have e6 : f.length - rest.length - 1 = (a1 ++ ds).length + 1 := by rw [e4]; simp <;> omega
    have p1 : precAt memo f (f.length - (0x2E#32 :: 0x2A#32 :: rest).length) (hd (0x2E#32 :: 0x2A#32 :: rest)) =
        .ok ((a1 ++ ds).length + 1, 0x2A#32, -1) := by
      unfold precAt
      have c1 : charAt f (a1 ++ ds).length = 0x2E#32 := charAt_eq e4 rfl
      have c2 : charAt f ((a1 ++ ds).length + 1) = 0x2A#32 := charAt_eq (a := a1 ++ ds ++ [0x2E#32]) (r := rest) (by rw [e4]; simp) (by simp <;> omega)
      rw [e5, c1, c2, if_pos (by rw [e4]; simp)]; rfl
    simp only [p1, res_bind_ok]
    rw [star_none memo h0 hm junk args _ (by omega), res_bind_ok, star_gen memo h0 hm, e6]
    cases ho : arg args n with
    | error e => rfl
    | ok v =>
      simp only [res_bind_ok]
      cases ho2 : asInt memo junk v with
      | error e => rfl
      | ok w => simp only [res_bind_ok]; rfl
  | @precOverflow r1 k r3 p r4 hA hN hk hN2 hp =>
    obtain ⟨a1, e1, -, e2⟩ := numbered_gen memo h0 hm hf' hA
    rw [ha] at e2
    rw [e2, res_bind_ok]
    have hs : r1.head? ≠ some 0x2A#32 := by
      intro h
      obtain ⟨ds, vs, rfl, hd', -, rfl⟩ := hN
      cases ds with
      | nil => cases h
      | cons c ds => cases vs with
        | nil => exact hd'.elim
        | cons v vs =>
          cases h
          exact (digit_not _ _ ((has10 _ v).mp hd'.1)).2.2.1 rfl
    have hs3 : r3.head? ≠ some 0x2A#32 := by
      intro h
      obtain ⟨ds, vs, rfl, hd', -, rfl⟩ := hN2
      cases ds with
      | nil => cases vs with
        | nil => simp [numeral] at hp
        | cons _ _ => exact hd'.elim
      | cons c ds => cases vs with
        | nil => exact hd'.elim
        | cons v vs =>
          cases h
          exact (digit_not _ _ ((has10 _ v).mp hd'.1)).2.2.1 rfl
    have s1 := sizeAt_gen memo h0 hm e1 hN hs
    rw [if_pos hk] at s1
    simp only [s1, res_bind_ok]
    obtain ⟨ds, vs, hr1, hd', hnd, rfl⟩ := hN
    have e4 : f = (a1 ++ ds ++ [0x2E#32]) ++ r3 := by rw [e1, hr1]; simp
    have e5 : f.length - (0x2E#32 :: r3).length = (a1 ++ ds).length := by rw [e4]; simp <;> omega
    have s2 := sizeAt_gen memo h0 hm e4 hN2 hs3
    rw [if_neg (by omega), show (a1 ++ ds ++ [0x2E#32]).length = (a1 ++ ds).length + 1 by simp; omega] at s2
    have p1 : precAt memo f (f.length - (0x2E#32 :: r3).length) (hd (0x2E#32 :: r3)) = .error .ub := by
      unfold precAt
      have c1 : charAt f (a1 ++ ds).length = 0x2E#32 := charAt_eq (r := r3) (by rw [e4]; simp) rfl
      rw [e5, c1, if_pos (by rw [e4]; simp <;> omega), s2]
    simp only [p1]; rfl
  | @prec r1 k r3 p r4 hA hN hk hs3 hN2 hp =>
    obtain ⟨a1, e1, -, e2⟩ := numbered_gen memo h0 hm hf' hA
    rw [ha] at e2
    rw [e2, res_bind_ok]
    have hs : r1.head? ≠ some 0x2A#32 := by
      intro h
      obtain ⟨ds, vs, rfl, hd', -, rfl⟩ := hN
      cases ds with
      | nil => cases h
      | cons c ds => cases vs with
        | nil => exact hd'.elim
        | cons v vs =>
          cases h
          exact (digit_not _ _ ((has10 _ v).mp hd'.1)).2.2.1 rfl
    have s1 := sizeAt_gen memo h0 hm e1 hN hs
    rw [if_pos hk] at s1
    simp only [s1, res_bind_ok]
    obtain ⟨ds, vs, hr1, hd', hnd, rfl⟩ := hN
    have e4 : f = (a1 ++ ds ++ [0x2E#32]) ++ r3 := by rw [e1, hr1]; simp
    have e5 : f.length - (0x2E#32 :: r3).length = (a1 ++ ds).length := by rw [e4]; simp <;> omega
    have s2 := sizeAt_gen memo h0 hm e4 hN2 hs3
    rw [if_pos hp, show (a1 ++ ds ++ [0x2E#32]).length = (a1 ++ ds).length + 1 by simp; omega] at s2
    have p1 : precAt memo f (f.length - (0x2E#32 :: r3).length) (hd (0x2E#32 :: r3)) = .ok (f.length - r4.length, hd r4, (p : Int)) := by
      unfold precAt
      have c1 : charAt f (a1 ++ ds).length = 0x2E#32 := charAt_eq (r := r3) (by rw [e4]; simp) rfl
      rw [e5, c1, if_pos (by rw [e4]; simp <;> omega), s2]
    simp only [p1, res_bind_ok]
    rw [star_none memo h0 hm junk args _ (by omega), res_bind_ok, star_none memo h0 hm junk args _ (by omega), res_bind_ok]
    have hl4 : r4.length ≤ f.length := by
      obtain ⟨ds2, vs2, hr3, -⟩ := hN2
      rw [e4, hr3]; simp; omega
    have e6 : (if r4.head? = none then f.length else f.length - r4.tail.length - 1) = f.length - r4.length := by
      cases r4 with
      | nil => rfl
      | cons c r4 => simp at hl4 ⊢; omega
    rw [e6]; rfl

/-! ### Arguments -/

theorem asInt_of {v : Variant} (hf : ∀ t, v = .string t → Fits t) (junk : BitVec 64) :
    (∀ s, Coerced (seen v) .integer (.ok s) → ∃ x, asInt memo junk v = .ok x) ∧
    (∀ f, Coerced (seen v) .integer (.error f) → asInt memo junk v = .error f) := by
  have hc := C83_coerce v hf memo h0 hm junk .integer
  have hn := C83_as_number v memo junk
  constructor
  · intro s hs
    have := (hc _).mpr hs
    cases hv : coerce memo junk v .integer with
    | error e => rw [hv] at this; cases this
    | ok v' =>
      obtain ⟨x, -, hx⟩ := hn.1 v' hv
      exact ⟨_, hx⟩
  · intro f hs
    have := (hc _).mpr hs
    cases hv : coerce memo junk v .integer with
    | error e => rw [hv] at this; cases this; exact hn.2.1 _ hv
    | ok v' => rw [hv] at this; cases this

theorem points_inj {a b : List UCS4} (h : a.map BitVec.toNat = b.map BitVec.toNat) : a = b := by
  induction a generalizing b with
  | nil => cases b with
    | nil => rfl
    | cons _ _ => cases h
  | cons x a ih => cases b with
    | nil => cases h
    | cons y b =>
      simp only [List.map_cons, List.cons.injEq] at h
      rw [BitVec.eq_of_toNat_eq h.1, ih h.2]

theorem conversion_gen (args : List Variant) {v : Variant} (hf : ∀ t, v = .string t → Fits t) (hdep : depth v < 2 ^ 29) (junk : BitVec 64) (n : Nat)
    (ha : arg args n = .ok v) {c : UCS4} {o : Except Fault (List UCS4)} (h : Converted v c o) :
    conversion memo junk args c n = o.map fun t => (n + 1, t) := by
  have hs : ∀ o : Except Fault (List UCS4), Coerced (seen v) .string (o.map Seen.text) →
      conversion memo junk args 0x73#32 n = o.map fun t => (n + 1, t) := by
    intro o ho
    have hc := (C83_coerce v hf memo h0 hm junk .string _).mpr ho
    have hn := (C83_as_other v memo junk).1
    unfold conversion
    rw [if_pos (by decide), ha, res_bind_ok]
    cases hv : coerce memo junk v .string with
    | error e =>
      rw [hv] at hc hn
      cases hx : asStrval memo junk v with
      | ok r => rw [hx] at hn; cases hn
      | error e' =>
        rw [hx] at hn
        cases o with
        | ok t => cases hc
        | error e2 => cases hn; cases hc; rfl
    | ok v' =>
      rw [hv] at hc hn
      cases hx : asStrval memo junk v with
      | error e' => rw [hx] at hn; cases hn
      | ok r =>
        rw [hx] at hn
        cases o with
        | error e2 => cases hc
        | ok t =>
          simp only [Except.map, Except.ok.injEq, Prod.mk.injEq] at hc hn
          rw [hc] at hn
          have := hn.2
          simp only [Seen.text.injEq] at this
          rw [res_bind_ok, this]; rfl
  have hj : ∀ c : UCS4, c ∈ [0x64#32, 0x66#32, 0x67#32] → conversion memo junk args c n = (asJson (-1) v).map fun t => (n + 1, t) := by
    intro c hc
    unfold conversion
    have : (c == 0x73#32) = false ∧ (c == 0x64#32 || (c == 0x66#32 || c == 0x67#32)) = true := by
      simp only [List.mem_cons, List.not_mem_nil, or_false] at hc
      rcases hc with rfl | rfl | rfl <;> exact ⟨by decide, by decide⟩
    rw [this.1, this.2, if_neg (by decide), if_pos rfl, ha, res_bind_ok]
    cases asJson (-1) v <;> rfl
  have hJ := C84_json (-1) v (by omega)
  cases h with
  | string t ht => exact hs (.ok t) ht
  | noString f ht => exact hs (.error f) ht
  | json _ t hc ht =>
    obtain ⟨j, e1, e2⟩ := hJ.1 _ ht
    rw [hj c hc, e1]
    have : j = t := by
      unfold points at e2
      exact points_inj memo h0 hm e2
    rw [this]
  | noJson _ hc ht => rw [hj c hc, hJ.2 ht]

theorem conversion_none (args : List Variant) (junk : BitVec 64) (n : Nat) (ha : arg args n = .error .assertion) {c : UCS4}
    (h : TakesArgument c) : conversion memo junk args c n = .error .assertion := by
  unfold TakesArgument at h
  simp only [List.mem_cons, List.not_mem_nil, or_false] at h
  unfold conversion
  rw [ha]
  rcases h with rfl | rfl | rfl | rfl <;> rfl

theorem conversion_other (args : List Variant) (junk : BitVec 64) (n : Nat) {c : Option UCS4}
    (h : ∀ x, c = some x → ¬ TakesArgument x) : conversion memo junk args (c.getD 0#32) n = .ok (n, []) := by
  cases c with
  | none => rfl
  | some c =>
    have := h c rfl
    unfold TakesArgument at this
    simp only [List.mem_cons, List.not_mem_nil, or_false, not_or] at this
    unfold conversion
    rw [Option.getD_some]
    simp [this]

/-! ### The loop -/

theorem afterNumber_suffix {r r1 : List UCS4} (h : AfterNumber r r1) : ∃ p, r = p ++ r1 := by
  cases h with
  | skip d x _ v _ _ => exact ⟨[d, 0x24#32, x], rfl⟩
  | keep _ _ => exact ⟨[], rfl⟩

theorem directive_suffix {r rest : List UCS4} {act : Action} (h : Directive r act rest) :
    (act = .overflow) ∨ (act = .convert none ∧ rest = []) ∨ (act ≠ .convert none ∧ ∃ p, p ≠ [] ∧ r = p ++ rest) := by
  cases h with
  | sizeStar hA =>
    obtain ⟨p, e⟩ := afterNumber_suffix memo h0 hm hA
    exact .inr (.inr ⟨by simp, p ++ [0x2A#32], by simp, by rw [e]; simp⟩)
  | sizeOverflow => exact .inl rfl
  | @plain r1 r2 n hA _ hN =>
    obtain ⟨p, e⟩ := afterNumber_suffix memo h0 hm hA
    obtain ⟨ds, vs, e2, -⟩ := hN
    cases r2 with
    | nil => exact .inr (.inl ⟨rfl, rfl⟩)
    | cons c r2 => exact .inr (.inr ⟨by simp, p ++ ds ++ [c], by simp, by rw [e, e2]; simp⟩)
  | precStar hA hN =>
    obtain ⟨p, e⟩ := afterNumber_suffix memo h0 hm hA
    obtain ⟨ds, vs, e2, -⟩ := hN
    exact .inr (.inr ⟨by simp, p ++ ds ++ [0x2E#32, 0x2A#32], by simp, by rw [e, e2]; simp⟩)
  | precOverflow => exact .inl rfl
  | @prec r1 n r3 m r4 hA hN _ _ hN2 =>
    obtain ⟨p, e⟩ := afterNumber_suffix memo h0 hm hA
    obtain ⟨ds, vs, e2, -⟩ := hN
    obtain ⟨ds2, vs2, e3, -⟩ := hN2
    cases r4 with
    | nil => exact .inr (.inl ⟨rfl, rfl⟩)
    | cons c r4 => exact .inr (.inr ⟨by simp, p ++ ds ++ [0x2E#32] ++ ds2 ++ [c], by simp, by rw [e, e2, e3]; simp⟩)

theorem arg_of {args args' : List Variant} {v : Variant} {n : Nat} (h : args.drop n = v :: args') :
    arg args n = .ok v ∧ args.drop (n + 1) = args' ∧ v ∈ args := by
  have e : args[n]? = some v := by
    have := congrArg List.head? h
    rw [List.head?_drop] at this
    simpa using this
  refine ⟨by unfold arg; rw [e], ?_, List.mem_of_getElem? e⟩
  have := congrArg List.tail h
  rw [List.tail_drop] at this
  simpa using this

theorem arg_none {args : List Variant} {n : Nat} (h : args.drop n = []) : arg args n = .error .assertion := by
  have e : args[n]? = none := by
    rw [List.drop_eq_nil_iff] at h
    exact List.getElem?_eq_none h
  unfold arg; rw [e]

theorem loop_sound (junk : BitVec 64) (f : List UCS4) (args : List Variant) (hfits : ∀ t, Variant.string t ∈ args → Fits t)
    (hdep : ∀ v ∈ args, depth v < 2 ^ 29) {r : List UCS4} {args' : List Variant} {o : Except Fault (List UCS4)} (h : Formatted r args' o) :
    ∀ (pre : List UCS4) (n fuel : Nat), f = pre ++ r → args.drop n = args' → r.length + 1 ≤ fuel →
      formatLoop memo junk f args fuel pre.length n = o := by
  -- a directive, and the loop after it
  have dir : ∀ (pre r rest : List UCS4) (act : Action) (n fuel : Nat), f = pre ++ 0x25#32 :: r → r ≠ [] → Directive r act rest →
      formatLoop memo junk f args (fuel + 1) pre.length n = (do
        let d ← directive memo junk f args pre.length n
        let r ← formatLoop memo junk f args fuel (d.1 + 1) d.2.1
        .ok (d.2.2 ++ r)) := by
    intro pre r rest act n fuel e hr hd'
    have c0 : charAt f pre.length = 0x25#32 := charAt_eq e rfl
    have hl : 0 < r.length := List.length_pos_iff.mpr hr
    have l : f.length = pre.length + (r.length + 1) := by rw [e]; simp
    rw [formatLoop, if_pos (by omega), c0, if_neg]
    have : (pre.length == f.length - 1) = false := by simp; omega
    rw [this]; decide
  -- where it goes on
  have next : ∀ (pre r rest : List UCS4) (act : Action), f = pre ++ 0x25#32 :: r → Directive r act rest → act ≠ .overflow → act ≠ .convert none →
      ∃ p, f = p ++ rest ∧ f.length - rest.length - 1 + 1 = p.length ∧ rest.length ≤ r.length := by
    intro pre r rest act e hd' ho hc
    rcases directive_suffix memo h0 hm hd' with h | ⟨h, -⟩ | ⟨-, p, hp, e2⟩
    · exact absurd h ho
    · exact absurd h hc
    · refine ⟨pre ++ 0x25#32 :: p, by rw [e, e2]; simp, ?_, by rw [e2]; simp⟩
      rw [e, e2]; simp <;> omega
  have after : ∀ (fuel i n : Nat), f.length ≤ i → 1 ≤ fuel → formatLoop memo junk f args fuel i n = .ok [] := by
    intro fuel i n hi hfu
    obtain ⟨fuel, rfl⟩ : ∃ m, fuel = m + 1 := ⟨fuel - 1, by omega⟩
    rw [formatLoop, if_neg (by omega)]
  induction h with
  | empty args' =>
    intro pre n fuel e _ hfu
    exact after _ _ _ (by rw [e]; simp) (by omega)
  | lastPercent args' =>
    intro pre n fuel e _ hfu
    obtain ⟨fuel, rfl⟩ : ∃ m, fuel = m + 1 := ⟨fuel - 1, by omega⟩
    have c0 : charAt f pre.length = 0x25#32 := charAt_eq e rfl
    have l : f.length = pre.length + 1 := by rw [e]; simp
    simp only [List.length_cons, List.length_nil] at hfu
    rw [formatLoop, if_pos (by omega), if_pos (by simp; right; omega), after _ _ _ (by omega) (by omega), res_bind_ok, c0]
  | text c r args' o hc _ ih =>
    intro pre n fuel e ha hfu
    obtain ⟨fuel, rfl⟩ : ∃ m, fuel = m + 1 := ⟨fuel - 1, by omega⟩
    have c0 : charAt f pre.length = c := charAt_eq e rfl
    have l : f.length = pre.length + (r.length + 1) := by rw [e]; simp
    have g := ih (pre ++ [c]) n fuel (by rw [e]; simp) ha (by simp at hfu; omega)
    rw [List.length_append, List.length_singleton] at g
    rw [formatLoop, if_pos (by omega), c0, if_pos (by simp [hc]), g]
    cases o <;> rfl
  | overflow r args' rest hr hd' =>
    intro pre n fuel e ha hfu
    obtain ⟨fuel, rfl⟩ : ∃ m, fuel = m + 1 := ⟨fuel - 1, by omega⟩
    rw [dir pre r rest _ n fuel e hr hd', directive_gen memo h0 hm junk f args pre r e hr n hd']
    rfl
  | starMissing r rest hr hd' =>
    intro pre n fuel e ha hfu
    obtain ⟨fuel, rfl⟩ : ∃ m, fuel = m + 1 := ⟨fuel - 1, by omega⟩
    rw [dir pre r rest _ n fuel e hr hd', directive_gen memo h0 hm junk f args pre r e hr n hd', arg_none memo h0 hm ha]
    rfl
  | starBad r rest v args' g hr hd' hc =>
    intro pre n fuel e ha hfu
    obtain ⟨fuel, rfl⟩ : ∃ m, fuel = m + 1 := ⟨fuel - 1, by omega⟩
    obtain ⟨a1, a2, a3⟩ := arg_of memo h0 hm ha
    have := (asInt_of memo h0 hm (fun t ht => hfits t (ht ▸ a3)) junk).2 _ hc
    rw [dir pre r rest _ n fuel e hr hd', directive_gen memo h0 hm junk f args pre r e hr n hd']
    simp only [a1, res_bind_ok, this]
    rfl
  | star r rest v args' s o hr hd' hc _ ih =>
    intro pre n fuel e ha hfu
    obtain ⟨fuel, rfl⟩ : ∃ m, fuel = m + 1 := ⟨fuel - 1, by omega⟩
    obtain ⟨a1, a2, a3⟩ := arg_of memo h0 hm ha
    obtain ⟨x, hx⟩ := (asInt_of memo h0 hm (fun t ht => hfits t (ht ▸ a3)) junk).1 _ hc
    obtain ⟨p, p1, p2, p3⟩ := next pre r rest _ e hd' (by simp) (by simp)
    have g := ih p (n + 1) fuel p1 a2 (by simp at hfu; omega)
    rw [dir pre r rest _ n fuel e hr hd', directive_gen memo h0 hm junk f args pre r e hr n hd']
    simp only [a1, res_bind_ok, hx, p2, g]
    cases o <;> rfl
  | missing r rest c hr hd' hc =>
    intro pre n fuel e ha hfu
    obtain ⟨fuel, rfl⟩ : ∃ m, fuel = m + 1 := ⟨fuel - 1, by omega⟩
    rw [dir pre r rest _ n fuel e hr hd', directive_gen memo h0 hm junk f args pre r e hr n hd']
    simp only [Option.getD_some, conversion_none memo h0 hm args junk n (arg_none memo h0 hm ha) hc]
    rfl
  | bad r rest c v args' g hr hd' hc =>
    intro pre n fuel e ha hfu
    obtain ⟨fuel, rfl⟩ : ∃ m, fuel = m + 1 := ⟨fuel - 1, by omega⟩
    obtain ⟨a1, a2, a3⟩ := arg_of memo h0 hm ha
    rw [dir pre r rest _ n fuel e hr hd', directive_gen memo h0 hm junk f args pre r e hr n hd']
    simp only [Option.getD_some, conversion_gen memo h0 hm args (fun t ht => hfits t (ht ▸ a3)) (hdep _ a3) junk n a1 hc]
    rfl
  | converted r rest c v args' t o hr hd' hc _ ih =>
    intro pre n fuel e ha hfu
    obtain ⟨fuel, rfl⟩ : ∃ m, fuel = m + 1 := ⟨fuel - 1, by omega⟩
    obtain ⟨a1, a2, a3⟩ := arg_of memo h0 hm ha
    obtain ⟨p, p1, p2, p3⟩ := next pre r rest _ e hd' (by simp) (by simp)
    have g := ih p (n + 1) fuel p1 a2 (by simp at hfu; omega)
    rw [dir pre r rest _ n fuel e hr hd', directive_gen memo h0 hm junk f args pre r e hr n hd']
    simp only [Option.getD_some, conversion_gen memo h0 hm args (fun t ht => hfits t (ht ▸ a3)) (hdep _ a3) junk n a1 hc, Except.map, res_bind_ok,
      reduceCtorEq, if_false, p2, g]
    cases o <;> rfl
  | other r rest c args' o hr hd' hc ho ih =>
    intro pre n fuel e ha hfu
    obtain ⟨fuel, rfl⟩ : ∃ m, fuel = m + 1 := ⟨fuel - 1, by omega⟩
    rw [dir pre r rest _ n fuel e hr hd', directive_gen memo h0 hm junk f args pre r e hr n hd']
    cases c with
    | none =>
      simp only [conversion_other memo h0 hm args junk n hc, res_bind_ok, if_true]
      simp only [List.length_cons] at hfu
      rw [after _ _ _ (by omega) (by omega), res_bind_ok]
      rcases directive_suffix memo h0 hm hd' with h | ⟨-, h⟩ | ⟨h, -⟩
      · cases h
      · subst h; cases ho; rfl
      · exact absurd rfl h
    | some c =>
      obtain ⟨p, p1, p2, p3⟩ := next pre r rest _ e hd' (by simp) (by simp)
      have g := ih p n fuel p1 ha (by simp at hfu; omega)
      simp only [conversion_other memo h0 hm args junk n hc, res_bind_ok, reduceCtorEq, if_false, p2, g]
      cases o <;> rfl
end

/-! ### Totality -/

theorem afterNumber_total (r : List UCS4) : ∃ r1, AfterNumber r r1 := by
  by_cases h : ∀ d x r' v, r = d :: 0x24#32 :: x :: r' → HasDigit 10 d v → v = 0
  · exact ⟨r, .keep r h⟩
  · have : ∃ d x r' v, r = d :: 0x24#32 :: x :: r' ∧ HasDigit 10 d v ∧ v ≠ 0 := by
      apply Classical.byContradiction
      intro hn
      apply h
      intro d x r' v e hd'
      apply Classical.byContradiction
      intro hv
      exact hn ⟨d, x, r', v, e, hd', hv⟩
    obtain ⟨d, x, r', v, rfl, hd', hv⟩ := this
    exact ⟨r', .skip d x r' v hd' (by omega)⟩

theorem number_total (r : List UCS4) : ∃ n rest, NumberAt r n rest := by
  obtain ⟨ds, vs, b, h1, h2, h3⟩ := split_digits 10 r
  exact ⟨_, b, ds, vs, h1, h2, h3, rfl⟩

theorem directive_total (r : List UCS4) : ∃ act rest, Directive r act rest := by
  obtain ⟨r1, hA⟩ := afterNumber_total r
  by_cases hs : r1.head? = some 0x2A#32
  · cases r1 with
    | nil => cases hs
    | cons c r1 => cases hs; exact ⟨_, _, .sizeStar hA⟩
  obtain ⟨n, r2, hN⟩ := number_total r1
  by_cases hn : n ≤ 2147483647
  · by_cases hdot : r2.head? = some 0x2E#32
    · cases r2 with
      | nil => cases hdot
      | cons c r3 =>
        cases hdot
        by_cases hs3 : r3.head? = some 0x2A#32
        · cases r3 with
          | nil => cases hs3
          | cons c r3 => cases hs3; exact ⟨_, _, .precStar hA hN hn⟩
        · obtain ⟨p, r4, hN2⟩ := number_total r3
          by_cases hp : p ≤ 2147483647
          · exact ⟨_, _, .prec hA hN hn hs3 hN2 hp⟩
          · exact ⟨_, _, .precOverflow hA hN hn hN2 (by omega)⟩
    · exact ⟨_, _, .plain hA hs hN hn hdot⟩
  · exact ⟨_, _, .sizeOverflow hA hN (by omega)⟩

theorem converted_total (v : Variant) (hdep : depth v < 2 ^ 29) (c : UCS4) (h : TakesArgument c) : ∃ o, Converted v c o := by
  by_cases hc : c = 0x73#32
  · subst hc
    obtain ⟨o, ho⟩ := C83_total v .string
    cases o with
    | error f => exact ⟨_, .noString f ho⟩
    | ok s =>
      have : ∃ t, s = .text t := by
        generalize seen v = q at ho
        generalize hty : Ty.string = ty at ho
        generalize hos : Except.ok s = os at ho
        cases ho <;> first
          | (cases hos; exact ⟨_, rfl⟩)
          | (cases hty; done)
          | (cases hos; done)
          | (subst hty; rename_i h _ _; exact absurd h (by decide))
          | (subst hty; simp at *; done)
      obtain ⟨t, rfl⟩ := this
      exact ⟨_, .string t ho⟩
  · have hm : c ∈ [0x64#32, 0x66#32, 0x67#32] := by
      unfold TakesArgument at h
      simp only [List.mem_cons, List.not_mem_nil, or_false] at h ⊢
      rcases h with h | h
      · exact absurd h hc
      · exact h
    cases hj : jsonTextOf (-1) v with
    | none => exact ⟨_, .noJson c hm hj⟩
    | some l =>
      obtain ⟨j, -, e⟩ := (C84_json (-1) v (by omega)).1 l hj
      exact ⟨_, .json c j hm (by rw [hj, ← e]; rfl)⟩

/-- C85. Every format string with any arguments has a result. -/
theorem C85_total (args : List Variant) (hdep : ∀ v ∈ args, depth v < 2 ^ 29) (f : List UCS4) : ∃ o, Formatted f args o := by
  generalize hk : f.length = k
  induction k using Nat.strongRecOn generalizing f args with
  | _ k ih =>
    cases f with
    | nil => exact ⟨_, .empty args⟩
    | cons c r =>
      simp only [List.length_cons] at hk
      by_cases hc : c = 0x25#32
      · subst hc
        by_cases hr : r = []
        · subst hr; exact ⟨_, .lastPercent args⟩
        obtain ⟨act, rest, hd'⟩ := directive_total r
        have hl : act ≠ .overflow → rest.length < k := by
          intro ho
          rcases directive_suffix 0 (by decide) (by decide) hd' with h | ⟨-, h⟩ | ⟨-, p, -, h⟩
          · exact absurd h ho
          · subst h; simp; omega
          · rw [h] at hk; simp at hk; omega
        have other : ∀ x, act = .convert x → (∀ y, x = some y → ¬ TakesArgument y) → ∃ o, Formatted (0x25#32 :: r) args o := by
          rintro x rfl hx
          obtain ⟨o, ho⟩ := ih _ (hl (by simp)) args hdep rest rfl
          exact ⟨_, .other r rest x args o hr hd' hx ho⟩
        cases hact : act with
        | overflow => subst hact; exact ⟨_, .overflow r args rest hr hd'⟩
        | star =>
          subst hact
          cases args with
          | nil => exact ⟨_, .starMissing r rest hr hd'⟩
          | cons v args =>
            obtain ⟨o, ho⟩ := C83_total v .integer
            cases o with
            | error g => exact ⟨_, .starBad r rest v args g hr hd' ho⟩
            | ok s =>
              obtain ⟨o, ho'⟩ := ih _ (hl (by simp)) args (fun w hw => hdep w (List.mem_cons_of_mem _ hw)) rest rfl
              exact ⟨_, .star r rest v args s o hr hd' ho ho'⟩
        | convert x =>
          cases x with
          | none => exact other none hact (by simp)
          | some c =>
            by_cases ht : TakesArgument c
            · subst hact
              cases args with
              | nil => exact ⟨_, .missing r rest c hr hd' ht⟩
              | cons v args =>
                obtain ⟨o, ho⟩ := converted_total v (hdep v (List.mem_cons_self ..)) c ht
                cases o with
                | error g => exact ⟨_, .bad r rest c v args g hr hd' ho⟩
                | ok t =>
                  obtain ⟨o, ho'⟩ := ih _ (hl (by simp)) args (fun w hw => hdep w (List.mem_cons_of_mem _ hw)) rest rfl
                  exact ⟨_, .converted r rest c v args t o hr hd' ho ho'⟩
            · exact other _ hact (by rintro y h; cases h; exact ht)
      · obtain ⟨o, ho⟩ := ih r.length (by omega) args hdep r rfl
        exact ⟨_, .text c r args o hc ho⟩

/-- C85. What `format` gives, or how it fails, for every format string and all arguments (whose texts fit in memory, and that are
not nested so deep that the indentation overflows). -/
theorem C85_format (memo : Int) (h0 : 0 ≤ memo) (hm : memo < 20) (junk : BitVec 64) (f : List UCS4) (args : List Variant)
    (hfits : ∀ t, Variant.string t ∈ args → Fits t) (hdep : ∀ v ∈ args, depth v < 2 ^ 29) (o : Except Fault (List UCS4)) :
    format memo junk f args = o ↔ Formatted f args o := by
  have sound : ∀ o, Formatted f args o → format memo junk f args = o := fun o h =>
    loop_sound memo h0 hm junk f args hfits hdep h [] 0 (f.length + 1) rfl rfl (Nat.le_refl _)
  refine ⟨?_, sound o⟩
  intro h
  obtain ⟨o', h'⟩ := C85_total args hdep f
  rw [← h, sound o' h']
  exact h'

/-! An argument number swallows the conversion, `%1$s`; a star ends the directive, so that the conversion is printed, `%*d`;
`%%` prints nothing. -/
example : Formatted [0x25#32, 0x31#32, 0x24#32, 0x73#32, 0x41#32] [ofInt 7] (.ok []) :=
  (C85_format 0 (by decide) (by decide) 0#64 _ _ (by simp [ofInt]) (by simp [ofInt, depth]) _).mp (by decide +kernel)
example : Formatted [0x25#32, 0x25#32, 0x42#32] [] (.ok [0x42#32]) :=
  (C85_format 0 (by decide) (by decide) 0#64 _ _ (by simp) (by simp) _).mp (by decide +kernel)
example : Formatted [0x25#32, 0x2A#32, 0x64#32] [ofInt 7] (.ok [0x64#32]) :=
  .star _ [0x64#32] _ [] _ (.ok [0x64#32]) (by decide) (.sizeStar (.keep _ (by intro d x r v h; cases h))) (.numInteger _ _ (by decide) (by decide))
    (.text _ _ _ (.ok []) (by decide) (.empty []))

end Strpp.Fmt
