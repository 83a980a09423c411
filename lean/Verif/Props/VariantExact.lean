import Verif.Props.Variant
import Verif.Props.StrIntExact
import Verif.Props.JsonExact
import Verif.Spec.VariantExact
/-! C83: coercing a Variant, exactly. C84: its JSON text, exactly. -/
set_option linter.unusedSimpArgs false
set_option linter.unusedVariables false
namespace Strpp.Var

open SV Spec

/-! ### decimal numbers -/

theorem decimalNat_eq (n : Nat) : points (decimalNat n) = n.repr.toList.map Char.toNat := by
  induction n using Nat.strongRecOn with
  | _ n ih =>
    have hd : ∀ k, k < 10 → points [BitVec.ofNat 32 (0x30 + k)] = [(Nat.digitChar k).toNat] := by decide
    by_cases h : n < 10
    · rw [decimalNat, if_pos h, Nat.repr_of_lt h, hd n h, String.toList_singleton]; rfl
    · rw [decimalNat, if_neg h, Nat.repr_of_ge (by omega), String.toList_append, List.map_append, ← ih (n / 10) (by omega), String.toList_singleton]
      have e := hd (n % 10) (by omega)
      unfold points at e ⊢
      rw [List.map_append, e]; rfl

theorem snprintf_decimal (size : Nat) (hs : 21 ≤ size) (x : Int) (h1 : -2 ^ 63 ≤ x) (h2 : x < 2 ^ 63) :
    points (snprintf size x) = decimal x := by
  rw [snprintf_all size hs x h1 h2]
  unfold decimal
  by_cases hx : x < 0
  · rw [if_pos hx]
    obtain ⟨m, rfl⟩ := Int.eq_negSucc_of_lt_zero hx
    have e := decimalNat_eq (m + 1)
    show 0x2D :: points (decimalNat (m + 1)) = (("-" ++ Nat.repr (m + 1)).toList.map Char.toNat)
    rw [String.toList_append, List.map_append, e]; rfl
  · rw [if_neg hx]
    obtain ⟨m, rfl⟩ := Int.eq_ofNat_of_zero_le (show 0 ≤ x by omega)
    exact decimalNat_eq m

/-! ### coercing -/

theorem errOf_zero {e : Nat} (he : e ≤ 5) : errOf e = 0#32 ↔ e = 0 := by
  have : ∀ e, e < 6 → (errOf e = 0#32 ↔ e = 0) := by decide
  exact this e (by omega)

theorem outcome_bound {len : Nat} {neg : Bool} {r : Nat} {vs : List Nat} {w rest : List UCS4} {x : Int} {e n : Nat}
    (h : intOutcome len neg r vs w rest = some (x, e, n)) : e ≤ 5 ∧ -2 ^ 31 ≤ x ∧ x < 2 ^ 31 := by
  unfold intOutcome at h
  simp only at h
  have hb : ∀ d : Int, -2 ^ 31 ≤ d.bmod (2 ^ 32) ∧ d.bmod (2 ^ 32) < 2 ^ 31 := by
    intro d
    have a := Int.le_bmod (x := d) (m := 2 ^ 32) (by omega)
    have b := Int.bmod_lt (x := d) (m := 2 ^ 32) (by omega)
    simp only [show ((2 ^ 32 : Nat) : Int) = 4294967296 from rfl] at a b
    omega
  split at h
  · split at h <;> (simp only [Option.some.injEq, Prod.mk.injEq] at h; omega)
  split at h
  · simp only [Option.some.injEq, Prod.mk.injEq] at h; omega
  split at h
  · cases h
  simp only [Option.some.injEq, Prod.mk.injEq] at h
  obtain ⟨h1, h2, -⟩ := h
  refine ⟨by split at h2 <;> (try split at h2) <;> omega, ?_⟩
  rw [← h1]; exact hb _

/-- What `asInt32` gives for the text of a Variant -/
theorem read_spec {t : List UCS4} (hf : Fits t) (memo : Int) (h0 : 0 ≤ memo) (hm : memo < 20) {o : Option (Int × Nat)} (h : ReadAs t o) :
    match (generalizing := false) o with
    | some (x, e) => (∃ n, (ofText t).asInt32 memo 0 = .ok ⟨x, errOf e, n⟩) ∧ e ≤ 5 ∧ -2 ^ 31 ≤ x ∧ x < 2 ^ 31
    | none => (ofText t).asInt32 memo 0 = .error .ub := by
  obtain ⟨neg, r, ds, vs, w, rest, hr, ho'⟩ := h
  have e := den_exact (ofText_den hf) memo h0 hm 0 (by omega) neg r ds vs w rest hr
  subst ho'
  cases ho : intOutcome t.length neg r vs w rest with
  | none => rw [ho] at e; exact e
  | some o =>
    obtain ⟨x, c, n⟩ := o
    rw [ho] at e
    exact ⟨⟨n, e⟩, outcome_bound ho⟩

theorem seen_number (v : Variant) {ty : Ty} {x : Int} (h : seen v = .num ty x) : number v = some x ∧ v.type = ty := by
  cases v <;> simp only [seen] at h <;> cases h <;> exact ⟨rfl, rfl⟩

/-- C83. Each text is read in one way. -/
theorem readAs_total (t : List UCS4) : ∃ o, ReadAs t o := by
  obtain ⟨neg, r, ds, vs, w, rest, h⟩ := (C78_unique 0 t).1
  exact ⟨_, neg, r, ds, vs, w, rest, h, rfl⟩

/-- C83. For every Variant and type, there is something that coercing gives. -/
theorem C83_total (v : Variant) (ty : Ty) : ∃ o, Coerced (seen v) ty o := by
  have num : ∀ k x, ty ≠ .string → ∃ o, Coerced (.num k x) ty o := by
    intro k x hs
    cases ty with
    | none => exact ⟨_, .toNone _⟩
    | integer =>
      by_cases h : -2 ^ 31 ≤ x ∧ x < 2 ^ 31
      · exact ⟨_, .numInteger _ _ h.1 h.2⟩
      · exact ⟨_, .numTooBig _ _ (by omega)⟩
    | long => exact ⟨_, .numLong _ _⟩
    | longLong => exact ⟨_, .numLongLong _ _⟩
    | string => exact absurd rfl hs
    | strArray => exact ⟨_, .numOther _ _ _ (by simp)⟩
    | varArray => exact ⟨_, .numOther _ _ _ (by simp)⟩
    | strVarMap => exact ⟨_, .numOther _ _ _ (by simp)⟩
  have str : ∀ x : Int, -2 ^ 63 ≤ x → x < 2 ^ 63 → ∀ k, ∃ o, Coerced (.num k x) .string o :=
    fun x h1 h2 k => ⟨_, .numString k x (snprintf 24 x) (snprintf_decimal 24 (by omega) x h1 h2)⟩
  by_cases hn : ty = .none
  · subst hn; exact ⟨_, .toNone _⟩
  cases v with
  | none => exact ⟨_, .noneOther ty hn⟩
  | integer w =>
    by_cases hs : ty = .string
    · subst hs; have := loInt_range w; exact str _ this.1 this.2 _
    · exact num _ _ hs
  | long w =>
    by_cases hs : ty = .string
    · subst hs; have := toInt_range w; exact str _ this.1 this.2 _
    · exact num _ _ hs
  | longLong w =>
    by_cases hs : ty = .string
    · subst hs; have := toInt_range w; exact str _ this.1 this.2 _
    · exact num _ _ hs
  | string t =>
    obtain ⟨o, ho⟩ := readAs_total t
    have il : ty ∈ [Ty.integer, .long] → ∃ o, Coerced (.text t) ty o := by
      intro h
      rcases o with _ | ⟨x, e⟩
      · exact ⟨_, .textUndefined _ _ (by simp at h ⊢; rcases h with h | h <;> simp [h]) ho⟩
      · by_cases he : e = 0
        · subst he; exact ⟨_, .textGood _ _ _ h ho⟩
        · exact ⟨_, .textBad _ _ _ _ h ho he⟩
    cases ty with
    | none => exact absurd rfl hn
    | integer => exact il (by simp)
    | long => exact il (by simp)
    | longLong =>
      rcases o with _ | ⟨x, e⟩
      · exact ⟨_, .textUndefined _ _ (by simp) ho⟩
      · by_cases he : e = 0
        · subst he; exact ⟨_, .textLongLong _ _ ho⟩
        · exact ⟨_, .textNotLongLong _ _ _ ho he⟩
    | string => exact ⟨_, .textString _⟩
    | strArray => exact ⟨_, .textOther _ _ (by simp)⟩
    | varArray => exact ⟨_, .textOther _ _ (by simp)⟩
    | strVarMap => exact ⟨_, .textOther _ _ (by simp)⟩
  | strArray a =>
    by_cases h : ty = .strArray
    · subst h; exact ⟨_, .texts _⟩
    · exact ⟨_, .textsOther _ _ hn h⟩
  | varArray a =>
    by_cases h : ty = .varArray
    · subst h; exact ⟨_, .array _⟩
    · exact ⟨_, .arrayOther _ _ hn h⟩
  | strVarMap m =>
    by_cases h : ty = .strVarMap
    · subst h; exact ⟨_, .map _⟩
    · exact ⟨_, .mapOther _ _ hn h⟩

theorem points_inj {a b : List UCS4} (h : points a = points b) : a = b :=
  List.map_inj_right (fun x y h => BitVec.eq_of_toNat_eq h) |>.mp h

theorem coerce_number {v : Variant} {k : Ty} {x : Int} (hv : seen v = .num k x) (memo : Int) (junk : BitVec 64) {ty : Ty} {o : Except Fault Seen}
    (h : Coerced (.num k x) ty o) : (coerce memo junk v ty).map seen = o := by
  have other : ∀ ty ∈ [Ty.strArray, .varArray, .strVarMap], coerce memo junk v ty = .error .assertion := by
    intro ty hty
    obtain ⟨-, hk⟩ := seen_number v hv
    have : v.type ∈ [Ty.integer, .long, .longLong] := by
      cases v <;> simp only [seen] at hv <;> cases hv <;> simp [Variant.type]
    simp at hty
    rcases hty with rfl | rfl | rfl <;> simp only [coerce, mustBe] <;> rw [if_neg (by intro h; rw [h] at this; simp at this)]
  cases h with
  | toNone => rfl
  | numOther _ _ _ h => rw [other _ h]; rfl
  | numString _ _ t ht =>
    cases v with
    | integer w =>
      cases hv
      have := loInt_range w
      have e := snprintf_decimal 24 (by omega) _ this.1 this.2
      have e2 : snprintf 24 (loInt w) = t := points_inj (e.trans ht.symm)
      simp only [coerce, coerceString, e2]; rfl
    | long w =>
      cases hv
      have := toInt_range w
      have e := snprintf_decimal 24 (by omega) _ this.1 this.2
      have e2 : snprintf 24 w.toInt = t := points_inj (e.trans ht.symm)
      simp only [coerce, coerceString, e2]; rfl
    | longLong w =>
      cases hv
      have := toInt_range w
      have e := snprintf_decimal 24 (by omega) _ this.1 this.2
      have e2 : snprintf 24 w.toInt = t := points_inj (e.trans ht.symm)
      simp only [coerce, coerceString, e2]; rfl
    | _ => cases hv
  | numInteger _ _ h1 h2 =>
    cases v with
    | integer w => cases hv; rfl
    | long w =>
      cases hv
      simp only [coerce, coerceInteger]
      rw [if_neg (by rw [loInt_of_fits w h1 h2]; simp), setInt_same]; rfl
    | longLong w =>
      cases hv
      simp only [coerce, coerceInteger]
      rw [if_neg (by rw [loInt_of_fits w h1 h2]; simp), setInt_same]; rfl
    | _ => cases hv
  | numTooBig _ _ hx =>
    cases v with
    | integer w =>
      cases hv
      have := loInt_range32 w
      unfold loInt at this; omega
    | long w =>
      cases hv
      have := loInt_range32 w
      simp only [coerce, coerceInteger]
      rw [if_pos (by omega)]; rfl
    | longLong w =>
      cases hv
      have := loInt_range32 w
      simp only [coerce, coerceInteger]
      rw [if_pos (by omega)]; rfl
    | _ => cases hv
  | numLong =>
    cases v with
    | integer w =>
      cases hv
      have := loInt_range32 w
      simp only [coerce, coerceLong]
      exact congrArg (fun x => Except.ok (Seen.num .integer x)) (loInt_ofInt64 _ this.1 this.2)
    | long w => cases hv; rfl
    | longLong w => cases hv; rfl
    | _ => cases hv
  | numLongLong =>
    cases v with
    | integer w =>
      cases hv
      have := loInt_range32 w
      simp only [coerce, coerceLongLong]
      exact congrArg (fun x => Except.ok (Seen.num .integer x)) (loInt_ofInt64 _ this.1 this.2)
    | long w => cases hv; rfl
    | longLong w => cases hv; rfl
    | _ => cases hv

theorem coerce_text {t : List UCS4} (hf : Fits t) (memo : Int) (h0 : 0 ≤ memo) (hm : memo < 20) (junk : BitVec 64) {ty : Ty} {o : Except Fault Seen}
    (h : Coerced (.text t) ty o) : (coerce memo junk (.string t) ty).map seen = o := by
  cases h with
  | toNone => rfl
  | textOther _ _ h => simp at h; rcases h with rfl | rfl | rfl <;> rfl
  | textString => rfl
  | textUndefined _ _ hty hr =>
    have e := read_spec hf memo h0 hm hr
    simp only at e
    simp at hty
    rcases hty with rfl | rfl | rfl <;> simp only [coerce, coerceInteger, coerceLong, coerceLongLong, e] <;> rfl
  | textGood _ _ x hty hr =>
    obtain ⟨⟨n, e⟩, -, -, -⟩ := read_spec hf memo h0 hm hr
    simp at hty
    rcases hty with rfl | rfl <;> simp only [coerce, coerceInteger, coerceLong, e, res_bind_ok] <;> rw [if_pos (show errOf 0 = 0#32 from rfl)] <;> rfl
  | textBad _ _ x c hty hr hc =>
    obtain ⟨⟨n, e⟩, c5, x1, x2⟩ := read_spec hf memo h0 hm hr
    have hc' : ¬ errOf c = 0#32 := by rw [errOf_zero c5]; exact hc
    simp at hty
    rcases hty with rfl | rfl
    · simp only [coerce, coerceInteger, e, res_bind_ok]
      rw [if_neg hc']
      exact congrArg (fun x => Except.ok (Seen.num .integer x)) (loInt_setInt junk x x1 x2)
    · simp only [coerce, coerceLong, e, res_bind_ok]
      rw [if_neg hc']
      exact congrArg (fun x => Except.ok (Seen.num .long x)) (toInt_ofInt64 x (by omega) (by omega))
  | textLongLong _ x hr =>
    obtain ⟨⟨n, e⟩, c5, x1, x2⟩ := read_spec hf memo h0 hm hr
    simp only [coerce, coerceLongLong, e, res_bind_ok]
    rw [if_neg (by simp [errOf])]
    exact congrArg (fun x => Except.ok (Seen.num .longLong x)) (toInt_ofInt64 x (by omega) (by omega))
  | textNotLongLong _ x c hr hc =>
    obtain ⟨⟨n, e⟩, c5, x1, x2⟩ := read_spec hf memo h0 hm hr
    have hc' : errOf c ≠ 0#32 := by rw [ne_eq, errOf_zero c5]; exact hc
    simp only [coerce, coerceLongLong, e, res_bind_ok]
    rw [if_pos hc']; rfl

/-- C83. Coercing any Variant to any type leaves (or fails with) exactly what `Coerced` says. -/
theorem C83_coerce (v : Variant) (hf : ∀ t, v = .string t → Fits t) (memo : Int) (h0 : 0 ≤ memo) (hm : memo < 20) (junk : BitVec 64) (ty : Ty)
    (o : Except Fault Seen) : (coerce memo junk v ty).map seen = o ↔ Coerced (seen v) ty o := by
  have sound : ∀ o, Coerced (seen v) ty o → (coerce memo junk v ty).map seen = o := by
    intro o h
    cases v with
    | none => simp only [seen] at h; cases h with
      | toNone => rfl
      | noneOther _ h => cases ty <;> first | exact absurd rfl h | rfl
    | integer w => exact coerce_number rfl memo junk h
    | long w => exact coerce_number rfl memo junk h
    | longLong w => exact coerce_number rfl memo junk h
    | string t => exact coerce_text (hf t rfl) memo h0 hm junk h
    | strArray a => simp only [seen] at h; cases h with
      | toNone => rfl
      | texts => rfl
      | textsOther _ _ h1 h2 => cases ty <;> first | exact absurd rfl h1 | exact absurd rfl h2 | rfl
    | varArray a => simp only [seen] at h; cases h with
      | toNone => rfl
      | array => rfl
      | arrayOther _ _ h1 h2 => cases ty <;> first | exact absurd rfl h1 | exact absurd rfl h2 | rfl
    | strVarMap a => simp only [seen] at h; cases h with
      | toNone => rfl
      | map => rfl
      | mapOther _ _ h1 h2 => cases ty <;> first | exact absurd rfl h1 | exact absurd rfl h2 | rfl
  constructor
  · rintro rfl
    obtain ⟨o, ho⟩ := C83_total v ty
    rw [sound o ho]; exact ho
  · exact sound o

/-- the number a Variant holds -/
def contents : Seen → Option Int
  | .num _ x => some x
  | _ => none

theorem mustBe_ok {v v' : Variant} {ty : Ty} (h : mustBe v ty = .ok v') : v' = v ∧ v.type = ty := by
  unfold mustBe at h
  split at h
  · cases h; exact ⟨rfl, by assumption⟩
  · cases h

/-- C83. `as_int`, `as_long` and `as_longlong` return the number that the coerced Variant holds, and fail as the coercion does. -/
theorem C83_as_number (v : Variant) (memo : Int) (junk : BitVec 64) :
    (∀ v', coerce memo junk v .integer = .ok v' → ∃ x, contents (seen v') = some x ∧ asInt memo junk v = .ok (v', x)) ∧
    (∀ f, coerce memo junk v .integer = .error f → asInt memo junk v = .error f) ∧
    (∀ v', coerce memo junk v .long = .ok v' → ∃ x, contents (seen v') = some x ∧ asLong memo junk v = .ok (v', x)) ∧
    (∀ f, coerce memo junk v .long = .error f → asLong memo junk v = .error f) ∧
    (∀ v', coerce memo junk v .longLong = .ok v' → ∃ x, contents (seen v') = some x ∧ asLongLong memo junk v = .ok (v', x)) ∧
    (∀ f, coerce memo junk v .longLong = .error f → asLongLong memo junk v = .error f) := by
  refine ⟨?_, ?_, ?_, ?_, ?_, ?_⟩
  · intro v' h
    unfold asInt
    rw [h, res_bind_ok]
    simp only [coerce] at h
    unfold coerceInteger at h
    split at h
    · cases h; exact ⟨_, rfl, rfl⟩
    · rename_i w
      split at h
      · have := (mustBe_ok h).2; cases this
      · rename_i hw
        cases h
        rw [setInt_same]
        exact ⟨_, rfl, by simp only [word, res_bind_ok]; rw [Classical.not_not.mp hw]⟩
    · rename_i w
      split at h
      · have := (mustBe_ok h).2; cases this
      · rename_i hw
        cases h
        rw [setInt_same]
        exact ⟨_, rfl, by simp only [word, res_bind_ok]; rw [Classical.not_not.mp hw]⟩
    · obtain ⟨r, -, h⟩ := hbind h
      split at h
      · have := (mustBe_ok h).2; cases this
      · cases h; exact ⟨_, rfl, rfl⟩
    · obtain ⟨rfl, h⟩ := mustBe_ok h
      cases v' <;> simp_all [Variant.type]
  · intro f h; unfold asInt; rw [h]; rfl
  · intro v' h
    unfold asLong
    rw [h, res_bind_ok]
    simp only [coerce] at h
    unfold coerceLong at h
    split at h
    · rename_i w
      cases h
      have := loInt_range32 w
      exact ⟨_, rfl, by simp only [word, res_bind_ok]; rw [toInt_ofInt64 _ (by omega) (by omega)]; exact congrArg (fun x => Except.ok (_, x)) (loInt_ofInt64 _ this.1 this.2).symm⟩
    · cases h; exact ⟨_, rfl, rfl⟩
    · cases h; exact ⟨_, rfl, rfl⟩
    · obtain ⟨r, -, h⟩ := hbind h
      split at h
      · have := (mustBe_ok h).2; cases this
      · cases h; exact ⟨_, rfl, rfl⟩
    · obtain ⟨rfl, h⟩ := mustBe_ok h
      cases v' <;> simp_all [Variant.type]
  · intro f h; unfold asLong; rw [h]; rfl
  · intro v' h
    unfold asLongLong
    rw [h, res_bind_ok]
    simp only [coerce] at h
    unfold coerceLongLong at h
    split at h
    · rename_i w
      cases h
      have := loInt_range32 w
      exact ⟨_, rfl, by simp only [word, res_bind_ok]; rw [toInt_ofInt64 _ (by omega) (by omega)]; exact congrArg (fun x => Except.ok (_, x)) (loInt_ofInt64 _ this.1 this.2).symm⟩
    · cases h; exact ⟨_, rfl, rfl⟩
    · cases h; exact ⟨_, rfl, rfl⟩
    · obtain ⟨r, -, h⟩ := hbind h
      split at h
      · have := (mustBe_ok h).2; cases this
      · cases h; exact ⟨_, rfl, rfl⟩
    · obtain ⟨rfl, h⟩ := mustBe_ok h
      cases v' <;> simp_all [Variant.type]
  · intro f h; unfold asLongLong; rw [h]; rfl

/-- C83. `as_strval`, `as_string_array`, `as_variant_array` and `as_variant_map` return the contents of the coerced Variant, and
fail as the coercion does. -/
theorem C83_as_other (v : Variant) (memo : Int) (junk : BitVec 64) :
    ((asStrval memo junk v).map (fun r => (seen r.1, Seen.text r.2)) = (coerce memo junk v .string).map (fun v' => (seen v', seen v'))) ∧
    ((asStringArray memo junk v).map (fun r => (seen r.1, Seen.texts r.2)) = (coerce memo junk v .strArray).map (fun v' => (seen v', seen v'))) ∧
    ((asVariantArray memo junk v).map (fun r => (seen r.1, Seen.array r.2)) = (coerce memo junk v .varArray).map (fun v' => (seen v', seen v'))) ∧
    ((asVariantMap memo junk v).map (fun r => (seen r.1, Seen.map r.2)) = (coerce memo junk v .strVarMap).map (fun v' => (seen v', seen v'))) := by
  cases v <;> exact ⟨rfl, rfl, rfl, rfl⟩

/-! Cases: a long that fits, one that does not, a numeral and a text with something after the numeral -/
example : Coerced (seen (ofLong 5)) .integer (.ok (.num .long 5)) := .numInteger _ _ (by decide) (by decide)
example : Coerced (seen (ofLong (2 ^ 31))) .integer (.error .assertion) := .numTooBig _ _ (.inr (by decide))

theorem numeral_readAs {t : List UCS4} {x : Int} {rest : List UCS4} (h : Numeral t x rest) (h1 : -2 ^ 31 ≤ x) (h2 : x < 2 ^ 31) :
    ReadAs t (some (x, if rest = [] then 0 else 1)) := by
  obtain ⟨neg, r, ds, w, vs, a1, a2, a3, a4, a5, a6, rfl⟩ := h
  refine ⟨neg, r, ds, vs, w, rest, ⟨a1, a3, a4, a5, a6⟩, ?_⟩
  have hl := digits_length a3
  have hv : vs ≠ [] := by rintro rfl; exact a2 (List.length_eq_zero_iff.mp hl)
  have hb : numeral r vs ≤ 2 ^ 31 := by unfold denotes at h1 h2; split at h1 <;> simp_all <;> omega
  have e : intOutcome t.length neg r vs w rest = some (denotes neg (numeral r vs), if rest = [] then 0 else 1, t.length - rest.length) := by
    unfold intOutcome
    simp only
    rw [if_neg hv, if_neg (by omega), if_neg (fun h => by have := h.2; omega)]
    have hbm := bmod_of _ _ h1 h2 ⟨0, (by omega : denotes neg (numeral r vs) = denotes neg (numeral r vs) + 0 * 4294967296)⟩
    unfold denotes at hbm ⊢
    rw [hbm]
    congr 3
    exact if_neg (by omega)
  rw [e]; rfl

/-- the text of any 32-bit number, for which `as_int` aborts and `as_longlong` gives the number -/
example (x : Int) (h1 : -2 ^ 31 ≤ x) (h2 : x < 2 ^ 31) : Coerced (.text (snprintf 24 x)) .integer (.error .assertion) ∧
    Coerced (.text (snprintf 24 x)) .longLong (.ok (.num .longLong x)) := by
  have h := numeral_readAs (snprintf_numeral 24 (by omega) x (by omega) (by omega)) h1 h2
  exact ⟨.textGood _ _ _ (by simp) h, .textLongLong _ _ h⟩

/-! ### as_json -/

/-- the code's result for the expected one -/
def Agrees (r : Res (List UCS4)) (o : Option (List Nat)) : Prop :=
  match o with
  | some l => ∃ j, r = .ok j ∧ points j = l
  | none => r = .error .assertion

theorem mapM_escape_abort : ∀ (l : List UCS4), (∃ c ∈ l, 0xFFFFF < c.toNat) → l.mapM escape = .error .assertion
  | [], ⟨c, hc, _⟩ => by cases hc
  | a :: l, h => by
    rw [List.mapM_cons]
    by_cases ha : 0xFFFFF < a.toNat
    · rw [escape_abort a ha]; rfl
    · rw [escape_spec a (by omega), res_bind_ok, mapM_escape_abort l (by
        obtain ⟨c, hc, h1⟩ := h
        rcases List.mem_cons.mp hc with rfl | hc
        · exact absurd h1 ha
        · exact ⟨c, hc, h1⟩)]
      rfl

theorem mapM_written : ∀ (l : List UCS4), (∀ c ∈ l, c.toNat ≤ 0xFFFFF) → (l.map BitVec.toNat).mapM jsonWritten = some (l.map fun c => codes (esc c))
  | [], _ => rfl
  | c :: l, h => by
    rw [List.map_cons, List.mapM_cons, written_eq c (h c (by simp)), mapM_written l (fun d hd => h d (by simp [hd]))]
    rfl

theorem mapM_written_none : ∀ (l : List UCS4), (∃ c ∈ l, 0xFFFFF < c.toNat) → (l.map BitVec.toNat).mapM jsonWritten = none
  | [], ⟨c, hc, _⟩ => by cases hc
  | a :: l, h => by
    rw [List.map_cons, List.mapM_cons]
    by_cases ha : 0xFFFFF < a.toNat
    · have : jsonWritten a.toNat = none := by
        unfold jsonWritten
        rw [if_neg (by omega), if_neg (by omega), if_neg (by omega), if_neg (by omega), if_neg (by omega), if_neg (by omega), if_neg (by omega),
          if_neg (by omega), if_neg (by omega), if_neg (by omega)]
      rw [this]; rfl
    · rw [mapM_written_none l (by
        obtain ⟨c, hc, h1⟩ := h
        rcases List.mem_cons.mp hc with rfl | hc
        · exact absurd h1 ha
        · exact ⟨c, hc, h1⟩)]
      cases jsonWritten a.toNat <;> rfl

theorem quoted_agrees (t : List UCS4) : Agrees (quoted t) (quotedOf t) := by
  by_cases h : ∀ c ∈ t, c.toNat ≤ 0xFFFFF
  · unfold quotedOf
    rw [mapM_written t h]
    refine ⟨[0x22#32] ++ t.flatMap esc ++ [0x22#32], ?_, ?_⟩
    · unfold quoted; rw [asJSON_esc h, res_bind_ok]
    · unfold points
      rw [List.map_append, List.map_append, List.flatMap_def, List.map_flatten, List.map_map]; rfl
  · have h' : ∃ c ∈ t, 0xFFFFF < c.toNat := by
      simp only [Classical.not_forall] at h
      obtain ⟨c, hc, h1⟩ := h
      exact ⟨c, hc, by omega⟩
    unfold quotedOf
    rw [mapM_written_none t h']
    show quoted t = _
    unfold quoted asJSON
    rw [mapM_escape_abort t h']; rfl

/-- the items from the `i`-th on, as the code joins them -/
def joinFrom (sep : List Nat) : Nat → List (List Nat) → List Nat
  | _, [] => []
  | i, j :: js => (if i > 0 then sep else []) ++ j ++ joinFrom sep (i + 1) js

theorem joinFrom_eq (sep : List Nat) (js : List (List Nat)) : joinFrom sep 0 js = sep.intercalate js := by
  have h1 : ∀ (js : List (List Nat)) (j : List Nat) (i : Nat), j ++ joinFrom sep (i + 1) js = sep.intercalate (j :: js) := by
    intro js
    induction js with
    | nil => intro j i; simp [joinFrom, List.intercalate]
    | cons a js ih =>
      intro j i
      unfold joinFrom
      rw [if_pos (by omega), List.append_assoc, ih a (i + 1)]
      simp [List.intercalate]
  cases js with
  | nil => simp [joinFrom, List.intercalate]
  | cons j js => rw [← h1 js j 0]; simp [joinFrom]

theorem agrees_join {r r' : Res (List UCS4)} {o : Option (List Nat)} {o' : Option (List (List Nat))} {sep : List UCS4} {i : Nat}
    (h : Agrees r o) (h' : Agrees r' (o'.map (joinFrom (points sep) (i + 1)))) :
    Agrees (do let j ← r; let r ← r'; .ok ((if i > 0 then sep else []) ++ j ++ r))
      ((do let j ← o; let js ← o'; some (j :: js)).map (joinFrom (points sep) i)) := by
  cases o with
  | none => unfold Agrees at h; simp only at h; rw [h]; exact rfl
  | some l =>
    obtain ⟨j, rfl, rfl⟩ := h
    cases o' with
    | none => unfold Agrees at h'; simp only [Option.map_none] at h'; rw [h']; exact rfl
    | some ls =>
      obtain ⟨j', e1, e2⟩ := h'
      rw [e1]
      refine ⟨_, rfl, ?_⟩
      unfold points at e2 ⊢
      rw [List.map_append, List.map_append, e2]
      show _ = joinFrom _ i (_ :: ls)
      rw [joinFrom]
      congr 2
      split <;> rfl

theorem strings_agree (sep : List UCS4) : ∀ (a : List (List UCS4)) (i : Nat),
    Agrees (stringItems sep i a) ((a.mapM quotedOf).map (joinFrom (points sep) i))
  | [], i => ⟨[], rfl, rfl⟩
  | t :: a, i => by
    rw [stringItems, List.mapM_cons]
    exact agrees_join (quoted_agrees t) (strings_agree sep a (i + 1))

theorem sep_points (indent : Int) : points (separator indent).1 = [0x2C] ++ gapIn indent ∧ points (substr1 (separator indent).1) = gapIn indent ∧
    (separator indent).2 = deeper indent := by
  have ht : ∀ n : Nat, ((List.replicate n [0x20#32, 0x20#32]).flatten).map BitVec.toNat = List.replicate (2 * n) 0x20 := by
    intro n
    induction n with
    | zero => rfl
    | succ n ih => rw [List.replicate_succ, List.flatten_cons, List.map_append, ih, show 2 * (n + 1) = (2 * n + 1) + 1 by omega]; rfl
  unfold separator gapIn deeper substr1 points
  by_cases h2 : indent = -2
  · subst h2; exact ⟨rfl, rfl, rfl⟩
  by_cases h1 : indent = -1
  · subst h1; exact ⟨rfl, rfl, rfl⟩
  rw [if_neg h2, if_neg h1, if_neg h2, if_neg h1, if_neg (by omega)]
  unfold times blanksOf
  have e := ht (indent + 1).toNat
  rw [show (2 * (indent + 1)).toNat = 2 * (indent + 1).toNat by omega]
  refine ⟨?_, ?_, rfl⟩
  · rw [List.map_append, e]; rfl
  · rw [show ([0x2C#32, 0x0A#32] ++ (List.replicate (indent + 1).toNat [0x20#32, 0x20#32]).flatten).drop 1 =
      [0x0A#32] ++ (List.replicate (indent + 1).toNat [0x20#32, 0x20#32]).flatten from rfl, List.map_append, e]; rfl

theorem points_shorter (t : List UCS4) (n : Nat) : points (shorter t n) =
    (let len := Arr.toInt (Arr.wrap ((t.length : Int) - n)); if len < -1 then [] else if len = -1 then points t else (points t).take len.toNat) := by
  unfold shorter points
  simp only
  split
  · rfl
  · split
    · rfl
    · rw [List.map_take]

theorem close_points (indent : Int) (hb : indent < 2 ^ 29) : points (shorter (substr1 (separator indent).1) 2) = gapOut indent := by
  rw [points_shorter]
  have e := (sep_points indent).2.1
  have hl : (substr1 (separator indent).1).length = (gapIn indent).length := by rw [← e]; simp [points]
  rw [hl, e]
  unfold gapIn gapOut
  by_cases h2 : indent = -2
  · subst h2; rfl
  by_cases h1 : indent = -1
  · subst h1; rfl
  rw [if_neg h2, if_neg h1, if_neg h2, if_neg h1]
  simp only [List.length_cons, blanksOf, List.length_replicate]
  by_cases hp : 0 ≤ indent
  · have ew : Arr.toInt (Arr.wrap ((((2 * (indent + 1)).toNat + 1 : Nat) : Int) - 2)) = 2 * indent + 1 := by
      unfold Arr.toInt Arr.wrap; omega
    have ew' : Arr.toInt (Arr.wrap ((((2 * (indent + 1)).toNat + 1 : Nat) : Int) - (2 : Nat))) = 2 * indent + 1 := ew
    rw [ew', if_neg (by omega), if_neg (by omega), show (2 * indent + 1).toNat = (2 * indent).toNat + 1 by omega, List.take_succ_cons,
      List.take_replicate, Nat.min_eq_left (by omega)]
  · rw [show (2 * (indent + 1)).toNat = 0 by omega, show (2 * indent).toNat = 0 by omega]
    rfl

theorem agrees_bracket {r : Res (List UCS4)} {o : Option (List (List Nat))} {indent : Int} {a b : UCS4} (hb : indent < 2 ^ 29)
    (h : Agrees r (o.map (joinFrom (points (separator indent).1) 0))) :
    Agrees (do let items ← r; .ok ([a] ++ substr1 (separator indent).1 ++ items ++ shorter (substr1 (separator indent).1) 2 ++ [b]))
      (o.map (bracketed a.toNat b.toNat indent)) := by
  cases o with
  | none => unfold Agrees at h; simp only [Option.map_none] at h; rw [h]; exact rfl
  | some ls =>
    obtain ⟨j, rfl, e2⟩ := h
    refine ⟨_, rfl, ?_⟩
    rw [joinFrom_eq] at e2
    have c := close_points indent hb
    obtain ⟨s1, s2, -⟩ := sep_points indent
    rw [s1] at e2
    unfold bracketed
    unfold points at e2 c s2 ⊢
    rw [List.map_append, List.map_append, List.map_append, List.map_append, e2, c, s2]
    rfl

mutual
theorem json_agrees (indent : Int) : ∀ (v : Variant), indent + depth v < 2 ^ 29 → Agrees (asJson indent v) (jsonTextOf indent v)
  | .none, _ => ⟨_, rfl, rfl⟩
  | .integer w, _ => ⟨_, rfl, by have := loInt_range w; exact snprintf_decimal 22 (by omega) _ this.1 this.2⟩
  | .long w, _ => ⟨_, rfl, by have := toInt_range w; exact snprintf_decimal 22 (by omega) _ this.1 this.2⟩
  | .longLong w, _ => ⟨_, rfl, by have := toInt_range w; exact snprintf_decimal 22 (by omega) _ this.1 this.2⟩
  | .string t, _ => by rw [asJson, jsonTextOf]; exact quoted_agrees t
  | .strArray a, h => by
    rw [asJson, jsonTextOf]
    exact agrees_bracket (a := 0x5B#32) (b := 0x5D#32) (by omega) (strings_agree _ a 0)
  | .varArray a, h => by
    rw [asJson, jsonTextOf]
    rw [depth] at h
    have e := (sep_points indent).2.2
    simp only [e]
    exact agrees_bracket (a := 0x5B#32) (b := 0x5D#32) (by omega) (items_agree _ (deeper indent) 0 a (by unfold deeper; split <;> omega))
  | .strVarMap m, h => by
    rw [asJson, jsonTextOf]
    rw [depth] at h
    have e := (sep_points indent).2.2
    simp only [e]
    have hc : points (if indent = -2 then [0x3A#32] else [0x3A#32, 0x20#32]) = (if indent = -2 then [0x3A] else [0x3A, 0x20]) := by split <;> rfl
    rw [← hc]
    exact agrees_bracket (a := 0x7B#32) (b := 0x7D#32) (by omega) (members_agree _ _ (deeper indent) 0 m (by unfold deeper; split <;> omega))

theorem items_agree (sep : List UCS4) (indent : Int) (i : Nat) : ∀ (vs : List Variant), indent + depthAll vs < 2 ^ 29 →
    Agrees (jsonItems sep indent i vs) ((jsonTextsOf indent vs).map (joinFrom (points sep) i))
  | [], _ => ⟨[], by rw [jsonItems], rfl⟩
  | v :: vs, h => by
    rw [jsonItems, jsonTextsOf]
    rw [depthAll] at h
    exact agrees_join (json_agrees indent v (by omega)) (items_agree sep indent (i + 1) vs (by omega))

theorem members_agree (sep colon : List UCS4) (indent : Int) (i : Nat) : ∀ (ms : List (List UCS4 × Variant)), indent + depthMembers ms < 2 ^ 29 →
    Agrees (jsonMembers sep colon indent i ms) ((jsonMembersOf (points colon) indent ms).map (joinFrom (points sep) i))
  | [], _ => ⟨[], by rw [jsonMembers], rfl⟩
  | (k, v) :: ms, h => by
    rw [jsonMembers, jsonMembersOf]
    rw [depthMembers] at h
    have h1 := quoted_agrees k
    have h2 := json_agrees indent v (by omega)
    have h3 := members_agree sep colon indent (i + 1) ms (by omega)
    have hq : Agrees (do let q ← quoted k; let j ← asJson indent v; .ok (q ++ colon ++ j))
        (do let q ← quotedOf k; let j ← jsonTextOf indent v; some (q ++ points colon ++ j)) := by
      cases ho : quotedOf k with
      | none => rw [ho] at h1; unfold Agrees at h1; simp only at h1; rw [h1]; exact rfl
      | some q =>
        rw [ho] at h1
        obtain ⟨q', e1, rfl⟩ := h1
        rw [e1]
        cases ho2 : jsonTextOf indent v with
        | none => rw [ho2] at h2; unfold Agrees at h2; simp only at h2; rw [h2]; exact rfl
        | some j =>
          rw [ho2] at h2
          obtain ⟨j', e2, rfl⟩ := h2
          rw [e2]
          exact ⟨_, rfl, by simp [points]⟩
    have := agrees_join (sep := sep) (i := i) hq h3
    revert this
    cases quoted k <;> cases asJson indent v <;> cases jsonMembers sep colon indent (i + 1) ms <;> cases quotedOf k <;> cases jsonTextOf indent v <;>
      cases jsonMembersOf (points colon) indent ms <;> simp [Agrees, bind, Except.bind] <;> intro x <;> simpa [List.append_assoc] using x
end

/-- C84. `as_json` of any Variant at any indent is the text of `jsonTextOf`; it aborts exactly where `jsonTextOf` has none, that is if a
string or a key in it has a character beyond U+FFFFF. -/
theorem C84_json (indent : Int) (v : Variant) (h : indent + depth v < 2 ^ 29) :
    (∀ l, jsonTextOf indent v = some l → ∃ j, asJson indent v = .ok j ∧ points j = l) ∧
    (jsonTextOf indent v = none → asJson indent v = .error .assertion) := by
  have := json_agrees indent v h
  constructor
  · intro l hl; rw [hl] at this; exact this
  · intro hl; rw [hl] at this; exact this

/-! A map with an array in it, compact and at the indent 0 -/
example : jsonTextOf (-2) sampleVariant ≠ none ∧ jsonTextOf 0 (.varArray [.none, .strArray []]) =
    some [0x5B, 0x0A, 0x20, 0x20, 0x6E, 0x75, 0x6C, 0x6C, 0x2C, 0x0A, 0x20, 0x20, 0x5B, 0x0A, 0x20, 0x20, 0x20, 0x20, 0x0A, 0x20, 0x20, 0x5D, 0x0A, 0x5D] := by
  decide +kernel
example : depth sampleVariant = 3 := by decide +kernel
end Strpp.Var
