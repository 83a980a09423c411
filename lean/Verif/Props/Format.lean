import Verif.Proof.Format
/-!
C35: `StrVal::format`. Vocabulary: Verif/Spec/Format.lean. `asStrval` and `asJson` are the conversions of C33 and C34.
-/
namespace Strpp.Fmt
open Spec SV Var

/-- A format string made of text and directives gives, in order, the text and the arguments (converted); a single percent sign
at the end is text too. With too few arguments it aborts. -/
theorem C35_format (memo : Int) (h0 : 0 ≤ memo) (hm : memo < 20) (junk : BitVec 64) (ps : List Piece) (tail : List UCS4) (ht : Tail tail)
    (hv : ∀ p ∈ ps, p.Valid) (args : List Variant) :
    format memo junk (renderAll ps ++ tail) args = (do
      let x ← expandAll memo junk ps args
      .ok (x ++ tail)) :=
  format_spec memo h0 hm junk (renderAll ps ++ tail) args tail ht ps [] 0 ((renderAll ps ++ tail).length + 1) (by simp) hv (by simp)

/-- Text without directives is copied, whatever the arguments. -/
theorem C35_plain (memo : Int) (junk : BitVec 64) (t : List UCS4) (h : 0x25#32 ∉ t) (args : List Variant) :
    format memo junk t args = .ok t := by
  have := text_spec memo junk t args t [] [] 0 1 (by simp) h
  unfold format
  rw [show t.length + 1 = 1 + t.length by omega]
  simp only [List.length_nil] at this
  rw [this, formatLoop, if_neg (by omega)]
  simp

/-- how many of the pieces take an argument -/
def Piece.takes : Piece → Nat
  | .text _ => 0
  | .dir _ _ conv => if conv = 0x73#32 ∨ conv = 0x64#32 ∨ conv = 0x66#32 ∨ conv = 0x67#32 then 1 else 0

def takes (ps : List Piece) : Nat := (ps.map Piece.takes).sum

/-- With fewer arguments than directives that take one, it does not return. -/
theorem C35_too_few (memo : Int) (h0 : 0 ≤ memo) (hm : memo < 20) (junk : BitVec 64) (ps : List Piece) (tail : List UCS4) (ht : Tail tail)
    (hv : ∀ p ∈ ps, p.Valid) (args : List Variant) (h : args.length < takes ps) (t : List UCS4) :
    format memo junk (renderAll ps ++ tail) args ≠ .ok t := by
  rw [C35_format memo h0 hm junk ps tail ht hv]
  have : ∀ (ps : List Piece) (args : List Variant), args.length < takes ps → ∀ x, expandAll memo junk ps args ≠ .ok x := by
    intro ps
    induction ps with
    | nil => intro args h; simp [takes] at h
    | cons p ps ih =>
      intro args h x hx
      have ht : takes (p :: ps) = p.takes + takes ps := by simp [takes]
      rw [ht] at h
      rw [expandAll] at hx
      obtain ⟨⟨y, args'⟩, e1, e2⟩ := hbind hx
      obtain ⟨z, e3, -⟩ := hbind e2
      refine ih args' ?_ z e3
      cases p with
      | text t =>
        simp only [Piece.expand, Except.ok.injEq, Prod.mk.injEq] at e1
        rw [← e1.2]; simpa [Piece.takes] using h
      | dir s q c =>
        simp only [Piece.expand] at e1
        simp only [Piece.takes] at h
        split at e1
        · rename_i hc
          rw [if_pos (Or.inl hc)] at h
          cases args with
          | nil => cases e1
          | cons v args =>
            obtain ⟨w, -, e⟩ := hbind e1
            simp only [Except.ok.injEq, Prod.mk.injEq] at e
            rw [← e.2]; simp only [List.length_cons] at h; omega
        · split at e1
          · rename_i hc
            rw [if_pos (Or.inr hc)] at h
            cases args with
            | nil => cases e1
            | cons v args =>
              obtain ⟨w, -, e⟩ := hbind e1
              simp only [Except.ok.injEq, Prod.mk.injEq] at e
              rw [← e.2]; simp only [List.length_cons] at h; omega
          · rename_i hc hc'
            simp only [Except.ok.injEq, Prod.mk.injEq] at e1
            rw [if_neg (by simpa [hc] using hc')] at h
            rw [← e1.2]; omega
  intro hx
  obtain ⟨x, e, -⟩ := hbind hx
  exact this ps args h x e

/-! ### It never reads outside the strings or the arguments -/

/-- returns, or is stopped by an assertion -/
def Safe {α : Type} (r : Res α) : Prop := ∀ e, r = .error e → e = .assertion

theorem safe_ok {α : Type} (x : α) : Safe (.ok x : Res α) := fun _ h => by cases h

theorem safe_bind {α β : Type} {r : Res α} {g : α → Res β} (h : Safe r) (hg : ∀ x, r = .ok x → Safe (g x)) : Safe (r >>= g) := by
  intro e he
  cases r with
  | error e' => cases he; exact h _ rfl
  | ok x => exact hg x rfl e he

theorem safe_ite {α : Type} {p : Prop} [Decidable p] {a b : Res α} (ha : Safe a) (hb : Safe b) : Safe (if p then a else b) := by
  split <;> assumption

theorem safe_u4 (u : BitVec 16) : Safe (u4 u) := by rw [u4_spec]; exact safe_ok _

theorem safe_escape (c : UCS4) : Safe (escape c) := by
  unfold escape
  iterate 10 refine safe_ite (safe_ok _) ?_
  refine safe_ite (safe_u4 _) ?_
  refine safe_bind ?_ (fun _ _ => safe_bind (safe_u4 _) (fun _ _ => safe_bind (safe_u4 _) (fun _ _ => safe_ok _)))
  intro e
  unfold assert
  split <;> simp
  exact fun h => h.symm

theorem safe_mapM {α β : Type} {g : α → Res β} (h : ∀ x, Safe (g x)) : ∀ l : List α, Safe (l.mapM g) := by
  intro l
  induction l with
  | nil => simp; exact safe_ok _
  | cons x l ih => rw [List.mapM_cons]; exact safe_bind (h x) (fun _ _ => safe_bind ih (fun _ _ => safe_ok _))

theorem safe_quoted (t : List UCS4) : Safe (quoted t) := by
  unfold quoted Var.asJSON
  exact safe_bind (safe_bind (safe_mapM safe_escape t) (fun _ _ => safe_ok _)) (fun _ _ => safe_ok _)

theorem safe_strings (sep : List UCS4) : ∀ (a : List (List UCS4)) (i : Nat), Safe (stringItems sep i a) := by
  intro a
  induction a with
  | nil => intro i; exact safe_ok _
  | cons t a ih => intro i; rw [stringItems]; exact safe_bind (safe_quoted t) (fun _ _ => safe_bind (ih _) (fun _ _ => safe_ok _))

mutual
theorem safe_json (indent : Int) : ∀ v : Variant, Safe (asJson indent v)
  | .none => safe_ok _
  | .integer _ => safe_ok _
  | .long _ => safe_ok _
  | .longLong _ => safe_ok _
  | .string t => safe_quoted t
  | .strArray a => by rw [asJson]; exact safe_bind (safe_strings _ a _) (fun _ _ => safe_ok _)
  | .varArray a => by rw [asJson]; exact safe_bind (safe_items _ _ a _) (fun _ _ => safe_ok _)
  | .strVarMap m => by rw [asJson]; exact safe_bind (safe_members _ _ _ m _) (fun _ _ => safe_ok _)

theorem safe_items (sep : List UCS4) (indent : Int) : ∀ (vs : List Variant) (i : Nat), Safe (jsonItems sep indent i vs)
  | [], _ => safe_ok _
  | v :: vs, i => by
    rw [jsonItems]
    exact safe_bind (safe_json indent v) (fun _ _ => safe_bind (safe_items sep indent vs _) (fun _ _ => safe_ok _))

theorem safe_members (sep colon : List UCS4) (indent : Int) : ∀ (ms : List (List UCS4 × Variant)) (i : Nat), Safe (jsonMembers sep colon indent i ms)
  | [], _ => safe_ok _
  | (k, v) :: ms, i => by
    rw [jsonMembers]
    exact safe_bind (safe_quoted k) (fun _ _ => safe_bind (safe_json indent v) (fun _ _ => safe_bind (safe_members sep colon indent ms _) (fun _ _ => safe_ok _)))
end

theorem safe_strval (memo : Int) (junk : BitVec 64) (v : Variant) : Safe (asStrval memo junk v) := by
  intro e
  cases v <;> simp only [asStrval, coerce, coerceString, mustBe, Variant.type, reduceCtorEq, if_false, res_bind_ok] <;>
    first | (intro h; cases h; done) | (intro h; cases h; rfl)

theorem safe_arg (args : List Variant) (a : Nat) : Safe (arg args a) := by
  intro e
  unfold arg
  split <;> intro h <;> cases h
  rfl

theorem safe_conversion (memo : Int) (junk : BitVec 64) (args : List Variant) (c : UCS4) (a : Nat) : Safe (conversion memo junk args c a) := by
  unfold conversion
  split
  · exact safe_bind (safe_arg _ _) (fun _ _ => safe_bind (safe_strval _ _ _) (fun _ _ => safe_ok _))
  · split
    · exact safe_bind (safe_arg _ _) (fun _ _ => safe_bind (safe_json _ _) (fun _ _ => safe_ok _))
    · exact safe_ok _

/-- No run of ten or more digits. -/
def ShortRuns (f : List UCS4) : Prop := ∀ a ds b : List UCS4, f = a ++ ds ++ b → (∀ c ∈ ds, ∃ v, IsDigit c.toNat v) → ds.length ≤ 9

/-- a star takes only numbers -/
def StarsTakeNumbers (f : List UCS4) (args : List Variant) : Prop := 0x2A#32 ∈ f → ∀ v ∈ args, v.type ≠ .string

theorem charAt_some {f : List UCS4} {i : Nat} (h : i < f.length) : ∃ a r, f = a ++ charAt f i :: r ∧ a.length = i := by
  refine ⟨f.take i, f.drop (i + 1), ?_, by simp; omega⟩
  have : charAt f i = f[i] := by unfold charAt; rw [List.getElem?_eq_getElem h]
  rw [this]; simp

theorem charAt_end {f : List UCS4} : charAt f f.length = 0#32 := by unfold charAt; simp

section
variable (memo : Int) (h0 : 0 ≤ memo) (hm : memo < 20)
include h0 hm

theorem safe_digit (c : UCS4) : Safe (digit memo c 10) := by
  rcases dig memo h0 hm c with ⟨v, -, -, e⟩ | ⟨-, e⟩ <;> rw [e] <;> exact safe_ok _

theorem safe_digitLoop (f : List UCS4) (hs : ShortRuns f) : ∀ (fuel : Nat) (a ds b : List UCS4) (c : UCS4) (n : Int), f = a ++ ds ++ b →
    (∀ c ∈ ds, ∃ v, IsDigit c.toNat v) → ds ≠ [] → 0 ≤ n → n < 10 ^ ds.length → b.length + 1 ≤ fuel →
      Safe (digitLoop memo f fuel (a.length + ds.length - 1) c n) ∧ ∀ r, digitLoop memo f fuel (a.length + ds.length - 1) c n = .ok r →
        a.length + ds.length - 1 ≤ r.1 ∧ r.1 ≤ f.length ∧ 0 ≤ r.2.2 := by
  intro fuel
  induction fuel with
  | zero => intro a ds b c n _ _ _ _ _ h; omega
  | succ fuel ih =>
    intro a ds b c n hf hd hne hn1 hn2 hfu
    have hpos : 0 < ds.length := List.length_pos_iff.mpr hne
    have hlen : f.length = a.length + ds.length + b.length := by rw [hf]; simp only [List.length_append]
    rw [digitLoop, if_pos (by omega), show a.length + ds.length - 1 + 1 = a.length + ds.length by omega]
    rcases dig memo h0 hm (charAt f (a.length + ds.length)) with ⟨v, hv, hdig, e⟩ | ⟨-, e⟩
    · rw [e, res_bind_ok, if_pos (by omega)]
      have hb : b ≠ [] := by
        rintro rfl
        rw [show a.length + ds.length = f.length by simp only [hlen, List.length_nil]; omega, charAt_end] at hdig
        exact nul_not v hdig
      obtain ⟨x, b, rfl⟩ := List.exists_cons_of_ne_nil hb
      have hx : charAt f (a.length + ds.length) = x := charAt_eq (r := b) (a := a ++ ds) hf (by simp)
      rw [hx] at hdig ⊢
      have hf' : f = a ++ (ds ++ [x]) ++ b := by rw [hf]; simp
      have hd' : ∀ c ∈ ds ++ [x], ∃ v, IsDigit c.toNat v := by
        intro y hy
        rcases List.mem_append.mp hy with hy | hy
        · exact hd y hy
        · simp only [List.mem_singleton] at hy; subst hy; exact ⟨v, hdig⟩
      have hl9 := hs _ _ _ hf' hd'
      simp only [List.length_append, List.length_singleton] at hl9
      have hpow : (10 : Int) ^ (ds.length + 1) ≤ 10 ^ 9 := by exact_mod_cast Nat.pow_le_pow_right (by decide) (by omega)
      have hp1 : (10 : Int) ^ (ds.length + 1) = 10 ^ ds.length * 10 := Int.pow_succ ..
      unfold addDigit
      rw [if_neg (by omega), res_bind_ok]
      have := ih a (ds ++ [x]) b x (n * 10 + v) hf' hd' (by simp) (by omega) (by simp only [List.length_append, List.length_singleton]; omega)
        (by simp only [List.length_cons] at hfu; omega)
      simp only [List.length_append, List.length_singleton] at this
      rw [show a.length + (ds.length + 1) - 1 = a.length + ds.length by omega] at this
      refine ⟨this.1, fun r hr => ?_⟩
      have := this.2 r hr
      omega
    · rw [e, res_bind_ok, if_neg (by omega)]
      refine ⟨safe_ok _, fun r hr => ?_⟩
      cases hr
      simp only
      omega

theorem safe_sizeAt (f : List UCS4) (hs : ShortRuns f) (i : Nat) (hi : i ≤ f.length) :
    Safe (sizeAt memo f i (charAt f i)) ∧ ∀ r, sizeAt memo f i (charAt f i) = .ok r → i ≤ r.1 ∧ r.1 ≤ f.length ∧ (0 ≤ r.2.2 ∨ 0x2A#32 ∈ f) := by
  unfold sizeAt
  by_cases hstar : charAt f i = 0x2A#32
  · rw [if_pos (by simpa using hstar)]
    refine ⟨safe_ok _, fun r hr => ?_⟩
    cases hr
    refine ⟨Nat.le_refl _, hi, Or.inr ?_⟩
    have hi' : i < f.length := by
      rcases Nat.lt_or_ge i f.length with h | h
      · exact h
      · rw [show i = f.length by omega, charAt_end] at hstar; exact absurd hstar (by decide)
    obtain ⟨a, r, h, -⟩ := charAt_some hi'
    rw [h, hstar]; simp
  · rw [if_neg (by simpa using hstar)]
    rcases dig memo h0 hm (charAt f i) with ⟨v, hv, hdig, e⟩ | ⟨-, e⟩
    · rw [e, res_bind_ok, if_pos (by omega)]
      have hi' : i < f.length := by
        rcases Nat.lt_or_ge i f.length with h | h
        · exact h
        · rw [show i = f.length by omega, charAt_end] at hdig; exact absurd hdig (nul_not v)
      obtain ⟨a, b, hf, ha⟩ := charAt_some hi'
      have := safe_digitLoop memo h0 hm f hs (f.length + 1) a [charAt f i] b (charAt f i) v (by simpa using hf) (by simpa using ⟨v, hdig⟩) (by simp) (by omega)
        (by simp; omega) (by have := congrArg List.length hf; simp at this; omega)
      simp only [List.length_singleton, Nat.add_sub_cancel, ha] at this
      exact ⟨this.1, fun r hr => ⟨(this.2 r hr).1, (this.2 r hr).2.1, Or.inl (this.2 r hr).2.2⟩⟩
    · rw [e, res_bind_ok, if_neg (by omega)]
      refine ⟨safe_ok _, fun r hr => ?_⟩
      cases hr
      exact ⟨Nat.le_refl _, hi, Or.inl (by simp)⟩

theorem numbered_at (f : List UCS4) (i : Nat) (hi : i ≤ f.length) :
    ∃ j, numbered memo f i (charAt f i) = .ok (j, charAt f j) ∧ i ≤ j ∧ j ≤ f.length := by
  unfold numbered
  obtain ⟨d, e⟩ : ∃ d, digit memo (charAt f i) 10 = .ok d := by
    rcases dig memo h0 hm (charAt f i) with ⟨v, -, -, e⟩ | ⟨-, e⟩ <;> exact ⟨_, e⟩
  rw [e, res_bind_ok]
  split
  · rename_i h
    simp only [Bool.and_eq_true, decide_eq_true_eq] at h
    exact ⟨i + 3, rfl, by omega, by omega⟩
  · exact ⟨i, rfl, Nat.le_refl _, hi⟩

omit h0 hm in
theorem safe_star (junk : BitVec 64) (f : List UCS4) (args : List Variant) (hst : StarsTakeNumbers f args) (n : Int) (hn : 0 ≤ n ∨ 0x2A#32 ∈ f) (a : Nat) :
    Safe (star memo junk args n a) := by
  unfold star
  split
  · rename_i h
    have hin : 0x2A#32 ∈ f := by
      rcases hn with hn | hn
      · simp at h; omega
      · exact hn
    refine safe_bind (safe_arg _ _) (fun v hv => safe_bind ?_ (fun _ _ => safe_ok _))
    have hv' : v ∈ args := by
      unfold arg at hv
      split at hv
      · rename_i w hw; cases hv; exact List.mem_of_getElem? hw
      · cases hv
    have hty := hst hin v hv'
    unfold asInt coerce coerceInteger
    cases v with
    | none => exact safe_bind (fun e h => by simp [mustBe, Variant.type] at h; exact h.symm) (fun x hx => by simp [mustBe, Variant.type] at hx)
    | integer w => exact safe_ok _
    | long w =>
      simp only
      split
      · exact safe_bind (fun e h => by simp [mustBe, Variant.type] at h; exact h.symm) (fun x hx => by simp [mustBe, Variant.type] at hx)
      · exact safe_ok _
    | longLong w =>
      simp only
      split
      · exact safe_bind (fun e h => by simp [mustBe, Variant.type] at h; exact h.symm) (fun x hx => by simp [mustBe, Variant.type] at hx)
      · exact safe_ok _
    | string t => exact absurd rfl hty
    | strArray _ => exact safe_bind (fun e h => by simp [mustBe, Variant.type] at h; exact h.symm) (fun x hx => by simp [mustBe, Variant.type] at hx)
    | varArray _ => exact safe_bind (fun e h => by simp [mustBe, Variant.type] at h; exact h.symm) (fun x hx => by simp [mustBe, Variant.type] at hx)
    | strVarMap _ => exact safe_bind (fun e h => by simp [mustBe, Variant.type] at h; exact h.symm) (fun x hx => by simp [mustBe, Variant.type] at hx)
  · exact safe_ok _

theorem safe_directive (junk : BitVec 64) (f : List UCS4) (args : List Variant) (hs : ShortRuns f) (hst : StarsTakeNumbers f args) (i a : Nat)
    (hi : i + 1 ≤ f.length) : Safe (directive memo junk f args i a) ∧ ∀ r, directive memo junk f args i a = .ok r → i + 1 ≤ r.1 := by
  obtain ⟨j, e1, hj1, hj2⟩ := numbered_at memo h0 hm f (i + 1) hi
  obtain ⟨s1, s2⟩ := safe_sizeAt memo h0 hm f hs j hj2
  have hp : ∀ (p : Nat) (c : UCS4), p ≤ f.length → Safe (precAt memo f p c) ∧ ∀ r, precAt memo f p c = .ok r → p ≤ r.1 ∧ (0 ≤ r.2.2 ∨ 0x2A#32 ∈ f) := by
    intro p c hp
    unfold precAt
    split
    · rename_i h
      simp only [Bool.and_eq_true, decide_eq_true_eq] at h
      obtain ⟨t1, t2⟩ := safe_sizeAt memo h0 hm f hs (p + 1) (by omega)
      refine ⟨t1, fun r hr => ?_⟩
      have := t2 r hr
      exact ⟨by omega, this.2.2⟩
    · refine ⟨safe_ok _, fun r hr => ?_⟩
      cases hr
      exact ⟨Nat.le_refl _, Or.inl (by simp)⟩
  unfold directive
  constructor
  · rw [e1, res_bind_ok]
    refine safe_bind s1 (fun s hs' => ?_)
    have hs'' := s2 s hs'
    refine safe_bind (hp _ _ hs''.2.1).1 (fun q hq => ?_)
    have hq' := (hp _ _ hs''.2.1).2 q hq
    exact safe_bind (safe_star memo junk f args hst _ hs''.2.2 _) (fun _ _ => safe_bind (safe_star memo junk f args hst _ hq'.2 _) (fun _ _ =>
      safe_bind (safe_conversion _ _ _ _ _) (fun _ _ => safe_ok _)))
  · intro r hr
    rw [e1, res_bind_ok] at hr
    obtain ⟨s, e2, hr⟩ := hbind hr
    have hs'' := s2 s e2
    obtain ⟨q, e3, hr⟩ := hbind hr
    have hq' := (hp _ _ hs''.2.1).2 q e3
    obtain ⟨_, -, hr⟩ := hbind hr
    obtain ⟨_, -, hr⟩ := hbind hr
    obtain ⟨_, -, hr⟩ := hbind hr
    cases hr
    simp only
    omega

/-- For every format string (with no number of ten or more digits in it) and all arguments (numbers, where it has stars),
`format` returns or is stopped by an assertion: it ends, and does not read outside the string or the arguments, nor overflow. -/
theorem C35_safe (junk : BitVec 64) (f : List UCS4) (args : List Variant) (hs : ShortRuns f) (hst : StarsTakeNumbers f args) :
    (∃ t, format memo junk f args = .ok t) ∨ format memo junk f args = .error .assertion := by
  have : ∀ (fuel i a : Nat), f.length + 1 ≤ fuel + i → 0 < fuel → Safe (formatLoop memo junk f args fuel i a) := by
    intro fuel
    induction fuel with
    | zero => intro i a _ h; omega
    | succ fuel ih =>
      intro i a hfu _
      rw [formatLoop]
      split
      · rename_i hi
        split
        · exact safe_bind (ih _ _ (by omega) (by omega)) (fun _ _ => safe_ok _)
        · obtain ⟨d1, d2⟩ := safe_directive memo h0 hm junk f args hs hst i a (by omega)
          refine safe_bind d1 (fun d hd => ?_)
          have := d2 d hd
          exact safe_bind (ih _ _ (by omega) (by omega)) (fun _ _ => safe_ok _)
      · exact safe_ok _
  have := this (f.length + 1) 0 0 (by omega) (by omega)
  unfold format
  cases h : formatLoop memo junk f args (f.length + 1) 0 0 with
  | ok t => exact Or.inl ⟨t, rfl⟩
  | error e => rw [this e h]; exact Or.inr rfl

end

/-! ### What it does otherwise -/

def ascii (s : String) : List UCS4 := s.toList.map fun c => BitVec.ofNat 32 c.toNat

/-- An argument number is not used, and hides the conversion: `%1$s` takes no argument and prints nothing. -/
theorem C35_refuted_numbered (junk : BitVec 64) (args : List Variant) :
    format 0 junk (ascii "%1$s") args = .ok [] := by
  rfl

/-- A star takes an argument, and then is itself the conversion: `%*d` prints a `d`, not the number. -/
theorem C35_refuted_star (junk : BitVec 64) :
    format 0 junk (ascii "%*d") [ofInt 8, ofInt 5] = .ok (ascii "d") := by rfl

/-- There is no way to print a percent sign but as the last character: `%%` prints nothing. -/
theorem C35_percent (junk : BitVec 64) (args : List Variant) : format 0 junk (ascii "100%% of") args = .ok (ascii "100 of") := by rfl

/-- A number of ten digits overflows an `int`. -/
theorem C35_refuted_overflow (junk : BitVec 64) :
    format 0 junk (ascii "%9999999999d") [ofInt 5] = .error .ub := by rfl

/-- C35. A size whose number an `int` cannot hold is a fault (overflow of an `int`), wherever the directive stands and
whatever the arguments: the bound in `AreDigits` is exact. -/
theorem C35_refuted_size (memo : Int) (h0 : 0 ≤ memo) (hm : memo < 20) (junk : BitVec 64) (t ds : List UCS4) (vs : List Nat) (e : UCS4)
    (r : List UCS4) (args : List Variant) (ht : 0x25#32 ∉ t) (hd : Digits 10 ds vs) (hv : 2147483647 < numeral 10 vs)
    (he : ∀ v, ¬ IsDigit e.toNat v) (h1 : e ≠ 0x24#32) (h2 : e ≠ 0x2A#32) :
    format memo junk (t ++ 0x25#32 :: (ds ++ e :: r)) args = .error .ub := by
  generalize hf : t ++ 0x25#32 :: (ds ++ e :: r) = f
  have hl : f.length = t.length + (ds.length + r.length + 2) := by rw [← hf]; simp; omega
  unfold format
  have key := text_spec memo junk f args t [] (0x25#32 :: (ds ++ e :: r)) 0 (f.length + 1 - t.length) (by rw [← hf]; simp) ht
  simp only [List.length_nil, Nat.zero_add] at key
  rw [show f.length + 1 = f.length + 1 - t.length + t.length by omega, key]
  obtain ⟨fuel, hfu⟩ : ∃ m, f.length + 1 - t.length = m + 1 := ⟨f.length - t.length, by omega⟩
  have hc : charAt f t.length = 0x25#32 := charAt_eq hf.symm rfl
  rw [hfu, formatLoop, if_pos (by omega), if_neg (by rw [hc]; simp; omega)]
  have hf1 : f = (t ++ [0x25#32]) ++ (ds ++ e :: r) := by rw [← hf]; simp
  have hl1 : (t ++ [0x25#32]).length = t.length + 1 := by simp
  have g1 := numbered_digits memo h0 hm f e he h1 r ds _ hf1 (Digits.each hd)
  have g2 := sizeAt_val memo h0 hm f e he h2 r ds _ vs hf1 hd
  rw [hl1] at g1 g2
  have g3 : sizeAt memo f (t.length + 1) (charAt f (t.length + 1)) = .error .ub := g2.trans (if_neg (by omega))
  unfold directive
  rw [g1, res_bind_ok]
  simp only
  rw [g3]
  rfl

/-- The largest size, and one more -/
example : format 0 0#64 (ascii "%2147483647d") [ofInt 5] = .ok (ascii "5") ∧ format 0 0#64 (ascii "%2147483648d") [ofInt 5] = .error .ub :=
  ⟨by decide +kernel, by decide +kernel⟩

/-! ### The hypotheses are met -/

/-- test/medley_test.cpp formats "Value: '%s', length %d" this way -/
def medley : List Piece :=
  [.text (ascii "Value: '"), .dir [] none 0x73#32, .text (ascii "', length "), .dir [] none 0x64#32]

theorem not_digit_lower (c : UCS4) (h : c.toNat = 0x73 ∨ c.toNat = 0x64) : ∀ v, ¬ IsDigit c.toNat v := by
  rintro v ⟨b, hb, h1, h2, h3⟩
  have : ∀ b ∈ digitBlocks, b.1 = 0x30 ∨ 0x100 ≤ b.1 := by decide +kernel
  have := this b hb
  omega

theorem medley_valid : ∀ p ∈ medley, p.Valid := by
  intro p hp
  simp only [medley, List.mem_cons, List.not_mem_nil, or_false] at hp
  rcases hp with rfl | rfl | rfl | rfl
  · simp only [Piece.Valid]; decide
  · exact ⟨⟨[], trivial, by decide⟩, by simp, not_digit_lower _ (Or.inl rfl), by decide, by decide, by decide⟩
  · simp only [Piece.Valid]; decide
  · exact ⟨⟨[], trivial, by decide⟩, by simp, not_digit_lower _ (Or.inr rfl), by decide, by decide, by decide⟩

example : format 0 0#64 (ascii "Value: '%s', length %d") [.string (ascii "xyz"), ofInt 3] = .ok (ascii "Value: 'xyz', length 3") := by
  have := C35_format 0 (by decide) (by decide) 0#64 medley [] (Or.inl rfl) medley_valid [.string (ascii "xyz"), ofInt 3]
  rw [show ascii "Value: '%s', length %d" = renderAll medley ++ [] by decide +kernel, this]
  decide +kernel

example (junk : BitVec 64) (t : List UCS4) : format 0 junk (renderAll medley) [ofInt 3] ≠ .ok t := by
  have := C35_too_few 0 (by decide) (by decide) junk medley [] (Or.inl rfl) medley_valid [ofInt 3] (by decide +kernel) t
  simpa using this

example (args : List Variant) (junk : BitVec 64) :
    (∃ t, format 0 junk (ascii "%1$s %%%s %") args = .ok t) ∨ format 0 junk (ascii "%1$s %%%s %") args = .error .assertion := by
  refine C35_safe 0 (by decide) (by decide) junk _ args ?_ ?_
  · intro a ds b h hd
    have h1 : ∀ c ∈ ds, c = 0x31#32 := by
      intro c hc
      have hc' : c ∈ ascii "%1$s %%%s %" := by rw [h]; simp [hc]
      have e : ascii "%1$s %%%s %" = [0x25#32, 0x31#32, 0x24#32, 0x73#32, 0x20#32, 0x25#32, 0x25#32, 0x25#32, 0x73#32, 0x20#32, 0x25#32] := by decide +kernel
      rw [e] at hc'
      obtain ⟨v, b, hb, g1, g2, g3⟩ := hd c hc
      have hx : ∀ b ∈ digitBlocks, b.1 = 0x30 ∨ 0x100 ≤ b.1 := by decide +kernel
      have hx' := hx b hb
      simp only [List.mem_cons, List.not_mem_nil, or_false] at hc'
      apply BitVec.eq_of_toNat_eq
      have hn : c.toNat = 0x25 ∨ c.toNat = 0x31 ∨ c.toNat = 0x24 ∨ c.toNat = 0x73 ∨ c.toNat = 0x20 := by
        rcases hc' with rfl | rfl | rfl | rfl | rfl | rfl | rfl | rfl | rfl | rfl | rfl <;> decide
      show c.toNat = 0x31
      omega
    have := List.count_le_length (a := (0x31#32 : UCS4)) (l := ds)
    have hcount : ds.length = ds.count 0x31#32 := by
      rw [List.count_eq_length.mpr (fun c hc => (h1 c hc).symm)]
    have hf : (ascii "%1$s %%%s %").count 0x31#32 = 1 := by decide +kernel
    rw [h, List.count_append, List.count_append] at hf
    omega
  · intro h
    exact absurd h (by decide +kernel)

end Strpp.Fmt
