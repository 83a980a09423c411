import Verif.Proof.RxLang
import Verif.Proof.RxNumber
import Verif.Spec.RxFeature
/-! The scanner on a written expression. -/
set_option linter.unusedSimpArgs false
namespace Strpp.Rx
open Spec

/-- the tokens of the atom of a repetition, if `ts` are its tokens otherwise -/
def atomToks (a : Re) (d : List UCS4) (ts : List Ev) : List Ev :=
  match a with
  | .chr _ c => flush d ++ [.tok (.lit [c])]
  | _ => ts

/-- The tokens of an expression when `d` is the literal not yet sent, and the literal not yet sent after it -/
def toks : Re → List UCS4 → List Ev × List UCS4
  | .empty, d => ([], d)
  | .chr _ c, d => ([], d ++ [c])
  | .any, d => (flush d ++ [.tok .any], [])
  | .bol, d => (flush d ++ [.tok .bol], [])
  | .eol, d => (flush d ++ [.tok .eol], [])
  | .cls neg _ rs, d => (flush d ++ [.tok (.cls neg (rangeChars rs))], [])
  | .prop _ p, d => (flush d ++ [.tok (.prop [p.code])], [])
  | .seq a b, d => ((toks a d).1 ++ (toks b (toks a d).2).1, (toks b (toks a d).2).2)
  | .alt a b, d => ((toks a d).1 ++ (flush (toks a d).2 ++ [.tok .alternate]) ++ (toks b []).1, (toks b []).2)
  | .star a, d => (atomToks a d (toks a d).1 ++ [.tok (.rep 0 0)], [])
  | .plus a, d => (atomToks a d (toks a d).1 ++ [.tok (.rep 1 0)], [])
  | .opt a, d => (atomToks a d (toks a d).1 ++ [.tok (.rep 0 1)], [])
  | .rep _ mn mx a, d => (atomToks a d (toks a d).1 ++ [.tok (.rep mn (mx.getD 0))], [])
  | .grp _ a, d => ((flush d ++ [.tok .group]) ++ (toks a []).1 ++ (flush (toks a []).2 ++ [.tok .endGroup]), [])

/-- `scanLoop` without fuel -/
inductive Scans (cfg : Cfg) : List UCS4 → List UCS4 → List Ev → Prop
  | nil (d : List UCS4) : Scans cfg [] d (flush d)
  | cons (ch : UCS4) (r d : List UCS4) (s : Step) (evs : List Ev) : scanStep cfg ch r d = .ok s → s.2.1.length ≤ r.length →
      Scans cfg s.2.1 s.2.2 evs → Scans cfg (ch :: r) d (s.1 ++ evs)

theorem Scans.loop {cfg s d evs} (h : Scans cfg s d evs) : ∀ fuel, s.length ≤ fuel → scanLoop cfg fuel s d = .ok evs := by
  induction h with
  | nil d => intro fuel _; cases fuel <;> rfl
  | cons ch r d s evs h1 h2 _ ih =>
    intro fuel hf
    match fuel with
    | 0 => simp at hf
    | fuel + 1 =>
      rw [scanLoop, h1, res_bind_ok, ih fuel (by simp at hf; omega)]; rfl

/-- the next character is neither a repetition nor, in an extended expression, the beginning of a comment -/
def NR (cfg : Cfg) (s : List UCS4) : Prop := isRepeat (peek s 0) = false ∧ (On cfg .extendedRE → peek s 0 ≠ 0x23#32)

@[simp] theorem peek_cons (c : UCS4) (s : List UCS4) : peek (c :: s) 0 = c := by simp [peek]
@[simp] theorem peek_cons1 (c d : UCS4) (s : List UCS4) : peek (c :: d :: s) 1 = d := by simp [peek]
@[simp] theorem peek_cons2 (c d e : UCS4) (s : List UCS4) : peek (c :: d :: e :: s) 2 = e := by simp [peek]

theorem peek_succ (c : UCS4) (s : List UCS4) (k : Nat) : peek (c :: s) (k + 1) = peek s k := by
  simp [peek]

theorem NR.nil {cfg : Cfg} : NR cfg [] := ⟨rfl, fun _ => by decide⟩

theorem NR.cons {cfg : Cfg} {c : UCS4} {s : List UCS4} (h : isRepeat c = false) (h' : c ≠ 0x23#32) : NR cfg (c :: s) := by
  unfold NR; rw [peek_cons]; exact ⟨h, fun _ => h'⟩

theorem NR.blank {cfg : Cfg} {w : List UCS4} (h : Blank cfg w) (k : List UCS4) (hk : NR cfg k) : NR cfg (w ++ k) := by
  have : ∀ c ∈ blanks, isRepeat c = false ∧ c ≠ 0x23#32 := by
    intro c hc
    simp only [blanks, List.mem_cons, List.not_mem_nil, or_false] at hc
    rcases hc with rfl | rfl | rfl | rfl <;> decide
  cases h with
  | nil => exact hk
  | white c w h1 h2 _ => exact NR.cons (this c h2).1 (this c h2).2
  | comment c x w h1 h2 _ _ => exact NR.cons (this c h2).1 (this c h2).2

/-- The first character of a written expression begins an atom -/
theorem NR_write {cfg : Cfg} {top : Bool} {r : Re} {u : List UCS4} (h : Written cfg top r u) :
    ∀ k : List UCS4, (r.isAtom = true ∨ NR cfg k) → NR cfg (u ++ k) := by
  induction h with
  | blank top r w u hw _ ih => intro k hk; rw [List.append_assoc]; exact NR.blank hw _ (ih k hk)
  | empty => intro k h; exact h.resolve_left (by simp [Re.isAtom])
  | chr top s c hs hc =>
    intro k _
    cases s with
    | plain =>
      obtain ⟨h1, -, -, h4⟩ := hs
      simp only [List.mem_cons, List.not_mem_nil, or_false, not_or] at h1
      unfold NR
      show isRepeat (peek (c :: k) 0) = false ∧ (On cfg .extendedRE → peek (c :: k) 0 ≠ 0x23#32)
      rw [peek_cons]
      refine ⟨?_, fun he hc => h4 (by rw [hc]; simp) he⟩
      simp only [isRepeat, Bool.or_eq_false_iff, beq_eq_false_iff_ne]
      exact ⟨⟨⟨h1.2.1, h1.2.2.1⟩, h1.1⟩, h1.2.2.2.1⟩
    | quoted => exact NR.cons rfl (by decide)
    | letter l => exact NR.cons rfl (by decide)
    | code w => exact NR.cons rfl (by decide)
  | any | bol | eol | cls | prop | braces | grp | group => intro k _; exact NR.cons rfl (by decide)
  | seq top a b u v _ _ _ iha ihb =>
    intro k h
    rw [List.append_assoc]
    exact iha _ (.inr (ihb k (.inr (h.resolve_left (by simp [Re.isAtom])))))
  | alt a b u w v _ _ hw _ _ iha ihb =>
    intro k h
    rw [List.append_assoc, List.append_assoc]
    exact iha _ (.inr (NR.blank hw _ (NR.cons rfl (by decide))))
  | star top a u _ _ hat _ ih | plus top a u _ hat _ ih | opt top a u _ hat _ ih =>
    intro k _
    rw [List.append_assoc]
    exact ih _ (.inl hat)
  | rep top w mn mx a u _ hat _ _ _ ih =>
    intro k _
    rw [List.append_assoc, List.append_assoc]
    exact ih _ (.inl hat)

/-! ### Steps -/

theorem literal_nr {cfg : Cfg} {c : UCS4} {r d : List UCS4} (h : NR cfg r) : literal c r d = ([], r, d ++ [c]) := by
  unfold literal; rw [if_neg (by rw [h.1]; simp)]

theorem literal_rep {c : UCS4} {r d : List UCS4} (h : isRepeat (peek r 0) = true) : literal c r d = (flush d, r, [c]) := by
  unfold literal; rw [if_pos h]

theorem on_iff {cfg : Cfg} {f : Feature} : On cfg f ↔ cfg.enabled f = true := by
  unfold On Cfg.enabled
  cases cfg.features f <;> cases cfg.rejected f <;> simp

theorem not_on {cfg : Cfg} {f : Feature} (h : ¬ On cfg f) : cfg.enabled f = false := by
  rw [on_iff] at h; simpa using h

theorem special_on {cfg : Cfg} {f : Feature} {ch : UCS4} {r d : List UCS4} {st : Res Step} (h : On cfg f) :
    special cfg f ch r d st = st := by
  unfold special
  rw [if_neg (by rw [h.2]; simp), if_pos h.1]

theorem special_off {cfg : Cfg} {f : Feature} {ch : UCS4} {r d : List UCS4} {st : Res Step} (h : Off cfg f) :
    special cfg f ch r d st = .ok (literal ch r d) := by
  unfold special
  rw [if_neg (by rw [h.2]; simp), if_neg (by rw [h.1]; simp)]

theorem step_plain {cfg : Cfg} {c : UCS4} {r d : List UCS4} (hc : PlainIn cfg c) :
    scanStep cfg c r d = .ok (literal c r d) := by
  obtain ⟨h1, h2, h3, h4⟩ := hc
  simp only [List.mem_cons, List.not_mem_nil, or_false, not_or] at h1
  have hsp : ∀ f, (c, f) ∈ specialIf → ∀ st, special cfg f c r d st = .ok (literal c r d) := fun f hf st => special_off (h2 f hf)
  unfold scanStep
  by_cases e1 : c = 0x5E#32
  · subst e1; exact hsp .bol (by decide) _
  by_cases e2 : c = 0x24#32
  · subst e2; exact hsp .eol (by decide) _
  by_cases e3 : c = 0x2E#32
  · have := on_iff.mp (h3 e3)
    subst e3
    simp [this]
  by_cases e4 : c = 0x5B#32
  · subst e4; exact hsp .charClasses (by decide) _
  by_cases e5 : c = 0x7C#32
  · subst e5; exact hsp .alternates (by decide) _
  by_cases e6 : c = 0x28#32
  · subst e6; exact hsp .group (by decide) _
  by_cases e7 : c = 0x29#32
  · subst e7
    have h := h2 .group (by decide)
    have : cfg.enabled .group = false := by unfold Cfg.enabled; rw [h.1]; rfl
    simp [this]
  obtain ⟨g1, g2, g3, g4, g5⟩ := h1
  simp only [beq_iff_eq, e1, e2, e3, e4, e5, e6, e7, g1, g2, g3, g4, g5, if_false]
  refine if_neg ?_
  intro hc
  simp only [Bool.and_eq_true, Bool.or_eq_true, beq_iff_eq] at hc
  refine h4 ?_ (on_iff.mpr hc.2)
  simp only [blanks, List.mem_cons]
  rcases hc.1 with ((h | h) | h) | h <;> simp [h]

theorem toNat_ne {c : UCS4} {n : Nat} (h : c ≠ BitVec.ofNat 32 n) (hn : n < 2 ^ 32) : c.toNat ≠ n := by
  intro he
  apply h
  apply BitVec.eq_of_toNat_eq
  rw [BitVec.toNat_ofNat, Nat.mod_eq_of_lt hn, he]

theorem step_quoted {cfg : Cfg} {c : UCS4} {r d : List UCS4} (hc : ∀ f, (c, f) ∈ escapeIf → ¬ On cfg f) :
    scanStep cfg 0x5C#32 (c :: r) d = .ok (literal c r d) := by
  have e : scanStep cfg 0x5C#32 (c :: r) d = scanEscape cfg (c :: r) d := rfl
  rw [e]
  have hoff : ∀ f, (c, f) ∈ escapeIf → cfg.enabled f = false := fun f hf => not_on (hc f hf)
  unfold scanEscape
  simp only [peek_cons, List.drop_succ_cons, List.drop_zero]
  cases he : cEscape c with
  | some x =>
    have : cfg.enabled .cEscapes = false := by
      apply hoff
      unfold cEscape at he
      by_cases a1 : c = 0x62#32
      · subst a1; decide
      by_cases a2 : c = 0x65#32
      · subst a2; decide
      by_cases a3 : c = 0x66#32
      · subst a3; decide
      by_cases a4 : c = 0x6E#32
      · subst a4; decide
      by_cases a5 : c = 0x74#32
      · subst a5; decide
      by_cases a6 : c = 0x72#32
      · subst a6; decide
      simp [a1, a2, a3, a4, a5, a6] at he
    simp [this]
  | none =>
    simp only
    by_cases ho : (decide (0x30 ≤ c.toNat) && decide (c.toNat ≤ 0x37)) = true
    · have : cfg.enabled .octalChar = false := by
        apply hoff
        simp only [Bool.and_eq_true, decide_eq_true_eq] at ho
        have hn : ∀ n, c.toNat = n → n < 2 ^ 32 → c = BitVec.ofNat 32 n := fun n h1 h2 => by
          apply BitVec.eq_of_toNat_eq; rw [h1, BitVec.toNat_ofNat, Nat.mod_eq_of_lt h2]
        rcases (by omega : c.toNat = 0x30 ∨ c.toNat = 0x31 ∨ c.toNat = 0x32 ∨ c.toNat = 0x33 ∨ c.toNat = 0x34 ∨ c.toNat = 0x35 ∨
          c.toNat = 0x36 ∨ c.toNat = 0x37) with h | h | h | h | h | h | h | h <;> rw [hn _ h (by omega)] <;> decide
      rw [if_pos ho, if_neg (by rw [this]; simp)]
    · rw [if_neg ho]
      by_cases a1 : c = 0x78#32
      · have : cfg.enabled .hexChar = false := hoff _ (by subst a1; decide)
        rw [if_pos (by simp [a1]), if_neg (by rw [this]; simp)]
      rw [if_neg (by simpa using a1)]
      by_cases a2 : c = 0x75#32
      · have : cfg.enabled .unicodeChar = false := hoff _ (by subst a2; decide)
        rw [if_pos (by simp [a2]), if_neg (by rw [this]; simp)]
      rw [if_neg (by simpa using a2)]
      by_cases a3 : (c == 0x73#32 || c == 0x64#32 || c == 0x68#32) = true
      · have : cfg.enabled .shorthand = false := by
          apply hoff
          simp only [Bool.or_eq_true, beq_iff_eq] at a3
          rcases a3 with (rfl | rfl) | rfl <;> decide
        rw [if_pos a3, if_neg (by rw [this]; simp)]
      rw [if_neg a3]
      by_cases a4 : c = 0x70#32
      · have : cfg.enabled .propertyChars = false := hoff _ (by subst a4; decide)
        rw [if_pos (by simp [a4]), if_neg (by rw [this]; simp)]
      rw [if_neg (by simpa using a4)]

theorem step_letter {cfg : Cfg} {l c : UCS4} {r d : List UCS4} (h : (l, c) ∈ letterMeanings) (hc : On cfg .cEscapes) :
    scanStep cfg 0x5C#32 (l :: r) d = .ok (literal c r d) := by
  have e : scanStep cfg 0x5C#32 (l :: r) d = scanEscape cfg (l :: r) d := rfl
  rw [e]
  have hl : cEscape l = some c := by
    simp only [letterMeanings, List.mem_cons, List.not_mem_nil, or_false, Prod.mk.injEq] at h
    rcases h with ⟨rfl, rfl⟩ | ⟨rfl, rfl⟩ | ⟨rfl, rfl⟩ | ⟨rfl, rfl⟩ | ⟨rfl, rfl⟩ | ⟨rfl, rfl⟩ <;> rfl
  unfold scanEscape
  simp only [peek_cons, hl]
  rw [if_pos (on_iff.mp hc)]
  rfl

/-- a code, after the backslash and a letter -/
theorem scanCode_value (radix : Nat) (h2 : 2 ≤ radix) (h16 : radix ≤ 16) (msg : String) (ds : List UCS4) (vs : List Nat) (c : UCS4)
    (hne : ds ≠ []) (ha : ∀ d ∈ ds, d.toNat < 128) (hd : Digits radix ds vs) (hl : ds.length ≤ 5) (hc : c.toNat = numeral radix vs)
    (r d : List UCS4) : scanCode radix msg ds (ds ++ r) d = .ok (literal c r d) := by
  have hs := numeral_lt radix h2 ds vs hd
  have : radix ^ ds.length ≤ 16 ^ 5 :=
    Nat.le_trans (Nat.pow_le_pow_left h16 _) (Nat.pow_le_pow_right (by omega) hl)
  unfold scanCode
  rw [number_value radix h2 (by omega) ds vs hne ha hd (by omega) (by omega), res_bind_ok]
  have hlen : ds.length ≠ 0 := by simpa using hne
  rw [if_neg (by simp [hlen])]
  rw [List.drop_left, ← hc]
  congr 2
  apply BitVec.eq_of_toNat_eq
  simp

theorem step_code {cfg : Cfg} {w : List UCS4} {c : UCS4} {r d : List UCS4} (h : CodeOf w c) (hx : w.head? = some 0x78#32 → On cfg .hexChar)
    (hu : w.head? = some 0x75#32 → On cfg .unicodeChar) (ho : w.head? ≠ some 0x78#32 → w.head? ≠ some 0x75#32 → On cfg .octalChar) :
    scanStep cfg 0x5C#32 (w ++ r) d = .ok (literal c r d) := by
  have e : scanStep cfg 0x5C#32 (w ++ r) d = scanEscape cfg (w ++ r) d := rfl
  rw [e]
  obtain ⟨radix, pre, ds, vs, rfl, ha, hd, hk, hc⟩ := h
  have htake : ∀ n, ds.length = n → (ds ++ r).take n = ds := fun n hn => by rw [← hn, List.take_left]
  rcases hk with ⟨rfl, rfl, hl⟩ | ⟨rfl, rfl, hl⟩ | ⟨rfl, rfl, hl⟩
  · have hv := scanCode_value 8 (by omega) (by omega) "Illegal octal character" ds vs c (by rintro rfl; simp at hl) ha hd (by omega) hc r d
    rw [List.nil_append]
    have htk := htake 3 hl
    match ds, vs, hd with
    | x :: ds, v :: vs, hd =>
      have hx := ascii_digit hd.1 (ha x (by simp))
      have hb := hd.1.2
      have hx : x.toNat = 0x30 + v ∧ v ≤ 7 := by
        rcases hx with h | h
        · omega
        · exfalso
          rcases hd.1.1 with ⟨b, hb, h1, h2, h3⟩ | h
          · rcases block_ascii b hb with rfl | h'
            · simp at h3; omega
            · have := ha x (by simp); omega
          · omega
      have hcond : (decide (0x30 ≤ x.toNat) && decide (x.toNat ≤ 0x37)) = true := by simp; omega
      have hesc : cEscape x = none := by
        unfold cEscape
        have : ∀ n, 0x38 ≤ n → n < 2 ^ 32 → (x == BitVec.ofNat 32 n) = false := by
          intro n h1 h2
          rw [beq_eq_false_iff_ne]
          rintro rfl
          rw [BitVec.toNat_ofNat, Nat.mod_eq_of_lt h2] at hx
          omega
        rw [this 0x62 (by omega) (by omega), this 0x65 (by omega) (by omega), this 0x66 (by omega) (by omega),
          this 0x6E (by omega) (by omega), this 0x74 (by omega) (by omega), this 0x72 (by omega) (by omega)]
        rfl
      unfold scanEscape
      simp only [List.cons_append, peek_cons, hesc, hcond, if_true]
      have hon : On cfg .octalChar := by
        apply ho
        · intro h; have h := Option.some.inj h; rw [h] at hx; simp at hx; omega
        · intro h; have h := Option.some.inj h; rw [h] at hx; simp at hx; omega
      rw [if_pos (on_iff.mp hon)]
      rw [← List.cons_append, htk]
      exact hv
  · have hv := scanCode_value 16 (by omega) (by omega) "Illegal hexadecimal character" ds vs c (by rintro rfl; simp at hl) ha hd (by omega) hc r d
    have hon := on_iff.mp (hx rfl)
    show (if cfg.enabled .hexChar then scanCode 16 "Illegal hexadecimal character" ((ds ++ r).take 2) (ds ++ r) d else _) = _
    rw [if_pos hon]
    rw [htake 2 hl]; exact hv
  · have hv := scanCode_value 16 (by omega) (by omega) "Illegal Unicode escape" ds vs c (by rintro rfl; simp at hl) ha hd (by omega) hc r d
    have hon := on_iff.mp (hu rfl)
    show (if cfg.enabled .unicodeChar then scanCode 16 "Illegal Unicode escape" ((ds ++ r).take 5) (ds ++ r) d else _) = _
    rw [if_pos hon]
    rw [htake 5 hl]; exact hv

theorem step_braces {cfg : Cfg} (p : Shorthand) (r d : List UCS4) (h : On cfg .propertyChars) :
    scanStep cfg 0x5C#32 (0x70#32 :: 0x7B#32 :: p.code :: 0x7D#32 :: r) d = .ok (flush d ++ [.tok (.prop [p.code])], r, []) := by
  have e : scanStep cfg 0x5C#32 (0x70#32 :: 0x7B#32 :: p.code :: 0x7D#32 :: r) d =
    (if cfg.enabled .propertyChars then .ok (scanProp (0x70#32 :: 0x7B#32 :: p.code :: 0x7D#32 :: r) d) else _) := rfl
  rw [e, if_pos (on_iff.mp h)]
  cases p <;> rfl

theorem step_prop {cfg : Cfg} (p : Shorthand) (r d : List UCS4) (h : On cfg .shorthand) :
    scanStep cfg 0x5C#32 (p.code :: r) d = .ok (flush d ++ [.tok (.prop [p.code])], r, []) := by
  have e : scanStep cfg 0x5C#32 (p.code :: r) d = scanEscape cfg (p.code :: r) d := rfl
  rw [e]
  unfold scanEscape
  simp only [peek_cons]
  cases p <;> exact if_pos (on_iff.mp h)

/-! ### Classes -/

theorem brackets_ne {neg : Bool} {rs : List (UCS4 × UCS4)} {t : List UCS4} (h : Brackets neg rs t) : rs ≠ [] := by
  cases h with
  | special => simp
  | usual _ _ h => exact h

/-- the character after an optional backslash -/
def unquote (s : List UCS4) : List UCS4 := if peek s 0 == 0x5C#32 then s.drop 1 else s

theorem unquote_in {c : UCS4} {w : List UCS4} (h : InBrackets c w) (k : List UCS4) : unquote (w ++ k) = c :: k := by
  unfold unquote
  cases h with
  | bare h1 h2 => simp only [List.cons_append, List.nil_append, peek_cons]; rw [if_neg (by simpa using h2)]
  | quoted => rfl

theorem in_nz {c : UCS4} {w : List UCS4} (h : InBrackets c w) (k : List UCS4) (hc : c ≠ 0#32) : peek (w ++ k) 0 ≠ 0#32 := by
  cases h with
  | bare => simpa using hc
  | quoted => simp

theorem in_close {c : UCS4} {w : List UCS4} (h : InBrackets c w) (k : List UCS4) : peek (w ++ k) 0 ≠ 0x5D#32 := by
  cases h with
  | bare h1 _ => simpa using h1
  | quoted => simp

theorem in_len {c : UCS4} {w : List UCS4} (h : InBrackets c w) : 1 ≤ w.length := by cases h <;> simp

/-- where a bare `-` can be: last -/
theorem ranges_minus {rs : List (UCS4 × UCS4)} {t : List UCS4} (h : Ranges rs t) (k : List UCS4)
    (hm : peek (t ++ 0x5D#32 :: k) 0 = 0x2D#32) : peek (t ++ 0x5D#32 :: k) 1 = 0x5D#32 := by
  cases h with
  | nil => simp at hm
  | minus => simp
  | one c w rs t hw hv _ =>
    cases hw with
    | bare h1 h2 => simp at hm; exact absurd (by rw [hm]) hv
    | quoted => simp at hm
  | range a b v w rs t hw hv _ _ =>
    cases hw with
    | bare h1 h2 => simp at hm; exact absurd (by rw [hm]) hv
    | quoted => simp at hm

/-- one character of a class -/
theorem classLoop_one {c : UCS4} {w : List UCS4} (h : InBrackets c w) (h0 : c ≠ 0#32) (k param : List UCS4)
    (hk : peek k 0 = 0x2D#32 → peek k 1 = 0x5D#32) (fuel : Nat) :
    classLoop (fuel + 1) param (w ++ k) = classLoop fuel (param ++ [c, c]) k := by
  have hu : (if (peek (w ++ k) 0 == 0x5C#32) = true then (w ++ k).drop 1 else w ++ k) = c :: k := unquote_in h k
  rw [classLoop, if_neg (by simpa using in_nz h k h0), if_neg (by simpa using in_close h k)]
  simp only [hu]
  rw [if_neg (by simpa using h0)]
  simp only [peek_cons, peek_succ]
  rw [if_neg (by
    intro hc
    simp only [Bool.and_eq_true, beq_iff_eq, bne_iff_ne] at hc
    exact hc.2 (hk hc.1))]
  rfl

/-- one range of a class -/
theorem classLoop_range {a b : UCS4} {v w : List UCS4} (hv : InBrackets a v) (hw : InBrackets b w) (ha : a ≠ 0#32) (hb : b ≠ 0#32)
    (k param : List UCS4) (fuel : Nat) :
    classLoop (fuel + 1) param (v ++ 0x2D#32 :: w ++ k) = classLoop fuel (param ++ [a, b]) k := by
  rw [List.append_assoc, List.cons_append]
  have hu : (if (peek (v ++ 0x2D#32 :: (w ++ k)) 0 == 0x5C#32) = true then (v ++ 0x2D#32 :: (w ++ k)).drop 1 else v ++ 0x2D#32 :: (w ++ k)) =
      a :: 0x2D#32 :: (w ++ k) := unquote_in hv _
  rw [classLoop, if_neg (by simpa using in_nz hv _ ha), if_neg (by simpa using in_close hv _)]
  simp only [hu]
  rw [if_neg (by simpa using ha)]
  simp only [peek_cons, peek_succ]
  rw [if_pos (by simpa using in_close hw k)]
  simp only [List.drop_succ_cons, List.drop_zero]
  rw [if_neg (by simpa using in_nz hw k hb)]
  have hu : (if (peek (w ++ k) 0 == 0x5C#32) = true then (w ++ k).drop 1 else w ++ k) = b :: k := unquote_in hw k
  simp only [hu]
  rw [if_neg (by simpa using hb)]
  rfl

theorem classLoop_write {rs : List (UCS4 × UCS4)} {t : List UCS4} (h : Ranges rs t) : ∀ (param k : List UCS4) (fuel : Nat),
    t.length < fuel → (∀ r ∈ rs, r.1 ≠ 0#32 ∧ r.2 ≠ 0#32) →
    classLoop fuel param (t ++ 0x5D#32 :: k) = (true, param ++ rangeChars rs, 0x5D#32 :: k) := by
  have hend : ∀ (param k : List UCS4) (fuel : Nat), 0 < fuel → classLoop fuel param (0x5D#32 :: k) = (true, param, 0x5D#32 :: k) := by
    intro param k fuel hf
    match fuel with
    | fuel + 1 => simp [classLoop]
  induction h with
  | nil =>
    intro param k fuel hf _
    rw [List.nil_append, hend _ _ _ hf]
    simp [rangeChars]
  | minus =>
    intro param k fuel hf _
    match fuel with
    | fuel + 1 =>
      rw [classLoop_one (.bare 0x2D#32 (by decide) (by decide)) (by decide) (0x5D#32 :: k) param (by simp), hend _ _ _ (by simpa using hf)]
      simp [rangeChars]
  | one c w rs t hw hv ht ih =>
    intro param k fuel hf h
    match fuel with
    | fuel + 1 =>
      have := in_len hw
      rw [List.append_assoc, classLoop_one hw (h _ List.mem_cons_self).1 _ _ (ranges_minus ht k),
        ih _ _ _ (by simp at hf; omega) (fun x hx => h x (by simp [hx]))]
      simp [rangeChars]
  | range a b v w rs t hv hv' hw ht ih =>
    intro param k fuel hf h
    match fuel with
    | fuel + 1 =>
      rw [List.append_assoc, classLoop_range hv hw (h _ List.mem_cons_self).1 (h _ List.mem_cons_self).2,
        ih _ _ _ (by simp at hf; omega) (fun x hx => h x (by simp [hx]))]
      simp [rangeChars]

/-- the first character, if it is not special -/
theorem ranges_head {rs : List (UCS4 × UCS4)} {t : List UCS4} (h : Ranges rs t) (hne : rs ≠ []) (k : List UCS4) :
    peek (t ++ k) 0 ≠ 0x5D#32 ∧ t.head? = some (peek (t ++ k) 0) := by
  cases h with
  | nil => exact absurd rfl hne
  | minus => exact ⟨by simp, by simp⟩
  | one c w rs t hw hv ht =>
    rw [List.append_assoc]
    refine ⟨in_close hw _, ?_⟩
    cases hw <;> simp
  | range a b v w rs t hv hv' hw ht =>
    rw [List.append_assoc, List.append_assoc]
    refine ⟨in_close hv _, ?_⟩
    cases hv <;> simp

theorem step_cls {cfg : Cfg} (hon : On cfg .charClasses) (neg : Bool) (text : List UCS4) (rs : List (UCS4 × UCS4)) (k d : List UCS4)
    (hb : Brackets neg rs text) (h : ∀ r ∈ rs, r.1 ≠ 0#32 ∧ r.2 ≠ 0#32) :
    scanStep cfg 0x5B#32 ((if neg then [0x5E#32] else []) ++ text ++ 0x5D#32 :: k) d =
      .ok (flush d ++ [.tok (.cls neg (rangeChars rs))], k, []) := by
  have e : ∀ r d, scanStep cfg 0x5B#32 r d = .ok (scanClass r d) := fun r d => special_on hon
  rw [e]
  cases hb with
  | special c rs t hc hr =>
    have hst : classStart ((if neg then [0x5E#32] else []) ++ c :: t ++ 0x5D#32 :: k) = (neg, [c, c], t ++ 0x5D#32 :: k) := by
      unfold classStart
      cases neg <;> rcases hc with rfl | rfl <;> rfl
    unfold scanClass
    simp only [hst]
    rw [classLoop_write hr _ k _ (by simp only [List.length_append, List.length_cons]; omega) (fun x hx => h x (by simp [hx]))]
    simp [rangeChars]
  | usual _ _ hne hm hcaret hr =>
    obtain ⟨q1, q2⟩ := ranges_head hr hne (0x5D#32 :: k)
    have hm' : peek (text ++ 0x5D#32 :: k) 0 ≠ 0x2D#32 := fun he => hm (by rw [q2, he])
    have hst : classStart ((if neg then [0x5E#32] else []) ++ text ++ 0x5D#32 :: k) = (neg, [], text ++ 0x5D#32 :: k) := by
      unfold classStart
      cases neg with
      | false =>
        simp only [Bool.false_eq_true, if_false, List.nil_append]
        have : (peek (text ++ 0x5D#32 :: k) 0 == 0x5E#32) = false := by
          rw [beq_eq_false_iff_ne]
          intro he
          exact absurd (hcaret (by rw [q2, he])) (by simp)
        rw [this]
        simp only [Bool.false_eq_true, if_false]
        rw [if_neg (by simp [q1, hm'])]
      | true =>
        simp only [if_true, List.cons_append, List.nil_append, peek_cons, beq_self_eq_true, List.drop_succ_cons, List.drop_zero]
        rw [if_neg (by simp [q1, hm'])]
    unfold scanClass
    simp only [hst]
    rw [classLoop_write hr [] k _ (by simp only [List.length_append, List.length_cons]; omega) h]
    simp

/-! ### The whole expression -/

/-- expressions that are sent to the end whatever follows -/
def selfDelim : Re → Bool
  | .any | .cls .. | .prop .. | .grp .. => true
  | _ => false

/-- white space is skipped -/
theorem scan_blank {cfg : Cfg} {w : List UCS4} (h : Blank cfg w) : ∀ (k d : List UCS4) (evs : List Ev), NR cfg k →
    Scans cfg k d evs → Scans cfg (w ++ k) d evs := by
  have hstep : ∀ c ∈ blanks, On cfg .extendedRE → ∀ r d, scanStep cfg c r d = .ok (scanWhite r d) := by
    intro c hc he r d
    simp only [blanks, List.mem_cons, List.not_mem_nil, or_false] at hc
    rcases hc with rfl | rfl | rfl | rfl <;> exact if_pos (on_iff.mp he)
  induction h with
  | nil => intro k d evs _ h; exact h
  | white c w he hc hw ih =>
    intro k d evs hk h
    refine .cons c (w ++ k) d ([], w ++ k, d) evs ?_ (Nat.le_refl _) (ih k d evs hk h)
    rw [hstep c hc he]
    unfold scanWhite
    have := (NR.blank hw k hk).2 he
    rw [if_neg (by simpa using this)]
  | comment c x w he hc hx hw ih =>
    intro k d evs hk h
    rw [List.append_assoc]
    refine .cons c (0x23#32 :: (x ++ (0x0A#32 :: (w ++ k)))) d ([], w ++ k, d) evs ?_ (by simp; omega) (ih k d evs hk h)
    rw [hstep c hc he]
    unfold scanWhite
    rw [if_pos (by simp)]
    have : (0x23#32 :: (x ++ 0x0A#32 :: (w ++ k))).dropWhile (· != 0x0A#32) = 0x0A#32 :: (w ++ k) := by
      rw [List.dropWhile_cons_of_pos (by decide)]
      rw [List.dropWhile_append_of_pos (fun a ha => by
        simp only [bne_iff_ne]
        rintro rfl
        exact hx ha)]
      rw [List.dropWhile_cons_of_neg (by simp)]
    rw [this]
    rfl

/-- a character -/
theorem scan_chr {cfg : Cfg} (s : Spelling) (c : UCS4) (hs : s.okIn cfg c) (k d : List UCS4) (st : Step) (evs : List Ev)
    (hl : literal c k d = st) (hk : st.2.1 = k) (h : Scans cfg k st.2.2 evs) : Scans cfg ((Re.chr s c).write ++ k) d (st.1 ++ evs) := by
  cases s with
  | plain => exact .cons c k d st evs (by rw [step_plain hs, hl]) (by rw [hk]) (hk ▸ h)
  | quoted => exact .cons 0x5C#32 (c :: k) d st evs (by rw [step_quoted hs, hl]) (by rw [hk]; simp) (hk ▸ h)
  | letter l => exact .cons 0x5C#32 (l :: k) d st evs (by rw [step_letter hs.1 hs.2, hl]) (by rw [hk]; simp) (hk ▸ h)
  | code w => exact .cons 0x5C#32 (w ++ k) d st evs (by rw [step_code hs.1 hs.2.1 hs.2.2.1 hs.2.2.2, hl]) (by rw [hk]; simp) (hk ▸ h)

theorem findCh_first (ch : UCS4) (k : List UCS4) : ∀ w : List UCS4, ch ∉ w → findCh ch (w ++ ch :: k) = some w.length := by
  intro w
  induction w with
  | nil => intro _; show (if ch == ch then _ else _) = _; simp
  | cons c w ih =>
    intro h
    simp only [List.mem_cons, not_or] at h
    show (if c == ch then some 0 else (findCh ch (w ++ ch :: k)).map (· + 1)) = _
    rw [if_neg (by simpa using fun hh : c = ch => h.1 hh.symm), ih h.2]
    rfl

theorem findCh_none (ch : UCS4) : ∀ w : List UCS4, ch ∉ w → findCh ch w = none := by
  intro w
  induction w with
  | nil => intro _; rfl
  | cons c w ih =>
    intro h
    simp only [List.mem_cons, not_or] at h
    show (if c == ch then _ else _) = _
    rw [if_neg (by simpa using fun hh : c = ch => h.1 hh.symm), ih h.2]
    rfl

theorem digits_ascii : ∀ (ds : List UCS4) (vs : List Nat), Digits 10 ds vs → (∀ d ∈ ds, d.toNat < 128) → ∀ d ∈ ds, 0x30 ≤ d.toNat ∧ d.toNat ≤ 0x39 := by
  intro ds
  induction ds with
  | nil => intro vs _ _ d hd; cases hd
  | cons c ds ih =>
    intro vs hd ha d hm
    cases vs with
    | nil => simp [Digits] at hd
    | cons v vs =>
      rcases List.mem_cons.1 hm with rfl | hm
      · have h1 := ha d (by simp)
        rcases hd.1.1 with ⟨b, hb, h2, h3, h4⟩ | ⟨h, -⟩
        · rcases block_ascii b hb with rfl | h
          · simp at h4; omega
          · omega
        · omega
      · exact ih vs hd.2 (fun d h => ha d (by simp [h])) d hm

theorem countOf_no {w : List UCS4} {n : Nat} (h : CountOf w n) : 0x2C#32 ∉ w ∧ 0x7D#32 ∉ w := by
  obtain ⟨-, -, ha, ⟨vs, hd, -⟩, -⟩ := h
  refine ⟨fun hm => ?_, fun hm => ?_⟩ <;> · have := digits_ascii w vs hd ha _ hm; simp at this

theorem countOf_number {w : List UCS4} {n : Nat} (h : CountOf w n) : number w 10 = .ok ⟨n, 0#32, w.length⟩ := by
  obtain ⟨hne, hl, ha, ⟨vs, hd, rfl⟩, hn⟩ := h
  exact number_value 10 (by omega) (by omega) w vs hne ha hd (by omega) (by omega)

theorem number_nil : number [] 10 = .ok ⟨0, ErrNum.mk 1#32 2#32, 0⟩ := by decide +kernel

theorem countOf_first {w : List UCS4} {n : Nat} (h : CountOf w n) (k : List UCS4) : firstCount (w ++ k) w.length = .ok (some (n : Int)) := by
  unfold firstCount
  have hl : w.length > 0 := List.length_pos_iff.2 h.1
  rw [if_pos hl, List.take_left' rfl, countOf_number h, res_bind_ok]
  have : (badCount ⟨n, 0#32, w.length⟩ || decide ((n : Int) < 0)) = false := by
    rw [decide_eq_false (by omega)]; rfl
  simp [this]

theorem repTok_nat {n m : Nat} (hn : n ≤ 254) (hm : m ≤ 254) : repTok n m = .tok (.rep n m) := by
  unfold repTok
  have h1 : ((n : Int) % 65536).toNat = n := by omega
  have h2 : ((m : Int) % 65536).toNat = m := by omega
  rw [h1, h2]

theorem peek_app (w : List UCS4) (c : UCS4) (k : List UCS4) : peek (w ++ c :: k) w.length = c := by
  unfold peek
  rw [if_neg (by simp)]
  simp

/-- after the comma -/
theorem scan_second {v : List UCS4} {n : Nat} (hn : n ≤ 254) {w : List UCS4} {m : Nat} (hw : CountOf w m ∨ (w = [] ∧ m = 0)) (hm : m = 0 ∨ n ≤ m)
    (k d : List UCS4) (hv : 0x2C#32 ∉ v) (h1 : firstCount (v ++ 0x2C#32 :: (w ++ 0x7D#32 :: k)) v.length = .ok (some (n : Int))) :
    scanCount (v ++ 0x2C#32 :: (w ++ 0x7D#32 :: k)) d = .ok (flush d ++ [.tok (.rep n m)], k, []) := by
  unfold scanCount
  rw [findCh_first _ _ _ hv]
  simp only [Option.some_or]
  rw [h1]
  simp only [res_bind_ok]
  rw [peek_app, if_pos (by simp)]
  have hd : (v ++ 0x2C#32 :: (w ++ 0x7D#32 :: k)).drop (v.length + 1) = w ++ 0x7D#32 :: k := by
    rw [List.drop_append]; simp
  rw [hd]
  have hw2 : 0x7D#32 ∉ w := by
    rcases hw with h | ⟨rfl, -⟩
    · exact (countOf_no h).2
    · simp
  rw [findCh_first _ _ _ hw2]
  simp only [List.take_left' rfl]
  have hm254 : m ≤ 254 := by
    rcases hw with h | ⟨-, rfl⟩
    · exact h.2.2.2.2
    · omega
  have hnum : ∃ x, number w 10 = .ok x ∧ badCount x = false ∧ x.val = m := by
    rcases hw with h | ⟨rfl, rfl⟩
    · exact ⟨_, countOf_number h, rfl, rfl⟩
    · exact ⟨_, number_nil, by decide +kernel, rfl⟩
  obtain ⟨x, hx, hb, hval⟩ := hnum
  rw [hx]
  simp only [res_bind_ok, hb, hval]
  have hc : (false || ((m : Int) != 0 && decide ((m : Int) < n))) = false := by
    rcases hm with rfl | h
    · simp
    · rw [decide_eq_false (by omega)]; simp
  rw [hc]
  have hdr : (w ++ 0x7D#32 :: k).drop (w.length + 1) = k := by rw [List.drop_append]; simp
  rw [hdr, repTok_nat hn hm254]
  simp

theorem step_count {cfg : Cfg} (hon : On cfg .countRepetition) {w : List UCS4} {mn : Nat} {mx : Option Nat} (hb : Braces w mn mx) (k d : List UCS4)
    (hk : 0x2C#32 ∉ w → 0x2C#32 ∉ k) :
    scanStep cfg 0x7B#32 (w ++ 0x7D#32 :: k) d = .ok (flush d ++ [.tok (.rep mn (mx.getD 0))], k, []) := by
  have : scanStep cfg 0x7B#32 (w ++ 0x7D#32 :: k) d = scanCount (w ++ 0x7D#32 :: k) d := special_on hon
  rw [this]
  cases hb with
  | exactly _ _ h h0 =>
    have hc := countOf_no h
    unfold scanCount
    rw [findCh_none 0x2C#32 _ (by
      rw [List.mem_append, List.mem_cons]
      rintro (hh | hh | hh)
      · exact hc.1 hh
      · cases hh
      · exact hk hc.1 hh), findCh_first _ _ _ hc.2]
    simp only [Option.none_or]
    rw [countOf_first h]
    simp only [res_bind_ok]
    rw [peek_app, if_neg (by decide)]
    have hd : (w ++ 0x7D#32 :: k).drop (w.length + 1) = k := by rw [List.drop_append]; simp
    rw [hd, repTok_nat h.2.2.2.2 h.2.2.2.2]
    rfl
  | atLeast v _ h =>
    have e : v ++ [0x2C#32] ++ 0x7D#32 :: k = v ++ 0x2C#32 :: ([] ++ 0x7D#32 :: k) := by simp
    rw [e]
    exact scan_second h.2.2.2.2 (.inr ⟨rfl, rfl⟩) (.inl rfl) k d (countOf_no h).1 (countOf_first h _)
  | atMost v m h h0 =>
    exact scan_second (v := []) (n := 0) (by omega) (.inl h) (.inr (by omega)) k d (by simp) rfl
  | between v w _ m h h' hle h0 =>
    have e : v ++ 0x2C#32 :: w ++ 0x7D#32 :: k = v ++ 0x2C#32 :: (w ++ 0x7D#32 :: k) := by simp
    rw [e]
    exact scan_second h.2.2.2.2 (.inl h') (.inr hle) k d (countOf_no h).1 (countOf_first h _)
  | any => exact scan_second (v := []) (n := 0) (by omega) (.inr ⟨rfl, rfl⟩) (.inl rfl) k d (by simp) rfl

/-- How an expression is read when something follows: what follows is not a repetition, or the expression is sent
without waiting for it; and how a character is read in front of a repetition -/
def Reads (cfg : Cfg) (r : Re) (u : List UCS4) : Prop :=
  (∀ (k d : List UCS4) (evs : List Ev), (NR cfg k ∨ selfDelim r = true) → (r.exact = true → 0x2C#32 ∉ k) →
    Scans cfg k (toks r d).2 evs → Scans cfg (u ++ k) d ((toks r d).1 ++ evs)) ∧
  (∀ s c, r = .chr s c → ∀ (k d : List UCS4) (evs : List Ev), isRepeat (peek k 0) = true →
    Scans cfg k [c] evs → Scans cfg (u ++ k) d (flush d ++ evs))

theorem scan_rep {cfg : Cfg} (a : Re) (u : List UCS4) (ch : UCS4) (v : List UCS4) (t : Ev) (hch : isRepeat ch = true) (k : List UCS4)
    (hstep : ∀ d, scanStep cfg ch (v ++ k) d = .ok (flush d ++ [t], k, [])) (hat : a.isAtom = true) (iha : Reads cfg a u)
    (hex : a.exact = true → 0x2C#32 ∉ (ch :: v) ++ k)
    (d : List UCS4) (evs : List Ev) (h : Scans cfg k [] evs) :
    Scans cfg (u ++ (ch :: v) ++ k) d ((atomToks a d (toks a d).1 ++ [t]) ++ evs) := by
  rw [List.append_assoc, List.append_assoc]
  have last : ∀ d', Scans cfg ((ch :: v) ++ k) d' (flush d' ++ ([t] ++ evs)) := fun d' => by
    have := Scans.cons (cfg := cfg) ch (v ++ k) d' (flush d' ++ [t], k, []) evs (hstep d') (by simp) h
    rw [List.append_assoc] at this
    exact this
  have hpk : isRepeat (peek ((ch :: v) ++ k) 0) = true := by
    rw [List.cons_append, peek_cons]; exact hch
  cases a with
  | chr s c =>
    show Scans _ _ _ ((flush d ++ [.tok (.lit [c])]) ++ _)
    rw [List.append_assoc]
    exact iha.2 s c rfl _ d _ hpk (last [c])
  | any => exact iha.1 _ d _ (.inr rfl) hex (last [])
  | cls neg text rs => exact iha.1 _ d _ (.inr rfl) hex (last [])
  | prop br p => exact iha.1 _ d _ (.inr rfl) hex (last [])
  | grp nc a => exact iha.1 _ d _ (.inr rfl) hex (last [])
  | _ => cases hat

theorem scan_write {cfg : Cfg} {top : Bool} {r : Re} {u : List UCS4} (hw : Written cfg top r u) : Reads cfg r u := by
  induction hw with
  | blank top r w u hb hw ih =>
    have hn : ∀ k, NR cfg k ∨ selfDelim r = true → NR cfg (u ++ k) := fun k hk => NR_write hw k (hk.elim .inr fun h => .inl (by
      cases r <;> first | rfl | cases h))
    refine ⟨fun k d evs hk hx h => ?_, fun s c e k d evs hk h => ?_⟩
    · rw [List.append_assoc]
      exact scan_blank hb _ d _ (hn k hk) (ih.1 k d evs hk hx h)
    · rw [List.append_assoc]
      exact scan_blank hb _ d _ (NR_write hw k (.inl (by rw [e]; rfl))) (ih.2 s c e k d evs hk h)
  | empty => exact ⟨fun k d evs _ _ h => h, nofun⟩
  | chr top s c hs hc =>
    refine ⟨fun k d evs hk' _ h => ?_, fun s' c' e k d evs hk h => ?_⟩
    · have hk : NR cfg k := hk'.resolve_right (by simp [selfDelim])
      exact scan_chr s c hs k d ([], k, d ++ [c]) evs (literal_nr hk) rfl h
    · cases e
      exact scan_chr s c hs k d (flush d, k, [c]) evs (literal_rep hk) rfl h
  | any top ha =>
    refine ⟨fun k d evs _ _ h => .cons _ k d (_, k, []) evs ?_ (Nat.le_refl _) h, nofun⟩
    show (if cfg.enabled .anyIsQuest then _ else _) = _
    rw [not_on ha]; rfl
  | bol top hb => exact ⟨fun k d evs _ _ h => .cons _ k d (_, k, []) evs (special_on hb) (Nat.le_refl _) h, nofun⟩
  | eol top hb => exact ⟨fun k d evs _ _ h => .cons _ k d (_, k, []) evs (special_on hb) (Nat.le_refl _) h, nofun⟩
  | cls top neg text rs hon hb hr =>
    refine ⟨fun k d evs _ _ h => .cons _ _ d (_, k, []) evs ?_ ?_ h, nofun⟩
    · show scanStep cfg 0x5B#32 (((if neg then [0x5E#32] else []) ++ text ++ [0x5D#32]) ++ k) d = _
      rw [List.append_assoc]
      exact step_cls hon neg text rs k d hb (fun r hr' => ⟨(hr r hr').1.1, (hr r hr').2.1⟩)
    · simp; omega
  | prop top p hon => exact ⟨fun k d evs _ _ h => .cons _ _ d (_, k, []) evs (step_prop p k d hon) (by simp) h, nofun⟩
  | braces top p hon => exact ⟨fun k d evs _ _ h => .cons _ _ d (_, k, []) evs (step_braces p k d hon) (by simp; omega) h, nofun⟩
  | seq top a b u v ha hb hc iha ihb =>
    refine ⟨fun k d evs hk' hx h => ?_, nofun⟩
    have hx : ((a.exact || b.exact) = true) → 0x2C#32 ∉ k := hx
    have hk : NR cfg k := hk'.resolve_right (by simp [selfDelim])
    rw [List.append_assoc]
    show Scans _ _ _ (((toks a d).1 ++ (toks b (toks a d).2).1) ++ evs)
    rw [List.append_assoc]
    exact iha.1 _ d _ (.inl (NR_write hb k (.inr hk))) (fun h => by rw [List.mem_append]; exact fun hh => hh.elim (hc h) (hx (by rw [h]; rfl)))
      (ihb.1 k _ evs (.inl hk) (fun h => hx (by rw [h, Bool.or_true])) h)
  | alt a b u w v hon ha hw hb hc iha ihb =>
    refine ⟨fun k d evs hk' hx h => ?_, nofun⟩
    have hx : ((a.exact || b.exact) = true) → 0x2C#32 ∉ k := hx
    have hk : NR cfg k := hk'.resolve_right (by simp [selfDelim])
    rw [List.append_assoc, List.append_assoc]
    show Scans _ _ _ (((toks a d).1 ++ (flush (toks a d).2 ++ [.tok .alternate]) ++ (toks b []).1) ++ evs)
    rw [List.append_assoc, List.append_assoc]
    have hbar : NR cfg (0x7C#32 :: v ++ k) := NR.cons rfl (by decide)
    refine iha.1 _ d _ (.inl (NR.blank hw _ hbar)) (fun h => ?_) (scan_blank hw _ _ _ hbar ?_)
    · have h1 := hc h
      have h2 := hx (by rw [h]; rfl)
      simp only [List.mem_append, List.mem_cons, List.cons_append, not_or] at h1 ⊢
      exact ⟨h1.1, by decide, h1.2, h2⟩
    refine .cons (cfg := cfg) 0x7C#32 (v ++ k) (toks a d).2 (flush (toks a d).2 ++ [.tok .alternate], v ++ k, []) _ ?_ (Nat.le_refl _) ?_
    · exact special_on hon
    exact ihb.1 k [] evs (.inl hk) (fun h => hx (by rw [h, Bool.or_true])) h
  | star top a u hon hoff hat ha iha =>
    refine ⟨fun k d evs _ hx h => scan_rep a u 0x2A#32 [] (.tok (.rep 0 0)) rfl k (fun d => ?_) hat iha (fun h => by simpa using hx h) d evs h, nofun⟩
    refine (special_on hon).trans ?_
    rw [not_on hoff]
    show Except.ok (flush d ++ [] ++ [repTok 0 0], k, ([] : List UCS4)) = _
    rw [List.append_nil]; rfl
  | plus top a u hon hat ha iha =>
    exact ⟨fun k d evs _ hx h => scan_rep a u 0x2B#32 [] (.tok (.rep 1 0)) rfl k (fun d => special_on hon) hat iha (fun h => by simpa using hx h) d evs h, nofun⟩
  | opt top a u hoff hat ha iha =>
    refine ⟨fun k d evs _ hx h => scan_rep a u 0x3F#32 [] (.tok (.rep 0 1)) rfl k (fun d => ?_) hat iha (fun h => by simpa using hx h) d evs h, nofun⟩
    show Except.ok (flush d ++ [if cfg.enabled .anyIsQuest then _ else _], k, ([] : List UCS4)) = _
    rw [not_on hoff]; rfl
  | rep top w mn mx a u hon hat ha hb hc iha =>
    refine ⟨fun k d evs _ hx h => ?_, nofun⟩
    have hx : ((!w.contains 0x2C#32 || a.exact) = true) → 0x2C#32 ∉ k := hx
    have e1 : u ++ 0x7B#32 :: w ++ [0x7D#32] ++ k = u ++ (0x7B#32 :: (w ++ [0x7D#32])) ++ k := by simp
    rw [e1]
    refine scan_rep a u 0x7B#32 (w ++ [0x7D#32]) (.tok (.rep mn (mx.getD 0))) rfl k (fun d => ?_) hat iha (fun h => ?_) d evs h
    · have e2 : w ++ [0x7D#32] ++ k = w ++ 0x7D#32 :: k := by simp
      rw [e2]
      exact step_count hon hb k d fun hw => hx (by simp [hw])
    · have h1 := hc h
      have h2 := hx (by rw [h, Bool.or_true])
      simp only [List.mem_append, List.mem_cons, List.cons_append, List.not_mem_nil, or_false, not_or]
      exact ⟨by decide, ⟨h1, by decide⟩, h2⟩
  | grp top a u w hon ha hw hc iha =>
    refine ⟨fun k d evs _ hx h => ?_, nofun⟩
    have hx : a.exact = true → 0x2C#32 ∉ k := hx
    have hxc : a.exact = true → 0x2C#32 ∉ w ++ 0x29#32 :: k := fun h => by
      have h1 := hc h
      have h2 := hx h
      simp only [List.mem_append, List.mem_cons, not_or]
      exact ⟨h1, by decide, h2⟩
    have hcl : NR cfg (0x29#32 :: k) := NR.cons rfl (by decide)
    have hin : Scans cfg (u ++ (w ++ 0x29#32 :: k)) [] ((toks a []).1 ++ (flush (toks a []).2 ++ [.tok .endGroup] ++ evs)) :=
      iha.1 _ [] _ (.inl (NR.blank hw _ hcl)) hxc (scan_blank hw _ _ _ hcl (.cons 0x29#32 k _ (_, k, []) evs (if_pos (on_iff.mp hon)) (Nat.le_refl _) h))
    have e1 : (0x28#32 :: u ++ w ++ [0x29#32]) ++ k = 0x28#32 :: (u ++ (w ++ 0x29#32 :: k)) := by simp
    have e2 : ∀ nc, (toks (.grp nc a) d).1 ++ evs = (flush d ++ [.tok .group]) ++ ((toks a []).1 ++ (flush (toks a []).2 ++ [.tok .endGroup] ++ evs)) := by
      intro nc; simp [toks]
    rw [e1, e2]
    refine .cons 0x28#32 (u ++ (w ++ 0x29#32 :: k)) d (flush d ++ [.tok .group], u ++ (w ++ 0x29#32 :: k), []) _ ?_ (Nat.le_refl _) hin
    refine (special_on hon).trans ?_
    unfold scanOpen
    rw [if_pos]
    have hnr := (NR_write ha (w ++ 0x29#32 :: k) (.inr (NR.blank hw _ hcl))).1
    unfold isRepeat at hnr
    simp only [Bool.or_eq_false_iff] at hnr
    have : (peek (u ++ (w ++ 0x29#32 :: k)) 0 != 0x3F#32) = true := by
      have := hnr.1.2
      simp only [bne, this, Bool.not_false]
    rw [this, Bool.or_true]
  | group top a u w hon hnc hrej ha hw hc iha =>
    refine ⟨fun k d evs _ hx h => ?_, nofun⟩
    have hx : a.exact = true → 0x2C#32 ∉ k := hx
    have hxc : a.exact = true → 0x2C#32 ∉ w ++ 0x29#32 :: k := fun h => by
      have h1 := hc h
      have h2 := hx h
      simp only [List.mem_append, List.mem_cons, not_or]
      exact ⟨h1, by decide, h2⟩
    have hcl : NR cfg (0x29#32 :: k) := NR.cons rfl (by decide)
    have hin : Scans cfg (u ++ (w ++ 0x29#32 :: k)) [] ((toks a []).1 ++ (flush (toks a []).2 ++ [.tok .endGroup] ++ evs)) :=
      iha.1 _ [] _ (.inl (NR.blank hw _ hcl)) hxc (scan_blank hw _ _ _ hcl (.cons 0x29#32 k _ (_, k, []) evs (if_pos (on_iff.mp hon)) (Nat.le_refl _) h))
    have e1 : (0x28#32 :: 0x3F#32 :: 0x3A#32 :: u ++ w ++ [0x29#32]) ++ k = 0x28#32 :: 0x3F#32 :: 0x3A#32 :: (u ++ (w ++ 0x29#32 :: k)) := by simp
    have e2 : ∀ nc, (toks (.grp nc a) d).1 ++ evs = (flush d ++ [.tok .group]) ++ ((toks a []).1 ++ (flush (toks a []).2 ++ [.tok .endGroup] ++ evs)) := by
      intro nc; simp [toks]
    rw [e1, e2]
    refine .cons 0x28#32 _ d (flush d ++ [.tok .group], u ++ (w ++ 0x29#32 :: k), []) _ ?_ ?_ hin
    · refine (special_on hon).trans ?_
      unfold scanOpen
      have hp : cfg.paren = true := by unfold Cfg.paren; rw [on_iff.mp hnc]; simp
      rw [if_neg (by rw [hp]; simp)]
      have : scanParen cfg (0x3A#32 :: (u ++ (w ++ 0x29#32 :: k))) = ([.tok .group], u ++ (w ++ 0x29#32 :: k)) := by
        unfold scanParen
        rw [if_neg (by simp), if_pos (by rw [on_iff.mp hnc]; simp)]
        unfold rejects
        rw [hrej]; rfl
      show Except.ok (_, (scanParen cfg (0x3A#32 :: (u ++ (w ++ 0x29#32 :: k)))).2, _) = _
      rw [this]
      show Except.ok (flush d ++ (scanParen cfg (0x3A#32 :: (u ++ (w ++ 0x29#32 :: k)))).1, _, _) = _
      rw [this]
    · simp; omega

/-- what is written in the language with all features is written in this sense -/
theorem written_default (r : Re) : ∀ top, r.wf top → Written .default top r r.write := by
  have on : ∀ f, Cfg.default.features f = true → On .default f := fun f h => ⟨h, rfl⟩
  have nOn : ∀ f, Cfg.default.features f = false → ¬ On .default f := fun f h hc => by rw [hc.1] at h; cases h
  induction r with
  | empty => intro top _; exact .empty top
  | chr s c =>
    intro top hw
    refine .chr top s c ?_ hw.2
    have h := hw.1
    cases s with
    | plain =>
      have h : c ∉ metaChars := h
      simp only [metaChars, List.mem_cons, List.not_mem_nil, or_false, not_or] at h
      obtain ⟨h1, h2, h3, h4, h5, h6, h7, h8, h9, h10, h11, h12⟩ := h
      refine ⟨by simp [h4, h5, h6, h7, h8], fun f hf => ?_, fun e => absurd e h3, fun _ => nOn _ rfl⟩
      simp only [specialIf, List.mem_cons, List.not_mem_nil, or_false, Prod.mk.injEq] at hf
      exfalso
      rcases hf with h | h | h | h | h | h
      · exact h1 h.1
      · exact h2 h.1
      · exact h9 h.1
      · exact h10 h.1
      · exact h11 h.1
      · exact h12 h.1
    | quoted =>
      have h : c ∉ escapeLetters := h
      intro f hf
      exfalso
      apply h
      have : escapeLetters = escapeIf.map Prod.fst := rfl
      rw [this]
      exact List.mem_map_of_mem hf
    | letter l => exact ⟨h, on _ rfl⟩
    | code w => exact ⟨h, fun _ => on _ rfl, fun _ => on _ rfl, fun _ _ => on _ rfl⟩
  | any => intro top _; exact .any top (nOn _ rfl)
  | bol => intro top _; exact .bol top (on _ rfl)
  | eol => intro top _; exact .eol top (on _ rfl)
  | cls neg text rs => intro top hw; exact .cls top neg text rs (on _ rfl) hw.1 hw.2
  | prop b p =>
    intro top _
    cases b with
    | false => exact .prop top p (on _ rfl)
    | true => exact .braces top p (on _ rfl)
  | seq a b iha ihb => intro top hw; exact .seq top a b _ _ (iha _ hw.1) (ihb _ hw.2.1) hw.2.2
  | alt a b iha ihb =>
    intro top hw
    obtain ⟨rfl, ha, hb, hc⟩ := hw
    have := Written.alt a b _ [] _ (on _ rfl) (iha _ ha) .nil (ihb _ hb) hc
    rwa [List.append_nil] at this
  | star a iha => intro top hw; exact .star top a _ (on _ rfl) (nOn _ rfl) hw.1 (iha _ hw.2)
  | plus a iha => intro top hw; exact .plus top a _ (on _ rfl) hw.1 (iha _ hw.2)
  | opt a iha => intro top hw; exact .opt top a _ (nOn _ rfl) hw.1 (iha _ hw.2)
  | rep w mn mx a iha => intro top hw; exact .rep top w mn mx a _ (on _ rfl) hw.1 (iha _ hw.2.1) hw.2.2.1 hw.2.2.2
  | grp nc a iha =>
    intro top hw
    cases nc with
    | false =>
      have := Written.grp top a _ [] (on _ rfl) (iha _ hw) .nil (by simp)
      rwa [List.append_nil] at this
    | true =>
      have := Written.group top a _ [] (on _ rfl) (on _ rfl) rfl (iha _ hw) .nil (by simp)
      rwa [List.append_nil] at this

/-- what may follow the expression is ignored -/
theorem scan_trailer {cfg : Cfg} {w : List UCS4} (h : Trailer cfg w) (d : List UCS4) : NR cfg w ∧ Scans cfg w d (flush d) := by
  cases h with
  | blank _ h =>
    have h1 := NR.blank h [] NR.nil
    have h2 := scan_blank h [] d _ NR.nil (.nil d)
    rw [List.append_nil] at h1 h2
    exact ⟨h1, h2⟩
  | comment w c x h he hc hx =>
    have hb : isRepeat c = false ∧ c ≠ 0x23#32 ∧ ∀ r d, scanStep cfg c r d = .ok (scanWhite r d) := by
      simp only [blanks, List.mem_cons, List.not_mem_nil, or_false] at hc
      rcases hc with rfl | rfl | rfl | rfl <;> exact ⟨by decide, by decide, fun r d => if_pos (on_iff.mp he)⟩
    have hn : NR cfg (c :: 0x23#32 :: x) := NR.cons hb.1 hb.2.1
    refine ⟨NR.blank h _ hn, scan_blank h _ d _ hn ?_⟩
    refine .cons c (0x23#32 :: x) d ([], [], d) (flush d) ?_ (by simp) (.nil d)
    rw [hb.2.2]
    unfold scanWhite
    rw [if_pos (by simp)]
    have : (0x23#32 :: x).dropWhile (· != 0x0A#32) = [] := by
      have all : ∀ l : List UCS4, (∀ y ∈ l, (y != 0x0A#32) = true) → l.dropWhile (· != 0x0A#32) = [] := by
        intro l
        induction l with
        | nil => intro _; rfl
        | cons y l ih => intro h; rw [List.dropWhile_cons_of_pos (p := (· != 0x0A#32)) (h y (by simp))]; exact ih fun z hz => h z (by simp [hz])
      apply all
      intro y hy
      simp only [bne_iff_ne]
      rintro rfl
      rcases List.mem_cons.mp hy with h | h
      · cases h
      · exact hx h
    rw [this]
    rfl

/-- The tokens of a whole expression -/
theorem scan_written {cfg : Cfg} {r : Re} {u w : List UCS4} (h : Written cfg true r u) (hw : Trailer cfg w)
    (hc : r.exact = true → 0x2C#32 ∉ w) :
    scan cfg (u ++ w) = .ok (.tok .start :: ((toks r []).1 ++ flush (toks r []).2) ++ [.tok .accept]) := by
  have ht := scan_trailer hw (toks r []).2
  have hs := (scan_write h).1 w [] _ (.inl ht.1) hc ht.2
  unfold scan
  rw [hs.loop _ (Nat.le_refl _), res_bind_ok, if_neg]
  -- no token is an error
  have hf : ∀ d, (flush d).any Ev.isErr = false := by intro d; unfold flush; split <;> rfl
  have ha : ∀ (r : Re) d, (toks r d).1.any Ev.isErr = false := by
    intro r
    induction r with
    | empty | chr => intro d; rfl
    | any | bol | eol | cls | prop => intro d; simp [toks, hf, Ev.isErr]
    | seq a b iha ihb => intro d; simp [toks, iha, ihb, Ev.isErr]
    | alt a b iha ihb => intro d; simp [toks, iha, ihb, hf, Ev.isErr]
    | star a iha | plus a iha | opt a iha | rep _ _ _ a iha =>
      intro d
      have h1 := iha d
      have h2 : (atomToks a d (toks a d).1).any Ev.isErr = false := by
        cases a with
        | chr s c => show (flush d ++ [_]).any Ev.isErr = false; rw [List.any_append, hf]; rfl
        | _ => exact h1
      show (_ ++ [_]).any Ev.isErr = false
      rw [List.any_append, h2]; rfl
    | grp nc a iha => intro d; simp [toks, iha, hf, Ev.isErr]
  rw [List.any_append, ha, hf]; simp

theorem scan_spec (r : Re) (h : r.wf true) :
    scan .default r.write = .ok (.tok .start :: ((toks r []).1 ++ flush (toks r []).2) ++ [.tok .accept]) := by
  have := scan_written (written_default r true h) (.blank [] .nil) (by simp)
  rwa [List.append_nil] at this

end Strpp.Rx
