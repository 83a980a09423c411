import Verif.Proof.PegLeaf
import Verif.Spec.PegSem
/-! Characters and classes as they are written: what the interpreter reads. -/
namespace Strpp.Pex
open Spec

/-- at `p` the pattern has `bs`, then `post` -/
structure Here (s : List Byte) (p : Nat) (bs post : List Byte) : Prop where
  le : p ≤ s.length
  eq : s.drop p = bs ++ post

section
variable {s : List Byte} {p : Nat}

theorem Here.len {bs post : List Byte} (h : Here s p bs post) : s.length = p + bs.length + post.length := by
  have := congrArg List.length h.eq
  rw [List.length_drop, List.length_append] at this
  have := h.le
  omega

theorem Here.cons {b : Byte} {bs post : List Byte} (h : Here s p (b :: bs) post) : rd (s ++ [0#8]) p = .ok b ∧ Here s (p + 1) bs post := by
  have hl := h.len
  rw [List.length_cons] at hl
  have hp : p < s.length := by omega
  have he := h.eq
  rw [List.drop_eq_getElem_cons hp, List.cons_append] at he
  injection he with h1 h2
  refine ⟨?_, by omega, h2⟩
  rw [rd_eq_ok, List.getElem?_append_left hp, List.getElem?_eq_getElem hp, h1]

theorem Here.left {a b post : List Byte} (h : Here s p (a ++ b) post) : Here s p a (b ++ post) := ⟨h.le, by rw [h.eq, List.append_assoc]⟩

theorem Here.right {a b post : List Byte} (h : Here s p (a ++ b) post) : Here s (p + a.length) b post := by
  have hl := h.len
  rw [List.length_append] at hl
  refine ⟨by omega, ?_⟩
  rw [← List.drop_drop, h.eq, List.append_assoc, List.drop_left]

theorem Here.over {a post : List Byte} (h : Here s p a post) : Here s (p + a.length) [] post := by
  have : Here s p (a ++ []) post := by simpa using h
  exact this.right

theorem Here.shift {a b post : List Byte} (h : Here s p a (b ++ post)) : Here s (p + a.length) b post :=
  Here.right (a := a) ⟨h.le, by rw [h.eq, List.append_assoc]⟩

/-- the byte after -/
def nxt (post : List Byte) : Byte := post.headD 0#8

theorem Here.end {post : List Byte} (h : Here s p [] post) : rd (s ++ [0#8]) p = .ok (nxt post) := by
  cases post with
  | nil =>
    have := h.len
    have hp : p = s.length := by simp at this; omega
    rw [hp, rd_eq_ok]
    simp [nxt]
  | cons b rest =>
    have h' : Here s p (b :: rest) [] := ⟨h.le, by rw [h.eq]; simp⟩
    exact h'.cons.1

end

section
variable {s : List Byte}

theorem hex_unhex : ∀ b : Byte, hexDigit b ≠ none → unhex (sx b) = ((hexDigit b).getD 0 : Nat) ∧ (hexDigit b).getD 0 < 16 ∧ b ≠ 0#8 ∧ b ≠ 0x7B#8 ∧ ¬ unhex (sx b) < 0 := by
  decide +kernel

theorem oct_facts : ∀ b : Byte, octalDigit b = true → isOct b = true ∧ sx b - 0x30#32 = BitVec.ofNat 32 (b.toNat - 0x30) ∧ b.toNat - 0x30 < 8 ∧ sx b = BitVec.ofNat 32 b.toNat := by
  decide +kernel

theorem sx_ascii : ∀ b : Byte, b.toNat < 0x80 → sx b = BitVec.ofNat 32 b.toNat := by decide +kernel

theorem back_value : ∀ b : Byte, b.toNat < 0x80 → specialEscape (sx b) = BitVec.ofNat 32 (escaped b) := by decide +kernel

theorem isOct_eq (b : Byte) : isOct b = octalDigit b := rfl

theorem octDigit_eval {p : Nat} {post : List Byte} {b : Byte} {n : Nat} (h : Here s p [b] post) (hb : octalDigit b = true) (hn : n < 64) :
    octDigit (s ++ [0#8]) (BitVec.ofNat 32 n) p = .ok (BitVec.ofNat 32 (8 * n + (b.toNat - 0x30)), p + 1) := by
  obtain ⟨h1, h2, h3, h4⟩ := oct_facts b hb
  unfold octDigit
  rw [h.cons.1, res_bind_ok, if_pos h1]
  congr 2
  rw [show BitVec.ofNat 32 n <<< 3 + sx b - 0x30#32 = BitVec.ofNat 32 n <<< 3 + (sx b - 0x30#32) by
    apply BitVec.eq_of_toNat_eq; simp only [BitVec.toNat_sub, BitVec.toNat_add]; omega, h2]
  apply BitVec.eq_of_toNat_eq
  simp only [BitVec.toNat_add, BitVec.toNat_shiftLeft, BitVec.toNat_ofNat, Nat.shiftLeft_eq]
  omega

theorem shl_or (n d : Nat) (hn : n < 2 ^ 28) (hd : d < 16) : (BitVec.ofNat 32 n <<< 4) ||| BitVec.ofInt 32 (d : Int) = BitVec.ofNat 32 (16 * n + d) := by
  apply BitVec.eq_of_toNat_eq
  rw [BitVec.toNat_or, BitVec.toNat_shiftLeft, BitVec.ofInt_natCast]
  simp only [BitVec.toNat_ofNat]
  rw [Nat.mod_eq_of_lt (show n < 2 ^ 32 by omega), Nat.mod_eq_of_lt (show d < 2 ^ 32 by omega), Nat.shiftLeft_eq,
    Nat.mod_eq_of_lt (by omega), Nat.mod_eq_of_lt (by omega), Nat.mul_comm 16 n]
  have := Nat.two_pow_add_eq_or_of_lt (i := 4) hd n
  rw [← show n * 2 ^ 4 ||| d = n * 2 ^ 4 + d by rw [Nat.mul_comm]; exact this.symm]

theorem hexNumber_cons (n : Nat) (d : Byte) (ds : List Byte) :
    (d :: ds).foldl (fun n d => 16 * n + (hexDigit d).getD 0) n = ds.foldl (fun n d => 16 * n + (hexDigit d).getD 0) (16 * n + (hexDigit d).getD 0) := rfl

theorem uniLoop_eval : ∀ (ds : List Byte) (i n p : Nat) (post : List Byte), Here s p ds post → (∀ d ∈ ds, hexDigit d ≠ none) → ds.length ≤ i →
    n < 16 ^ (8 - ds.length) → ds.length ≤ 8 → (ds.length = i ∨ (hexDigit (nxt post) = none)) →
    uniLoop (s ++ [0#8]) i (BitVec.ofNat 32 n) p = .ok (BitVec.ofNat 32 (ds.foldl (fun n d => 16 * n + (hexDigit d).getD 0) n), p + ds.length) := by
  intro ds
  induction ds with
  | nil =>
    intro i n p post h hd hi hn _ hend
    have hrd := h.end
    cases i with
    | zero => unfold uniLoop; rw [hrd]; rfl
    | succ i =>
      unfold uniLoop
      rw [hrd, res_bind_ok]
      have h' : hexDigit (nxt post) = none := by
        rcases hend with h | h
        · simp at h
        · exact h
      have : ∀ b : Byte, hexDigit b = none → unhex (sx b) < 0 := by decide +kernel
      split
      · rfl
      · rw [if_pos (this _ h')]; rfl
  | cons d ds ih =>
    intro i n p post h hd hi hn hlen hend
    simp only [List.length_cons] at hi hn hlen hend ⊢
    cases i with
    | zero => omega
    | succ i =>
      obtain ⟨h1, h2⟩ := h.cons
      obtain ⟨u1, u2, u3, -, u4⟩ := hex_unhex d (hd d (by simp))
      unfold uniLoop
      rw [h1, res_bind_ok, if_neg (by simpa using u3), if_neg u4, u1]
      have hn' : n < 2 ^ 28 := by
        refine Nat.lt_of_lt_of_le hn ?_
        have : (16 : Nat) ^ (8 - (ds.length + 1)) ≤ 16 ^ 7 := Nat.pow_le_pow_right (by decide) (by omega)
        exact Nat.le_trans this (by decide)
      rw [shl_or n _ hn' u2, ih i _ (p + 1) post h2 (fun d' h' => hd d' (by simp [h'])) (by omega) ?_ (by omega) (hend.imp (by omega) id)]
      · rw [hexNumber_cons, Nat.add_assoc, Nat.add_comm 1 ds.length]
      · have e : (16 : Nat) ^ (8 - ds.length) = 16 * 16 ^ (8 - (ds.length + 1)) := by
          rw [show 8 - ds.length = (8 - (ds.length + 1)) + 1 by omega, Nat.pow_succ, Nat.mul_comm]
        omega

theorem hexNumber_lt (ds : List Byte) (n : Nat) : (∀ d ∈ ds, hexDigit d ≠ none) → n < 16 ^ (8 - ds.length) → ds.length ≤ 8 →
    ds.foldl (fun n d => 16 * n + (hexDigit d).getD 0) n < 16 ^ 8 := by
  induction ds generalizing n with
  | nil => intro _ h _; exact h
  | cons d ds ih =>
    intro hd hn hl
    rw [hexNumber_cons]
    simp only [List.length_cons] at hn hl
    refine ih _ (fun d' h' => hd d' (by simp [h'])) ?_ (by omega)
    have := (hex_unhex d (hd d (by simp))).2.1
    have e : (16 : Nat) ^ (8 - ds.length) = 16 * 16 ^ (8 - (ds.length + 1)) := by
      rw [show 8 - ds.length = (8 - (ds.length + 1)) + 1 by omega, Nat.pow_succ, Nat.mul_comm]
    omega

theorem all2 {a b : Byte} (ha : hexDigit a ≠ none) (hb : hexDigit b ≠ none) : ∀ d ∈ [a, b], hexDigit d ≠ none := by
  intro x hx
  simp only [List.mem_cons, List.not_mem_nil, or_false] at hx
  rcases hx with h | h <;> rw [h] <;> assumption

theorem all4 {a b c d : Byte} (ha : hexDigit a ≠ none) (hb : hexDigit b ≠ none) (hc : hexDigit c ≠ none) (hd : hexDigit d ≠ none) :
    ∀ x ∈ [a, b, c, d], hexDigit x ≠ none := by
  intro x hx
  simp only [List.mem_cons, List.not_mem_nil, or_false] at hx
  rcases hx with h | h | h | h <;> rw [h] <;> assumption

theorem Written.value_lt {P : Byte → Bool} (w : Written) (h : w.ok P) : w.value < 2 ^ 32 := by
  cases w with
  | plain b => have := b.isLt; simp only [Written.value]; omega
  | back b =>
    have : ∀ b : Byte, escaped b < 256 := by decide +kernel
    have := this b
    simp only [Written.value]; omega
  | oct a b c =>
    have ha := a.isLt
    have hb := b.isLt
    have hc := c.isLt
    simp only [Written.value]; omega
  | hex br a b =>
    have := hexNumber_lt [a, b] 0 (all2 h.1 h.2) (Nat.pow_pos (by decide)) (by simp)
    exact Nat.lt_of_lt_of_le this (by decide)
  | uni a b c d =>
    have := hexNumber_lt [a, b, c, d] 0 (all4 h.1 h.2.1 h.2.2.1 h.2.2.2) (Nat.pow_pos (by decide)) (by simp)
    exact Nat.lt_of_lt_of_le this (by decide)
  | uniBraces ds =>
    have := hexNumber_lt ds 0 h.2.2 (Nat.pow_pos (by decide)) h.2.1
    exact Nat.lt_of_lt_of_le this (by decide)

theorem hexPair {p : Nat} {a b : Byte} {post : List Byte} (h : Here s p [a, b] post) (ha : hexDigit a ≠ none) (hb : hexDigit b ≠ none) (q : Nat) :
    rd (s ++ [0#8]) p = .ok a ∧ rd (s ++ [0#8]) (p + 1) = .ok b ∧
    (if unhex (sx b) ≥ 0 then ((BitVec.ofInt 32 (unhex (sx a)) <<< 4) ||| BitVec.ofInt 32 (unhex (sx b)), q + 2) else (BitVec.ofInt 32 (unhex (sx a)), q + 1)) =
      (BitVec.ofNat 32 (hexNumber [a, b]), q + 2) := by
  obtain ⟨h1, h2⟩ := h.cons
  obtain ⟨h3, h4⟩ := h2.cons
  obtain ⟨a1, a2, a3, -, a4⟩ := hex_unhex a ha
  obtain ⟨b1, b2, b3, -, b4⟩ := hex_unhex b hb
  refine ⟨h1, h3, ?_⟩
  rw [if_pos (by omega), a1, b1, BitVec.ofInt_natCast, shl_or _ _ (by omega) b2]
  simp [hexNumber]

theorem literalChar_eval {p : Nat} {post : List Byte} {P : Byte → Bool} (hP : ∀ b, P b = true → b ≠ 0#8 ∧ b ≠ 0x5C#8) (w : Written) (hw : w.ok P)
    (h : Here s p w.bytes post) : literalChar (s ++ [0#8]) p = .ok (BitVec.ofNat 32 w.value, p + w.bytes.length) := by
  cases w with
  | plain b =>
    obtain ⟨h1, h2⟩ := hw
    obtain ⟨p1, p2⟩ := hP b h1
    unfold literalChar
    rw [h.cons.1, res_bind_ok, if_neg (by simpa using p1), if_pos (by simpa using p2), sx_ascii b h2]
    rfl
  | back b =>
    obtain ⟨h1, h2, h3, h4, h5, h6⟩ := hw
    obtain ⟨g1, g2⟩ := Here.cons h
    obtain ⟨g3, g4⟩ := g2.cons
    unfold literalChar
    rw [g1, res_bind_ok, if_neg (by decide), if_neg (by decide), g3, res_bind_ok, if_neg (by rw [isOct_eq, h3]; decide), if_neg (by simpa using h4),
      if_neg (by simpa using h5), back_value b h2]
    rfl
  | oct a b c =>
    obtain ⟨ha, hb, hc⟩ := hw
    obtain ⟨g1, g2⟩ := Here.cons h
    obtain ⟨g3, g4⟩ := g2.cons
    have g5 : Here s (p + 1 + 1) [b] ([c] ++ post) := Here.left (a := [b]) (b := [c]) g4
    have g6 := g4.cons.2
    obtain ⟨a1, a2, a3, a4⟩ := oct_facts a ha
    have b3 := (oct_facts b hb).2.2.1
    unfold literalChar
    rw [g1, res_bind_ok, if_neg (by decide), if_neg (by decide), g3, res_bind_ok, if_pos (by rw [isOct_eq, ha]), a2,
      octDigit_eval (p := p + 2) g5 hb (by omega), res_bind_ok, octDigit_eval (p := p + 2 + 1) g6 hc (by omega)]
    simp only [Written.value, Written.bytes, List.length_cons, List.length_nil]
    congr 3
    omega
  | hex br a b =>
    obtain ⟨ha, hb⟩ := hw
    obtain ⟨a1, a2, a3, a5, a4⟩ := hex_unhex a ha
    cases br with
    | false =>
      obtain ⟨g1, g2⟩ := Here.cons h
      obtain ⟨g3, g4⟩ := g2.cons
      obtain ⟨e1, e2, e3⟩ := hexPair g4 ha hb (p + 2)
      unfold literalChar
      rw [g1, res_bind_ok, if_neg (by decide), if_neg (by decide), g3, res_bind_ok, if_neg (by decide), if_pos (by decide)]
      unfold hexEscape openBrace closeBrace
      simp only [e1, e2, res_bind_ok]
      rw [if_neg (by simpa using a3), if_neg (by simpa using a5)]
      simp only [res_bind_ok, e1, e2, e3, Bool.false_eq_true, ↓reduceIte]
      rfl
    | true =>
      obtain ⟨g1, g2⟩ := Here.cons h
      obtain ⟨g3, g4⟩ := g2.cons
      obtain ⟨g5, g6⟩ := g4.cons
      have g7 : Here s (p + 1 + 1 + 1) [a, b] ([0x7D#8] ++ post) := Here.left (a := [a, b]) (b := [0x7D#8]) g6
      have g8 := g6.cons.2.cons.2.cons.1
      obtain ⟨e1, e2, e3⟩ := hexPair g7 ha hb (p + 3)
      unfold literalChar
      rw [g1, res_bind_ok, if_neg (by decide), if_neg (by decide), g3, res_bind_ok, if_neg (by decide), if_pos (by decide)]
      unfold hexEscape openBrace closeBrace
      rw [show rd (s ++ [0#8]) (p + 2) = .ok 0x7B#8 from g5, res_bind_ok, if_neg (by decide), res_bind_ok, if_pos (by decide), res_bind_ok]
      simp only [Nat.add_assoc, Nat.reduceAdd] at e1 e2 e3 g8 ⊢
      rw [e1, res_bind_ok, e2, res_bind_ok, e3]
      simp only [↓reduceIte]
      rw [g8, res_bind_ok, if_pos (by decide), res_bind_ok]
      rfl
  | uni a b c d =>
    obtain ⟨ha, hb, hc, hd⟩ := hw
    obtain ⟨a1, a2, a3, a5, a4⟩ := hex_unhex a ha
    obtain ⟨g1, g2⟩ := Here.cons h
    obtain ⟨g3, g4⟩ := g2.cons
    have hl := uniLoop_eval [a, b, c, d] 4 0 (p + 2) post g4 (all4 ha hb hc hd) (by simp) (Nat.pow_pos (by decide)) (by simp) (Or.inl rfl)
    unfold literalChar
    rw [g1, res_bind_ok, if_neg (by decide), if_neg (by decide), g3, res_bind_ok, if_neg (by decide), if_neg (by decide), if_pos (by decide)]
    unfold uniEscape openBrace closeBrace
    rw [show rd (s ++ [0#8]) (p + 2) = .ok a from g4.cons.1, res_bind_ok, if_neg (by simpa using a5), res_bind_ok]
    simp only [Bool.false_eq_true, ↓reduceIte]
    rw [hl, res_bind_ok]
    rfl
  | uniBraces ds =>
    obtain ⟨h1, h2, h3⟩ := hw
    obtain ⟨g1, g2⟩ := Here.cons h
    obtain ⟨g3, g4⟩ := g2.cons
    obtain ⟨g5, g6⟩ := g4.cons
    have g7 : Here s (p + 1 + 1 + 1) ds ([0x7D#8] ++ post) := Here.left (a := ds) (b := [0x7D#8]) g6
    have g8 : Here s (p + 3 + ds.length) [0x7D#8] post := Here.right (a := ds) (b := [0x7D#8]) g6
    have hl := uniLoop_eval ds 8 0 (p + 3) _ g7 h3 h2 (Nat.pow_pos (by decide)) h2 (Or.inr (show hexDigit 0x7D#8 = none by decide))
    unfold literalChar
    rw [g1, res_bind_ok, if_neg (by decide), if_neg (by decide), g3, res_bind_ok, if_neg (by decide), if_neg (by decide), if_pos (by decide)]
    unfold uniEscape openBrace closeBrace
    rw [show rd (s ++ [0#8]) (p + 2) = .ok 0x7B#8 from g5, res_bind_ok, if_pos (by decide), res_bind_ok]
    simp only [↓reduceIte]
    rw [hl, res_bind_ok, g8.cons.1, res_bind_ok, if_pos (by decide), res_bind_ok]
    simp only [Written.bytes, Written.value, hexNumber, List.length_append, List.length_cons, List.length_nil]
    congr 2
    omega


theorem eq_ofNat (c : UCS4) (v : Nat) (hv : v < 2 ^ 32) : (c == BitVec.ofNat 32 v) = (c.toNat == v) := by
  rw [Bool.eq_iff_iff, beq_iff_eq, beq_iff_eq]
  constructor
  · rintro rfl; simp; omega
  · intro h; apply BitVec.eq_of_toNat_eq; simp; omega

theorem ctype_eval (f : Nat → Bool) (c : UCS4) (h : InCtype c) : ctype f c = .ok (c.toNat < 128 && f c.toNat) := by
  unfold ctype
  unfold InCtype at h
  rw [if_pos (by simpa using h)]

theorem charProperty_prop {p : Nat} {post : List Byte} {l : Byte} (h : Here s p [l] post) (hl : isPropLetter l = true) (c : UCS4) (hc : InCtype c) :
    charProperty (s ++ [0#8]) p c = .ok (hasProp l c, p + 1) := by
  have hl' : l = 0x61#8 ∨ l = 0x64#8 ∨ l = 0x68#8 ∨ l = 0x4C#8 ∨ l = 0x55#8 ∨ l = 0x73#8 ∨ l = 0x77#8 := by
    simpa [isPropLetter, or_assoc] using hl
  unfold charProperty
  rw [h.cons.1, res_bind_ok]
  rcases hl' with rfl | rfl | rfl | rfl | rfl | rfl | rfl
  all_goals
    simp only [BEq.rfl, ↓reduceIte, BitVec.reduceBEq, Bool.false_eq_true]
    rw [ctype_eval _ c hc, res_bind_ok]
    congr 2
    rw [Bool.eq_iff_iff]
    simp only [hasProp, isAlphaA, isUpperA, isLowerA, isDigitA, isAlnumA, isSpaceA]
    simp
    omega

/-- a backslash that does not start a property -/
theorem charProperty_lit {p : Nat} {post : List Byte} {P : Byte → Bool} (hP : ∀ b, P b = true → b ≠ 0#8 ∧ b ≠ 0x5C#8) (w : Written) (hw : w.ok P)
    (hne : ∀ b, w ≠ .plain b) (h : Here s p w.bytes post) (c : UCS4) :
    charProperty (s ++ [0#8]) (p + 1) c = .ok (c.toNat == w.value, p + w.bytes.length) ∧ rd (s ++ [0#8]) p = .ok 0x5C#8 ∧
    ∃ e, rd (s ++ [0#8]) (p + 1) = .ok e ∧ isPropLetter e = false ∧
      ((∃ b, w = .back b ∧ e = b) ∨ (octalDigit e = true ∨ e = 0x78#8 ∨ e = 0x75#8)) := by
  have hlit := literalChar_eval hP w hw h
  have hv := w.value_lt hw
  have hoct : ∀ e : Byte, octalDigit e = true → isPropLetter e = false := by decide +kernel
  obtain ⟨e, he, hp, hk⟩ : ∃ e, (∃ rest, w.bytes = 0x5C#8 :: e :: rest) ∧ isPropLetter e = false ∧
      ((∃ b, w = .back b ∧ e = b) ∨ (octalDigit e = true ∨ e = 0x78#8 ∨ e = 0x75#8)) := by
    cases w with
    | plain b => exact absurd rfl (hne b)
    | back b => exact ⟨b, ⟨_, rfl⟩, hw.2.2.2.2.2, Or.inl ⟨b, rfl, rfl⟩⟩
    | oct a b c => exact ⟨a, ⟨_, rfl⟩, hoct a hw.1, Or.inr (Or.inl hw.1)⟩
    | hex br a b => cases br <;> exact ⟨0x78#8, ⟨_, rfl⟩, by decide, Or.inr (Or.inr (Or.inl rfl))⟩
    | uni a b c d => exact ⟨0x75#8, ⟨_, rfl⟩, by decide, Or.inr (Or.inr (Or.inr rfl))⟩
    | uniBraces ds => exact ⟨0x75#8, ⟨_, rfl⟩, by decide, Or.inr (Or.inr (Or.inr rfl))⟩
  obtain ⟨rest, hb⟩ := he
  rw [hb] at h
  obtain ⟨g1, g2⟩ := h.cons
  obtain ⟨g3, g4⟩ := g2.cons
  refine ⟨?_, g1, e, g3, hp, hk⟩
  have hp' : e ≠ 0x61#8 ∧ e ≠ 0x64#8 ∧ e ≠ 0x68#8 ∧ e ≠ 0x4C#8 ∧ e ≠ 0x55#8 ∧ e ≠ 0x73#8 ∧ e ≠ 0x77#8 := by
    simpa [isPropLetter, and_assoc] using hp
  obtain ⟨q1, q2, q3, q4, q5, q6, q7⟩ := hp'
  unfold charProperty
  rw [g3, res_bind_ok, if_neg (by simpa using q1), if_neg (by simpa using q2), if_neg (by simpa using q3), if_neg (by simpa using q4),
    if_neg (by simpa using q5), if_neg (by simpa using q6), if_neg (by simpa using q7), if_neg (by simp), Nat.add_sub_cancel, hlit, res_bind_ok,
    ← eq_ofNat c _ hv]
  congr 2
  exact Bool.beq_comm

theorem plainInClass_ok : ∀ b : Byte, plainInClass b = true → b ≠ 0#8 ∧ b ≠ 0x5C#8 := by decide +kernel

theorem Written.head (w : Written) : (∃ b, w = .plain b) ∨ ∃ rest, w.bytes = 0x5C#8 :: rest := by
  cases w with
  | plain b => exact Or.inl ⟨b, rfl⟩
  | hex br a b => cases br <;> exact Or.inr ⟨_, rfl⟩
  | _ => exact Or.inr ⟨_, rfl⟩

theorem Item.head (i : Item) (h : i.ok) : ∃ b rest, i.bytes = b :: rest ∧ b ≠ 0#8 ∧ b ≠ 0x5D#8 ∧ b ≠ 0x2D#8 ∧ b ≠ 0x5E#8 := by
  have hpl : ∀ b : Byte, plainInClass b = true → b ≠ 0#8 ∧ b ≠ 0x5D#8 ∧ b ≠ 0x2D#8 ∧ b ≠ 0x5E#8 := by decide +kernel
  have hw : ∀ w : Written, w.ok plainInClass → ∃ b rest, w.bytes = b :: rest ∧ b ≠ 0#8 ∧ b ≠ 0x5D#8 ∧ b ≠ 0x2D#8 ∧ b ≠ 0x5E#8 := by
    intro w hw
    rcases Written.head w with ⟨b, rfl⟩ | ⟨rest, h⟩
    · exact ⟨b, [], rfl, hpl b hw.1⟩
    · exact ⟨_, rest, h, by decide⟩
  cases i with
  | single w => exact hw w h
  | range w w' =>
    obtain ⟨b, rest, h1, h2⟩ := hw w h.1
    exact ⟨b, rest ++ 0x2D#8 :: w'.bytes, by simp [Item.bytes, h1], h2⟩
  | prop l => exact ⟨_, _, rfl, by decide⟩

def isAlphaByte (b : Byte) : Bool := (0x41 ≤ b.toNat && b.toNat ≤ 0x5A) || (0x61 ≤ b.toNat && b.toNat ≤ 0x7A)

theorem ctype_alpha (b : Byte) : ctype isAlphaA (sx b) = .ok (isAlphaByte b) := by
  revert b
  decide +kernel

theorem classItem_eval {p : Nat} {post : List Byte} (i : Item) (hi : i.ok) (h : Here s p i.bytes post) (hpost : nxt post ≠ 0x2D#8) (c : UCS4)
    (hc : i.noProps = true ∨ InCtype c) : classItem (s ++ [0#8]) p c = .ok (i.has c, p + i.bytes.length) := by
  obtain ⟨e, he⟩ : ∃ e, rd (s ++ [0#8]) (p + 1) = .ok e := by
    obtain ⟨b, rest, hb, -⟩ := i.head hi
    rw [hb] at h
    have hl := h.len
    rw [List.length_cons] at hl
    rcases rd_pat s (p + 1) with ⟨-, b', -, h3⟩ | ⟨-, h2⟩ | ⟨h1, -⟩
    · exact ⟨_, h3⟩
    · exact ⟨_, h2⟩
    · omega
  -- a written character, not an escaped letter
  have lit : ∀ (w : Written) (post : List Byte), w.ok plainInClass → Here s p w.bytes post → startsRange w →
      ∃ b, rd (s ++ [0#8]) p = .ok b ∧ (b == 0x5C#8 && (isAlphaByte e && (e != 0x78#8 && e != 0x75#8))) = false := by
    intro w post hw hh hs
    have hoct : ∀ e : Byte, octalDigit e = true → isAlphaByte e = false := by decide +kernel
    rcases Written.head w with ⟨b, rfl⟩ | ⟨rest, hr⟩
    · refine ⟨b, hh.cons.1, ?_⟩
      have := (plainInClass_ok b hw.1).2
      rw [beq_eq_false_iff_ne.mpr this]
      rfl
    · obtain ⟨-, g1, e', g2, g3, g4⟩ := charProperty_lit plainInClass_ok w hw (by rintro b rfl; simp [Written.bytes] at hr; rcases hr with ⟨rfl, -⟩; exact absurd (plainInClass_ok _ hw.1).2 (by decide)) hh c
      rw [he] at g2
      cases g2
      refine ⟨_, g1, ?_⟩
      rcases g4 with ⟨b, rfl, rfl⟩ | g4 | rfl | rfl
      · have : isAlphaByte e = false := by
          rw [← Bool.not_eq_true]
          intro h
          apply hs
          simpa [isAlphaByte] using h
        simp [this]
      · simp [hoct e g4]
      · simp
      · simp
  unfold classItem
  cases i with
  | prop l =>
    obtain ⟨g1, g2⟩ := Here.cons h
    have hl := g2.cons.1
    rw [he] at hl
    cases hl
    have hp : ∀ l : Byte, isPropLetter l = true → (isAlphaByte l && (l != 0x78#8 && l != 0x75#8)) = true := by decide +kernel
    rw [g1, res_bind_ok, he, res_bind_ok, ctype_alpha, res_bind_ok, if_pos (by rw [hp e hi]; rfl),
      charProperty_prop g2 hi c (hc.resolve_left (by simp [Item.noProps]))]
    rfl
  | single w =>
    by_cases hs : startsRange w
    · obtain ⟨b, hb, hcond⟩ := lit w post hi h hs
      rw [hb, res_bind_ok, he, res_bind_ok, ctype_alpha, res_bind_ok, hcond, if_neg (by decide), literalChar_eval plainInClass_ok w hi h, res_bind_ok]
      simp only
      rw [show rd (s ++ [0#8]) (p + w.bytes.length) = .ok (nxt post) from (Here.over h).end, res_bind_ok, if_neg (by simpa using hpost), eq_ofNat c _ (w.value_lt hi)]
      rfl
    · cases w with
      | back b =>
        obtain ⟨g0, g1, e', g2, g3, g4⟩ := charProperty_lit plainInClass_ok (.back b) hi (by intro b h; cases h) h c
        rw [he] at g2
        cases g2
        have hbe : e = b := by
          obtain ⟨x1, x2⟩ := Here.cons h
          have := x2.cons.1
          rw [he] at this
          cases this
          rfl
        subst hbe
        have ha : isAlphaByte e = true := by
          have : ¬ ¬ _ := hs
          simpa [isAlphaByte] using Classical.not_not.mp this
        rw [g1, res_bind_ok, he, res_bind_ok, ctype_alpha, res_bind_ok, if_pos ?_]
        · exact g0
        · have h1 := hi.2.2.2.1
          have h2 := hi.2.2.2.2.1
          simp [ha, h1, h2]
      | _ => exact absurd trivial hs
  | range w w' =>
    obtain ⟨hw, hw', hs⟩ := hi
    have h1 : Here s p w.bytes ((0x2D#8 :: w'.bytes) ++ post) := Here.left h
    have h2 : Here s (p + w.bytes.length) (0x2D#8 :: w'.bytes) post := Here.right h
    obtain ⟨b, hb, hcond⟩ := lit w _ hw h1 hs
    obtain ⟨h3, h4⟩ := h2.cons
    rw [hb, res_bind_ok, he, res_bind_ok, ctype_alpha, res_bind_ok, hcond, if_neg (by decide), literalChar_eval plainInClass_ok w hw h1, res_bind_ok]
    simp only
    rw [h3, res_bind_ok, if_pos (by decide), literalChar_eval plainInClass_ok w' hw' h4, res_bind_ok]
    have v1 := w.value_lt hw
    have v2 := w'.value_lt hw'
    simp only [Item.has, Item.bytes, List.length_append, List.length_cons, BitVec.toNat_ofNat]
    rw [Nat.mod_eq_of_lt v1, Nat.mod_eq_of_lt v2]
    congr 2
    · simp
    · omega

theorem classLoop_eval (c : UCS4) : ∀ (items : List Item) (k p : Nat) (inC : Bool) (post : List Byte), (∀ i ∈ items, i.ok) → Here s p (items.flatMap Item.bytes) (0x5D#8 :: post) →
    (items.all Item.noProps = true ∨ InCtype c) → s.length < p + k →
    classLoop (s ++ [0#8]) c k p inC = .ok (inC || items.any (·.has c), p + (items.flatMap Item.bytes).length) := by
  intro items
  induction items with
  | nil =>
    intro k p inC post _ h _ hk
    have hl := h.len
    simp at hl
    obtain ⟨k, rfl⟩ : ∃ j, k = j + 1 := ⟨k - 1, by omega⟩
    unfold classLoop
    rw [h.end, res_bind_ok, if_pos (by simp [nxt])]
    simp
  | cons i items ih =>
    intro k p inC post hok h hc hk
    have hi := hok i (by simp)
    obtain ⟨b, rest, hb, b0, b1, b2, b3⟩ := i.head hi
    rw [List.flatMap_cons] at h
    have h1 := Here.left h
    have h2 := Here.right h
    have hb1 : Here s p (b :: rest) _ := hb ▸ h1
    have hl := hb1.len
    rw [List.length_cons] at hl
    obtain ⟨k, rfl⟩ : ∃ j, k = j + 1 := ⟨k - 1, by omega⟩
    have hnx : nxt (items.flatMap Item.bytes ++ 0x5D#8 :: post) ≠ 0x2D#8 := by
      cases items with
      | nil => simp [nxt]
      | cons j items =>
        obtain ⟨b', rest', hb', -, -, c3, -⟩ := j.head (hok j (by simp))
        simpa [nxt, hb'] using c3
    unfold classLoop
    rw [hb1.cons.1, res_bind_ok, if_neg (by simp [b0, b1]), classItem_eval i hi h1 hnx c (hc.imp (by simp; exact fun h _ => h) id), res_bind_ok]
    have : 1 ≤ i.bytes.length := by rw [hb]; simp
    rw [ih k _ _ post (fun j hj => hok j (by simp [hj])) h2 (hc.imp (fun h => by simp at h ⊢; exact h.2) id) (by omega)]
    simp [Nat.add_assoc, Bool.or_assoc]

theorem skipClassLoop_eval : ∀ (items : List Item) (k p : Nat) (post : List Byte), (∀ i ∈ items, i.ok) → Here s p (items.flatMap Item.bytes) (0x5D#8 :: post) →
    s.length < p + k → skipClassLoop (s ++ [0#8]) k p = .ok (p + (items.flatMap Item.bytes).length) := by
  intro items
  induction items with
  | nil =>
    intro k p post _ h hk
    have hl := h.len
    simp at hl
    obtain ⟨k, rfl⟩ : ∃ j, k = j + 1 := ⟨k - 1, by omega⟩
    unfold skipClassLoop
    rw [h.end, res_bind_ok, if_pos (by simp [nxt])]
    simp
  | cons i items ih =>
    intro k p post hok h hk
    have hi := hok i (by simp)
    obtain ⟨b, rest, hb, b0, b1, b2, b3⟩ := i.head hi
    rw [List.flatMap_cons] at h
    have h1 := Here.left h
    have h2 := Here.right h
    have hb1 : Here s p (b :: rest) _ := hb ▸ h1
    have hl := hb1.len
    rw [List.length_cons] at hl
    obtain ⟨k, rfl⟩ : ∃ j, k = j + 1 := ⟨k - 1, by omega⟩
    have hnx : nxt (items.flatMap Item.bytes ++ 0x5D#8 :: post) ≠ 0x2D#8 := by
      cases items with
      | nil => simp [nxt]
      | cons j items =>
        obtain ⟨b', rest', hb', -, -, c3, -⟩ := j.head (hok j (by simp))
        simpa [nxt, hb'] using c3
    have hlen : 1 ≤ i.bytes.length := by rw [hb]; simp
    have hih := ih k _ post (fun j hj => hok j (by simp [hj])) h2 (by omega)
    unfold skipClassLoop
    rw [hb1.cons.1, res_bind_ok, if_neg (by simp [b0, b1])]
    have hgoal : p + i.bytes.length + (items.flatMap Item.bytes).length = p + ((i :: items).flatMap Item.bytes).length := by
      simp [Nat.add_assoc]
    rw [← hgoal, ← hih]
    -- a property is read like a letter
    have two : ∀ l : Byte, isPropLetter l = true → Here s p [0x5C#8, l] (items.flatMap Item.bytes ++ 0x5D#8 :: post) →
        ∃ v, literalChar (s ++ [0#8]) p = .ok (v, p + 2) := by
      intro l hl hh
      obtain ⟨g1, g2⟩ := hh.cons
      have : ∀ l : Byte, isPropLetter l = true → isOct l = false ∧ l ≠ 0x78#8 ∧ l ≠ 0x75#8 := by decide +kernel
      obtain ⟨q1, q2, q3⟩ := this l hl
      unfold literalChar
      rw [g1, res_bind_ok, if_neg (by decide), if_neg (by decide), g2.cons.1, res_bind_ok, if_neg (by rw [q1]; decide), if_neg (by simpa using q2),
        if_neg (by simpa using q3)]
      exact ⟨_, rfl⟩
    cases i with
    | prop l =>
      obtain ⟨v, hv⟩ := two l hi h1
      rw [hv, res_bind_ok]
      simp only
      rw [show p + 2 = p + (Item.prop l).bytes.length from rfl, (Here.over h1).end, res_bind_ok, if_neg (by simpa using hnx)]
    | single w =>
      rw [literalChar_eval plainInClass_ok w hi h1, res_bind_ok]
      simp only
      rw [show p + w.bytes.length = p + (Item.single w).bytes.length from rfl, (Here.over h1).end, res_bind_ok, if_neg (by simpa using hnx)]
    | range w w' =>
      obtain ⟨hw, hw', hs⟩ := hi
      have h3 : Here s p w.bytes ((0x2D#8 :: w'.bytes) ++ _) := Here.left h1
      have h4 : Here s (p + w.bytes.length) (0x2D#8 :: w'.bytes) _ := Here.right h1
      obtain ⟨h5, h6⟩ := h4.cons
      rw [literalChar_eval plainInClass_ok w hw h3, res_bind_ok]
      simp only
      rw [h5, res_bind_ok, if_pos (by decide), literalChar_eval plainInClass_ok w' hw' h6, res_bind_ok]
      simp only [Item.bytes, List.length_append, List.length_cons]
      congr 1
      omega

end

end Strpp.Pex
