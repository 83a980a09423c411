import Verif.Spec.Rx
import Verif.Model.RxCompile
import Verif.Proof.RxCode
import Verif.Proof.RxLoop
import Verif.Props.CharClass
/-! The byte code of a regular expression, and that its runs are the matches of the expression. -/
namespace Strpp.Rx
open Spec

/-- the string operand of a class -/
def rangeChars (rs : List (UCS4 × UCS4)) : List UCS4 := rs.flatMap fun r => [r.1, r.2]

/-- The (position independent) byte code of an expression -/
inductive Code (cnt : Bool) : Re → List Byte → Prop
  | empty : Code cnt .empty []
  | chr (s : Spelling) (c : UCS4) : ¬ Reserved c → c ≠ 0#32 → Code cnt (.chr s c) (opChar :: utf8Put c)
  | any : Code cnt .any [opAny]
  | bol : Code cnt .bol [opBOL]
  | eol : Code cnt .eol [opEOL]
  | cls (neg : Bool) (text : List UCS4) (rs : List (UCS4 × UCS4)) : rs ≠ [] → (∀ r ∈ rs, ¬ Reserved r.1 ∧ ¬ Reserved r.2) →
      numBytes (rangeChars rs) < 2 ^ 31 →
      Code cnt (.cls neg text rs) ((if neg then opNegClass else opClass) :: stringBytes (rangeChars rs))
  | prop (b : Bool) (p : Shorthand) : Code cnt (.prop b p) (opProp :: stringBytes [p.code])
  | seq (a b : Re) (x y : List Byte) : Code cnt a x → Code cnt b y → Code cnt (.seq a b) (x ++ y)
  | alt (a b : Re) (x y : List Byte) (o1 o2 : Int) : Code cnt a x → Code cnt b y →
      o1 = (offsetBytes o1).length + x.length + 1 + (offsetBytes o2).length → o1.natAbs < 2 ^ 30 →
      o2 = (offsetBytes o2).length + y.length → o2.natAbs < 2 ^ 30 →
      Code cnt (.alt a b) (opSplit :: offsetBytes o1 ++ x ++ opJump :: offsetBytes o2 ++ y)
  | star (a : Re) (x : List Byte) (o1 o2 : Int) : Code cnt a x →
      o1 = (offsetBytes o1).length + x.length + 1 + (offsetBytes o2).length → o1.natAbs < 2 ^ 30 →
      o2 = -(1 + (offsetBytes o1).length + x.length + 1 : Int) → o2.natAbs < 2 ^ 30 →
      Code cnt (.star a) (opSplit :: offsetBytes o1 ++ x ++ opJump :: offsetBytes o2)
  | plus (a : Re) (x : List Byte) (o : Int) : Code cnt a x → o = -(x.length + 1 : Int) → o.natAbs < 2 ^ 30 →
      Code cnt (.plus a) (x ++ opSplit :: offsetBytes o)
  | opt (a : Re) (x : List Byte) (o : Int) : Code cnt a x → o = (offsetBytes o).length + x.length → o.natAbs < 2 ^ 30 →
      Code cnt (.opt a) (opSplit :: offsetBytes o ++ x)
  | grp (nc : Bool) (a : Re) (x : List Byte) : Code cnt a x → Code cnt (.grp nc a) x
  | repStar (w : List UCS4) (a : Re) (bs : List Byte) : cnt = true → Code cnt (.star a) bs → Code cnt (.rep w 0 none a) bs
  | repOpt (w : List UCS4) (a : Re) (bs : List Byte) : cnt = true → Code cnt (.opt a) bs → Code cnt (.rep w 0 (some 1) a) bs
  | repPlus (w : List UCS4) (a : Re) (bs : List Byte) : cnt = true → Code cnt (.plus a) bs → Code cnt (.rep w 1 none a) bs
  | rep (w : List UCS4) (mn : Nat) (mx : Option Nat) (a : Re) (x : List Byte) (o : Int) : cnt = true → Code cnt a x → mn ≤ 254 →
      (∀ m, mx = some m → mn ≤ m ∧ 1 ≤ m ∧ m ≤ 254) → o = -(x.length + 3 : Int) → o.natAbs < 2 ^ 30 →
      Code cnt (.rep w mn mx a) (opZero :: x ++ opCount :: BitVec.ofNat 8 (mn + 1) :: BitVec.ofNat 8 (mx.getD 0 + 1) :: offsetBytes o)

/-- without counted repetitions -/
theorem Code.uncounted {r : Re} {bs : List Byte} (h : Code true r bs) (hr : r.counted = false) : Code false r bs := by
  induction h with
  | empty => exact .empty
  | chr s c h1 h2 => exact .chr s c h1 h2
  | any => exact .any
  | bol => exact .bol
  | eol => exact .eol
  | cls neg text rs h1 h2 h3 => exact .cls neg text rs h1 h2 h3
  | prop b p => exact .prop b p
  | seq a b x y _ _ iha ihb =>
    have hr : (a.counted || b.counted) = false := hr
    rw [Bool.or_eq_false_iff] at hr
    exact .seq a b x y (iha hr.1) (ihb hr.2)
  | alt a b x y o1 o2 _ _ e1 l1 e2 l2 iha ihb =>
    have hr : (a.counted || b.counted) = false := hr
    rw [Bool.or_eq_false_iff] at hr
    exact .alt a b x y o1 o2 (iha hr.1) (ihb hr.2) e1 l1 e2 l2
  | star a x o1 o2 _ e1 l1 e2 l2 ih => exact .star a x o1 o2 (ih hr) e1 l1 e2 l2
  | plus a x o _ e1 l1 ih => exact .plus a x o (ih hr) e1 l1
  | opt a x o _ e1 l1 ih => exact .opt a x o (ih hr) e1 l1
  | grp nc a x _ ih => exact .grp nc a x (ih hr)
  | repStar => cases hr
  | repOpt => cases hr
  | repPlus => cases hr
  | rep => cases hr

/-- `bs` is in the program at `p` -/
def At (P : Prog) (p : Nat) (bs : List Byte) : Prop := ∃ pre post, P.nfa = pre ++ bs ++ post ∧ pre.length = p

theorem At.left {P p x y} (h : At P p (x ++ y)) : At P p x := by
  obtain ⟨pre, post, h, hp⟩ := h
  exact ⟨pre, y ++ post, by rw [h]; simp, hp⟩

theorem At.right {P p x y} (h : At P p (x ++ y)) : At P (p + x.length) y := by
  obtain ⟨pre, post, h, hp⟩ := h
  exact ⟨pre ++ x, post, by rw [h]; simp, by simp [hp]⟩

theorem At.tail {P p b y} (h : At P p (b :: y)) : At P (p + 1) y := At.right (x := [b]) h

theorem At.head {P p b y} (h : At P p (b :: y)) : rd P.nfa p = .ok b := by
  obtain ⟨pre, post, h, hp⟩ := h
  rw [h, ← hp]
  simp

theorem At.station {P p i} (h : At P p (offsetBytes i)) (hi : i.natAbs < 2 ^ 30) (h0 : 0 ≤ (p : Int) + i)
    (h1 : (p : Int) + i < 4294967296) :
    getStation P.nfa p = .ok (((p : Int) + i).toNat, p + (offsetBytes i).length) := by
  obtain ⟨pre, post, h, rfl⟩ := h
  rw [h]
  exact getStation_put pre i post hi h0 h1

theorem At.text {P p s} (h : At P p (stringBytes s)) (hs : numBytes s < 2 ^ 31) :
    getText P.nfa p = .ok (s.flatMap utf8Put, p + (stringBytes s).length) := by
  obtain ⟨pre, post, h, rfl⟩ := h
  rw [h]
  have := getText_put pre (s.flatMap utf8Put) post hs
  unfold stringBytes
  rw [show numBytes s = (s.flatMap utf8Put).length from rfl, this]
  simp only [List.length_append, Nat.add_assoc]

theorem At.len {P p bs} (h : At P p bs) : p + bs.length ≤ P.nfa.length := by
  obtain ⟨pre, post, h, rfl⟩ := h
  rw [h]; simp only [List.length_append]; omega

theorem decode_char {P p c} (h : At P p (opChar :: utf8Put c)) (hc : ¬ Reserved c) :
    P.decode p = .ok (.char c (p + 1 + (utf8Put c).length)) := by
  unfold Prog.decode
  rw [h.head]
  have : utf8Get P.nfa (p + 1) = .ok (c, p + 1 + (utf8Put c).length) := by
    obtain ⟨pre, post, h, hp⟩ := h.tail
    rw [h, ← hp]
    exact get_put pre c post (not_reserved c hc)
  show (utf8Get P.nfa (p + 1) >>= fun r => (.ok (.char r.1 r.2) : Res Instr)) = _
  rw [this]; rfl

theorem decode_any {P p} (h : At P p [opAny]) : P.decode p = .ok (.any (p + 1)) := by
  unfold Prog.decode; rw [h.head]; rfl

theorem decode_bol {P p} (h : At P p [opBOL]) : P.decode p = .ok (.bol (p + 1)) := by
  unfold Prog.decode; rw [h.head]; rfl

theorem decode_eol {P p} (h : At P p [opEOL]) : P.decode p = .ok (.eol (p + 1)) := by
  unfold Prog.decode; rw [h.head]; rfl

theorem decode_accept {P p} (h : At P p [opAccept]) : P.decode p = .ok (.accept (p + 1)) := by
  unfold Prog.decode; rw [h.head]; rfl

theorem decode_prop {P p s} (h : At P p (opProp :: stringBytes s)) (hs : numBytes s < 2 ^ 31) :
    P.decode p = .ok (.prop (s.flatMap utf8Put) (p + (opProp :: stringBytes s).length)) := by
  unfold Prog.decode; rw [h.head]
  show (getText P.nfa (p + 1) >>= fun r => (.ok (.prop r.1 r.2) : Res Instr)) = _
  rw [h.tail.text hs, List.length_cons, show p + ((stringBytes s).length + 1) = p + 1 + (stringBytes s).length by omega]; rfl

theorem decode_cls {P p s neg} (h : At P p ((if neg then opNegClass else opClass) :: stringBytes s)) (hs : numBytes s < 2 ^ 31) :
    P.decode p = .ok (.cls neg (s.flatMap utf8Put) (p + 1 + (stringBytes s).length)) := by
  unfold Prog.decode; rw [h.head]
  cases neg with
  | false =>
    show (getText P.nfa (p + 1) >>= fun r => (.ok (.cls false r.1 r.2) : Res Instr)) = _
    rw [h.tail.text hs]; rfl
  | true =>
    show (getText P.nfa (p + 1) >>= fun r => (.ok (.cls true r.1 r.2) : Res Instr)) = _
    rw [h.tail.text hs]; rfl

theorem decode_split {P p o} (h : At P p (opSplit :: offsetBytes o)) (hi : o.natAbs < 2 ^ 30) (h0 : 0 ≤ (p : Int) + 1 + o)
    (h1 : (p : Int) + 1 + o < 4294967296) :
    P.decode p = .ok (.split ((p : Int) + 1 + o).toNat (p + 1 + (offsetBytes o).length)) := by
  have := h.tail.station hi (by omega) (by omega)
  unfold Prog.decode; rw [h.head]
  show (getStation P.nfa (p + 1) >>= fun r => (.ok (.split r.1 r.2) : Res Instr)) = _
  rw [this]
  show Except.ok _ = Except.ok _
  congr 2

theorem decode_jump {P p o} (h : At P p (opJump :: offsetBytes o)) (hi : o.natAbs < 2 ^ 30) (h0 : 0 ≤ (p : Int) + 1 + o)
    (h1 : (p : Int) + 1 + o < 4294967296) :
    P.decode p = .ok (.jump ((p : Int) + 1 + o).toNat (p + 1 + (offsetBytes o).length)) := by
  have := h.tail.station hi (by omega) (by omega)
  unfold Prog.decode; rw [h.head]
  show (getStation P.nfa (p + 1) >>= fun r => (.ok (.jump r.1 r.2) : Res Instr)) = _
  rw [this]
  show Except.ok _ = Except.ok _
  congr 2

/-! ### Characters -/

theorem chAt_of {t : List UCS4} {i : Nat} {c : UCS4} (h : t[i]? = some c) : chAt t i = c := by
  have hi : i < t.length := by
    by_cases hi : i < t.length
    · exact hi
    · rw [List.getElem?_eq_none (by omega)] at h; cases h
  unfold chAt
  rw [if_neg (by omega), h]; rfl

theorem chAt_nz {t : List UCS4} {i : Nat} (hi : i ≤ t.length) (h : chAt t i ≠ 0#32) : t[i]? = some (chAt t i) := by
  unfold chAt at *
  by_cases he : i = t.length
  · rw [if_pos he] at h; exact (h rfl).elim
  · rw [if_neg he] at *
    rw [List.getElem?_eq_getElem (by omega)]; rfl

theorem lt_of_some {t : List UCS4} {i : Nat} {c : UCS4} (h : t[i]? = some c) : i < t.length := by
  by_cases hi : i < t.length
  · exact hi
  · rw [List.getElem?_eq_none (by omega)] at h; cases h

theorem chAt_nl {t : List UCS4} {i : Nat} : chAt t i = 0x0A#32 ↔ t[i]? = some 0x0A#32 := by
  constructor
  · intro h
    by_cases hi : i ≤ t.length
    · rw [chAt_nz hi (by rw [h]; decide), h]
    · unfold chAt at h
      rw [if_neg (by omega), List.getElem?_eq_none (by omega)] at h
      exact absurd h (by decide)
  · exact chAt_of

theorem atBOL_iff {t : List UCS4} {i : Nat} : atBOL t i = true ↔ (i = 0 ∨ t[i - 1]? = some 0x0A#32) := by
  unfold atBOL
  rw [Bool.or_eq_true, beq_iff_eq, beq_iff_eq, chAt_nl]

theorem atEOL_iff {t : List UCS4} {i : Nat} : atEOL t i = true ↔ (i = t.length ∨ t[i]? = some 0x0A#32) := by
  unfold atEOL
  rw [Bool.or_eq_true, beq_iff_eq, beq_iff_eq, chAt_nl]

theorem isDigit_iff (ch : UCS4) : isDigit ch = true ↔ ∃ v, IsDigit ch.toNat v := by
  obtain ⟨d, w, e, hr, hv⟩ := C13_digit_partial 0 (by omega) (by decide) ch
  unfold isDigit
  rw [e]
  simp only [ge_iff_le, decide_eq_true_eq]
  constructor
  · intro h
    exact ⟨d.toNat, (hv d.toNat).1 (by omega)⟩
  · rintro ⟨v, h⟩
    have := (hv v).2 h
    omega

theorem hasProp_iff (p : Shorthand) (ch : UCS4) : hasProp ch [p.code] = true ↔ p.has ch := by
  cases p with
  | space => exact C13_white ch
  | digit => exact isDigit_iff ch
  | hex =>
    show (isDigit ch || (decide (0x61 ≤ ch.toNat) && decide (ch.toNat ≤ 0x66)) ||
      (decide (0x41 ≤ ch.toNat) && decide (ch.toNat ≤ 0x46))) = true ↔ _
    simp only [Bool.or_eq_true, Bool.and_eq_true, decide_eq_true_eq, isDigit_iff, Shorthand.has, or_assoc]

theorem inRanges_iff (ch : UCS4) (rs : List (UCS4 × UCS4)) :
    inRanges ch (rangeChars rs) = true ↔ ∃ r ∈ rs, r.1.toNat ≤ ch.toNat ∧ ch.toNat ≤ r.2.toNat := by
  induction rs with
  | nil => simp [rangeChars, inRanges]
  | cons r rs ih =>
    show inRanges ch (r.1 :: r.2 :: rangeChars rs) = true ↔ _
    rw [inRanges, Bool.or_eq_true, ih]
    simp

theorem decode_rangeChars (rs : List (UCS4 × UCS4)) (h : ∀ r ∈ rs, ¬ Reserved r.1 ∧ ¬ Reserved r.2) :
    decodeAll ((rangeChars rs).flatMap utf8Put) = rangeChars rs := by
  have := decodeAll_encodeAll (rangeChars rs) (by
    intro c hc
    simp only [rangeChars, List.mem_flatMap, List.mem_cons, List.not_mem_nil, or_false] at hc
    obtain ⟨r, hr, rfl | rfl⟩ := hc
    · exact (h r hr).1
    · exact (h r hr).2) []
  simp only [List.append_nil, decodeAll_nil] at this
  exact this

/-! ### Runs with their number of moves -/

/-- `Acc` with the number of moves -/
inductive AccN (P : Prog) (t : List UCS4) : Nat → Nat → Nat → Nat → Prop
  | acc (i s n : Nat) : P.decode s = .ok (.accept n) → i ≤ t.length → AccN P t 0 i s i
  | eps (m i s s' e : Nat) : EStep P t i s s' → AccN P t m i s' e → AccN P t (m + 1) i s e
  | step (m i s n e : Nat) (ins : Instr) : P.decode s = .ok ins → consume ins (chAt t i) = .ok (.goesOn n) →
      i ≤ t.length → AccN P t m (i + 1) n e → AccN P t (m + 1) i s e

theorem AccN.acc' {P t n i s e} (h : AccN P t n i s e) : Acc P t i s e := by
  induction h with
  | acc i s n h hi => exact .acc i s n h hi
  | eps m i s s' e h _ ih => exact .eps i s s' e h ih
  | step m i s n e ins h hc hi _ ih => exact .step i s n e ins h hc hi ih

theorem Acc.count {P t i s e} (h : Acc P t i s e) : ∃ n, AccN P t n i s e := by
  induction h with
  | acc i s n h hi => exact ⟨0, .acc i s n h hi⟩
  | eps i s s' e h _ ih => obtain ⟨m, ih⟩ := ih; exact ⟨m + 1, .eps m i s s' e h ih⟩
  | step i s n e ins h hc hi _ ih => obtain ⟨m, ih⟩ := ih; exact ⟨m + 1, .step m i s n e ins h hc hi ih⟩

theorem AccN.inv {P t n i s e ins} (h : AccN P t n i s e) (hd : P.decode s = .ok ins) (hna : ∀ k, ins ≠ .accept k) :
    (∃ m < n, ∃ s' ∈ ins.eps t i, AccN P t m i s' e) ∨
    ∃ m < n, ∃ s', consume ins (chAt t i) = .ok (.goesOn s') ∧ i ≤ t.length ∧ AccN P t m (i + 1) s' e := by
  cases h with
  | acc i s k h hi => rw [hd] at h; cases h; exact (hna k rfl).elim
  | eps m i s s' e h h' =>
    obtain ⟨ins', hi', hm⟩ := h
    rw [hd] at hi'; cases hi'
    exact .inl ⟨m, by omega, s', hm, h'⟩
  | step m i s n e ins' h hc hi h' =>
    rw [hd] at h; cases h
    exact .inr ⟨m, by omega, n, hc, hi, h'⟩

theorem AccN.split {P t n i s e a b} (h : AccN P t n i s e) (hd : P.decode s = .ok (.split a b)) :
    ∃ m < n, AccN P t m i a e ∨ AccN P t m i b e := by
  rcases h.inv hd (by simp) with ⟨m, hm, s', hs, h⟩ | ⟨m, hm, s', hc, -⟩
  · simp only [Instr.eps, List.mem_cons, List.not_mem_nil, or_false] at hs
    rcases hs with rfl | rfl
    · exact ⟨m, hm, .inl h⟩
    · exact ⟨m, hm, .inr h⟩
  · cases hc

theorem AccN.jump {P t n i s e a b} (h : AccN P t n i s e) (hd : P.decode s = .ok (.jump a b)) :
    ∃ m < n, AccN P t m i a e := by
  rcases h.inv hd (by simp) with ⟨m, hm, s', hs, h⟩ | ⟨m, hm, s', hc, -⟩
  · simp only [Instr.eps, List.mem_cons, List.not_mem_nil, or_false] at hs
    subst hs
    exact ⟨m, hm, h⟩
  · cases hc

theorem Acc.ofSplit {P t i s e a b} (hd : P.decode s = .ok (.split a b)) (h : Acc P t i a e ∨ Acc P t i b e) : Acc P t i s e := by
  rcases h with h | h
  · exact .eps _ _ _ _ ⟨_, hd, by simp [Instr.eps]⟩ h
  · exact .eps _ _ _ _ ⟨_, hd, by simp [Instr.eps]⟩ h

theorem Acc.ofJump {P t i s e a b} (hd : P.decode s = .ok (.jump a b)) (h : Acc P t i a e) : Acc P t i s e :=
  .eps _ _ _ _ ⟨_, hd, by simp [Instr.eps]⟩ h

/-- An instruction that takes one character and goes on to `q` does what `r` says -/
theorem AccN.one {P t n i s e ins} {r : Re} {q : Nat} (h : AccN P t n i s e) (hd : P.decode s = .ok ins)
    (heps : ins.eps t i = []) (hna : ∀ k, ins ≠ .accept k)
    (hm : ∀ s', i ≤ t.length → consume ins (chAt t i) = .ok (.goesOn s') → s' = q ∧ Matches t r i (i + 1)) :
    ∃ k m, m ≤ n ∧ Matches t r i k ∧ AccN P t m k q e := by
  rcases h.inv hd hna with ⟨m, hm', s', hs, h⟩ | ⟨m, hm', s', hc, hi, h⟩
  · rw [heps] at hs; cases hs
  · obtain ⟨rfl, h2⟩ := hm s' hi hc
    exact ⟨i + 1, m, by omega, h2, h⟩

theorem consume_char {c ch : UCS4} {n s' : Nat} : consume (.char c n) ch = .ok (.goesOn s') ↔ ch = c ∧ s' = n := by
  simp only [consume]
  by_cases h : ch = c
  · rw [if_pos (by simpa using h)]; simp [h, eq_comm]
  · rw [if_neg (by simpa using h)]; simp [h]

theorem consume_any {ch : UCS4} {n s' : Nat} : consume (.any n) ch = .ok (.goesOn s') ↔ ch ≠ 0#32 ∧ s' = n := by
  simp only [consume]
  by_cases h : ch = 0#32
  · rw [if_neg (by simpa using h)]; simp [h]
  · rw [if_pos (by simpa using h)]; simp [h, eq_comm]

theorem consume_cls {neg : Bool} {rs : List (UCS4 × UCS4)} {ch : UCS4} {n s' : Nat} (hne : rs ≠ [])
    (h : ∀ r ∈ rs, ¬ Reserved r.1 ∧ ¬ Reserved r.2) :
    consume (.cls neg ((rangeChars rs).flatMap utf8Put) n) ch = .ok (.goesOn s') ↔
      (ch ≠ 0#32 ∧ ((∃ r ∈ rs, r.1.toNat ≤ ch.toNat ∧ ch.toNat ≤ r.2.toNat) ↔ neg = false)) ∧ s' = n := by
  simp only [consume]
  by_cases h0 : ch = 0#32
  · rw [if_pos (by simpa using h0)]; simp [h0]
  · rw [if_neg (by simpa using h0), decode_rangeChars rs h]
    have hl : decide ((rangeChars rs).length > 0) = true := by
      cases rs with
      | nil => exact (hne rfl).elim
      | cons r rs => simp [rangeChars]
    rw [hl, assert_true, res_bind_ok, ← inRanges_iff]
    cases hin : inRanges ch (rangeChars rs) <;> cases neg <;> simp [h0, eq_comm]

theorem consume_prop {p : Shorthand} {ch : UCS4} {n s' : Nat} :
    consume (.prop ([p.code].flatMap utf8Put) n) ch = .ok (.goesOn s') ↔ (ch ≠ 0#32 ∧ p.has ch) ∧ s' = n := by
  simp only [consume]
  by_cases h0 : ch = 0#32
  · rw [if_pos (by simpa using h0)]; simp [h0]
  · have hd : decodeAll ([p.code].flatMap utf8Put) = [p.code] := by
      have := decodeAll_encodeAll [p.code] (by
        intro c hc
        cases List.mem_singleton.1 hc
        cases p <;> decide) []
      simpa [decodeAll_nil] using this
    rw [if_neg (by simpa using h0), hd]
    simp only [List.length_singleton, gt_iff_lt, Nat.lt_one_iff, decide_true, assert_true, res_bind_ok, ← hasProp_iff]
    cases hin : hasProp ch [p.code] <;> simp [h0, eq_comm]

/-- Where the parts of an alternation are -/
theorem alt_layout {P : Prog} (hlen : P.nfa.length < 2 ^ 30) {x y : List Byte} {o1 o2 : Int} {p : Nat}
    (e1 : o1 = (offsetBytes o1).length + x.length + 1 + (offsetBytes o2).length) (l1 : o1.natAbs < 2 ^ 30)
    (e2 : o2 = (offsetBytes o2).length + y.length) (l2 : o2.natAbs < 2 ^ 30)
    (hat : At P p (opSplit :: offsetBytes o1 ++ x ++ opJump :: offsetBytes o2 ++ y)) :
    ∃ px py, p < px ∧ px + x.length < py ∧
      py + y.length = p + (opSplit :: offsetBytes o1 ++ x ++ opJump :: offsetBytes o2 ++ y).length ∧
      P.decode p = .ok (.split py px) ∧ At P px x ∧ P.decode (px + x.length) = .ok (.jump (py + y.length) py) ∧ At P py y := by
  have hl := hat.len
  simp only [List.length_append, List.length_cons] at hl
  have hs : At P p (opSplit :: offsetBytes o1) :=
    At.left (y := x ++ (opJump :: offsetBytes o2 ++ y)) (by simpa [List.append_assoc] using hat)
  have d1 := decode_split hs l1 (by omega) (by omega)
  have hx : At P (p + 1 + (offsetBytes o1).length) x := by
    have : At P p ((opSplit :: offsetBytes o1) ++ (x ++ (opJump :: offsetBytes o2 ++ y))) := by
      simpa [List.append_assoc] using hat
    have := this.right.left
    rw [List.length_cons] at this
    rwa [show p + 1 + (offsetBytes o1).length = p + ((offsetBytes o1).length + 1) by omega]
  have hj : At P (p + 1 + (offsetBytes o1).length + x.length) (opJump :: offsetBytes o2 ++ y) := by
    have : At P p ((opSplit :: offsetBytes o1 ++ x) ++ (opJump :: offsetBytes o2 ++ y)) := by
      simpa [List.append_assoc] using hat
    have := this.right
    rw [List.length_append, List.length_cons] at this
    rwa [show p + 1 + (offsetBytes o1).length + x.length = p + ((offsetBytes o1).length + 1 + x.length) by omega]
  have d2 := decode_jump hj.left l2 (by omega) (by omega)
  have hy : At P (p + 1 + (offsetBytes o1).length + x.length + 1 + (offsetBytes o2).length) y := by
    have := hj.right
    rw [List.length_cons] at this
    rwa [show p + 1 + (offsetBytes o1).length + x.length + 1 + (offsetBytes o2).length =
      p + 1 + (offsetBytes o1).length + x.length + ((offsetBytes o2).length + 1) by omega]
  refine ⟨_, _, ?_, ?_, ?_, ?_, hx, ?_, hy⟩
  · omega
  · omega
  · simp only [List.length_append, List.length_cons]; omega
  · rw [d1]; congr 2; omega
  · rw [d2]; congr 2; omega

theorem star_layout {P : Prog} (hlen : P.nfa.length < 2 ^ 30) {x : List Byte} {o1 o2 : Int} {p : Nat}
    (e1 : o1 = (offsetBytes o1).length + x.length + 1 + (offsetBytes o2).length) (l1 : o1.natAbs < 2 ^ 30)
    (e2 : o2 = -(1 + (offsetBytes o1).length + x.length + 1 : Int)) (l2 : o2.natAbs < 2 ^ 30)
    (hat : At P p (opSplit :: offsetBytes o1 ++ x ++ opJump :: offsetBytes o2)) :
    ∃ px pe, p < px ∧ px + x.length < pe ∧ pe = p + (opSplit :: offsetBytes o1 ++ x ++ opJump :: offsetBytes o2).length ∧
      P.decode p = .ok (.split pe px) ∧ At P px x ∧ P.decode (px + x.length) = .ok (.jump p pe) := by
  have hl := hat.len
  simp only [List.length_append, List.length_cons] at hl
  have hs : At P p (opSplit :: offsetBytes o1) :=
    At.left (y := x ++ (opJump :: offsetBytes o2)) (by simpa [List.append_assoc] using hat)
  have d1 := decode_split hs l1 (by omega) (by omega)
  have hx : At P (p + 1 + (offsetBytes o1).length) x := by
    have : At P p ((opSplit :: offsetBytes o1) ++ (x ++ (opJump :: offsetBytes o2))) := by
      simpa [List.append_assoc] using hat
    have := this.right.left
    rw [List.length_cons] at this
    rwa [show p + 1 + (offsetBytes o1).length = p + ((offsetBytes o1).length + 1) by omega]
  have hj : At P (p + 1 + (offsetBytes o1).length + x.length) (opJump :: offsetBytes o2) := by
    have := hat.right
    rw [List.length_append, List.length_cons] at this
    rwa [show p + 1 + (offsetBytes o1).length + x.length = p + ((offsetBytes o1).length + 1 + x.length) by omega]
  have d2 := decode_jump hj l2 (by omega) (by omega)
  refine ⟨_, p + 1 + (offsetBytes o1).length + x.length + 1 + (offsetBytes o2).length, ?_, ?_, ?_, ?_, hx, ?_⟩
  · omega
  · omega
  · simp only [List.length_append, List.length_cons]; omega
  · rw [d1]; congr 2; omega
  · rw [d2]; congr 2; omega

theorem plus_layout {P : Prog} (hlen : P.nfa.length < 2 ^ 30) {x : List Byte} {o : Int} {p : Nat}
    (e1 : o = -(x.length + 1 : Int)) (l1 : o.natAbs < 2 ^ 30) (hat : At P p (x ++ opSplit :: offsetBytes o)) :
    ∃ pe, p + x.length < pe ∧ pe = p + (x ++ opSplit :: offsetBytes o).length ∧ At P p x ∧
      P.decode (p + x.length) = .ok (.split p pe) := by
  have hl := hat.len
  simp only [List.length_append, List.length_cons] at hl
  have hj : At P (p + x.length) (opSplit :: offsetBytes o) := hat.right
  have d1 := decode_split hj l1 (by omega) (by omega)
  refine ⟨p + x.length + 1 + (offsetBytes o).length, ?_, ?_, hat.left, ?_⟩
  · omega
  · simp only [List.length_append, List.length_cons]; omega
  · rw [d1]; congr 2; omega

theorem opt_layout {P : Prog} (hlen : P.nfa.length < 2 ^ 30) {x : List Byte} {o : Int} {p : Nat}
    (e1 : o = (offsetBytes o).length + x.length) (l1 : o.natAbs < 2 ^ 30) (hat : At P p (opSplit :: offsetBytes o ++ x)) :
    ∃ px, p < px ∧ px + x.length = p + (opSplit :: offsetBytes o ++ x).length ∧
      P.decode p = .ok (.split (px + x.length) px) ∧ At P px x := by
  have hl := hat.len
  simp only [List.length_append, List.length_cons] at hl
  have d1 := decode_split hat.left l1 (by omega) (by omega)
  have hx : At P (p + 1 + (offsetBytes o).length) x := by
    have := hat.right
    rw [List.length_cons] at this
    rwa [show p + 1 + (offsetBytes o).length = p + ((offsetBytes o).length + 1) by omega]
  refine ⟨_, ?_, ?_, ?_, hx⟩
  · omega
  · simp only [List.length_append, List.length_cons]; omega
  · rw [d1]; congr 2; omega

theorem byteMinus1_put (n : Nat) (h : n ≤ 254) : byteMinus1 (BitVec.ofNat 8 (n + 1)) = n := by
  unfold byteMinus1
  have : (BitVec.ofNat 8 (n + 1)).toNat = n + 1 := by rw [BitVec.toNat_ofNat, Nat.mod_eq_of_lt (by omega)]
  rw [this, if_neg (by omega)]; omega

theorem decode_zero {P p} (h : At P p [opZero]) : P.decode p = .ok (.zero (p + 1)) := by
  unfold Prog.decode; rw [h.head]; rfl

theorem decode_count {P p mn mx o} (h : At P p (opCount :: BitVec.ofNat 8 (mn + 1) :: BitVec.ofNat 8 (mx + 1) :: offsetBytes o)) (hmn : mn ≤ 254)
    (hmx : mx ≤ 254) (hi : o.natAbs < 2 ^ 30) (h0 : 0 ≤ (p : Int) + 3 + o) (h1 : (p : Int) + 3 + o < 4294967296) :
    P.decode p = .ok (.count mn mx ((p : Int) + 3 + o).toNat (p + 3 + (offsetBytes o).length)) := by
  have hs := h.tail.tail.tail.station hi (by omega) (by omega)
  unfold Prog.decode; rw [h.head]
  show (rd P.nfa (p + 1) >>= fun a => rd P.nfa (p + 1 + 1) >>= fun b => getStation P.nfa (p + 1 + 2) >>= fun r =>
    (.ok (.count (byteMinus1 a) (byteMinus1 b) r.1 r.2) : Res Instr)) = _
  rw [h.tail.head, res_bind_ok, h.tail.tail.head, res_bind_ok, show p + 1 + 2 = p + 1 + 1 + 1 by omega, hs, res_bind_ok,
    byteMinus1_put mn hmn, byteMinus1_put mx hmx]
  congr 2

theorem rep_layout {P : Prog} (hlen : P.nfa.length < 2 ^ 30) {x : List Byte} {o : Int} {p mn : Nat} {mx : Option Nat} (hmn : mn ≤ 254)
    (hmx : ∀ m, mx = some m → m ≤ 254) (e1 : o = -(x.length + 3 : Int)) (l1 : o.natAbs < 2 ^ 30)
    (hat : At P p (opZero :: x ++ opCount :: BitVec.ofNat 8 (mn + 1) :: BitVec.ofNat 8 (mx.getD 0 + 1) :: offsetBytes o)) :
    ∃ pe, p + 1 + x.length < pe ∧
      pe = p + (opZero :: x ++ opCount :: BitVec.ofNat 8 (mn + 1) :: BitVec.ofNat 8 (mx.getD 0 + 1) :: offsetBytes o).length ∧
      P.decode p = .ok (.zero (p + 1)) ∧ At P (p + 1) x ∧ P.decode (p + 1 + x.length) = .ok (.count mn (mx.getD 0) (p + 1) pe) := by
  have hl := hat.len
  simp only [List.length_append, List.length_cons] at hl
  have hx : At P (p + 1) (x ++ opCount :: BitVec.ofNat 8 (mn + 1) :: BitVec.ofNat 8 (mx.getD 0 + 1) :: offsetBytes o) := hat.tail
  have hmx' : mx.getD 0 ≤ 254 := by cases mx with | none => exact Nat.zero_le _ | some m => exact hmx m rfl
  have d := decode_count hx.right hmn hmx' l1 (by omega) (by omega)
  refine ⟨p + 1 + x.length + 3 + (offsetBytes o).length, by omega, ?_, decode_zero (At.left (x := [opZero]) hat), hx.left, ?_⟩
  · simp only [List.length_append, List.length_cons]; omega
  · rw [d]; congr 2; omega

/-- Every run from the beginning of the code of an expression leaves it after a match -/
theorem code_sound {P : Prog} {t : List UCS4} (hlen : P.nfa.length < 2 ^ 30) {r : Re} {bs : List Byte} (hc : Code false r bs) :
    ∀ (n p i e : Nat), At P p bs → AccN P t n i p e → ∃ k m, m ≤ n ∧ Matches t r i k ∧ AccN P t m k (p + bs.length) e := by
  induction hc with
  | empty => intro n p i e _ h; exact ⟨i, n, Nat.le_refl _, .empty i, h⟩
  | chr s c hc h0 =>
    intro n p i e hat h
    refine h.one (q := p + (opChar :: utf8Put c).length) (decode_char hat hc) rfl (by simp) (fun s' hi hs => ?_)
    obtain ⟨h1, h2⟩ := consume_char.1 hs
    refine ⟨by rw [h2, List.length_cons]; omega, .chr i s c ?_⟩
    rw [chAt_nz hi (by rw [h1]; exact h0), h1]
  | any =>
    intro n p i e hat h
    refine h.one (q := p + 1) (decode_any hat) rfl (by simp) (fun s' hi hs => ?_)
    obtain ⟨h1, h2⟩ := consume_any.1 hs
    exact ⟨h2, .any i _ (chAt_nz hi h1) h1⟩
  | bol =>
    intro n p i e hat h
    rcases h.inv (decode_bol hat) (by simp) with ⟨m, hm, s', hs, h⟩ | ⟨m, hm, s', hc, -⟩
    · simp only [Instr.eps] at hs
      split at hs
      · rename_i hb
        cases List.mem_singleton.1 hs
        exact ⟨i, m, by omega, .bol i (atBOL_iff.1 hb), h⟩
      · cases hs
    · cases hc
  | eol =>
    intro n p i e hat h
    rcases h.inv (decode_eol hat) (by simp) with ⟨m, hm, s', hs, h⟩ | ⟨m, hm, s', hc, -⟩
    · simp only [Instr.eps] at hs
      split at hs
      · rename_i hb
        cases List.mem_singleton.1 hs
        exact ⟨i, m, by omega, .eol i (atEOL_iff.1 hb), h⟩
      · cases hs
    · cases hc
  | cls neg text rs hne hr hb =>
    intro n p i e hat h
    refine h.one (q := p + _) (decode_cls hat hb) rfl (by simp) (fun s' hi hs => ?_)
    obtain ⟨⟨h1, h2⟩, h3⟩ := (consume_cls hne hr).1 hs
    exact ⟨by rw [h3, List.length_cons]; omega, .cls i neg text rs _ (chAt_nz hi h1) h1 h2⟩
  | prop br q =>
    intro n p i e hat h
    refine h.one (q := p + _) (decode_prop hat (by cases q <;> decide)) rfl (by simp) (fun s' hi hs => ?_)
    obtain ⟨⟨h1, h2⟩, h3⟩ := consume_prop.1 hs
    exact ⟨h3, .prop i br q _ (chAt_nz hi h1) h1 h2⟩
  | seq a b x y _ _ iha ihb =>
    intro n p i e hat h
    obtain ⟨k, m, hm, h1, h⟩ := iha n p i e hat.left h
    obtain ⟨k', m', hm', h2, h⟩ := ihb m _ k e hat.right h
    refine ⟨k', m', by omega, .seq _ _ _ _ _ h1 h2, ?_⟩
    rwa [List.length_append, ← Nat.add_assoc]
  | alt a b x y o1 o2 _ _ e1 l1 e2 l2 iha ihb =>
    intro n p i e hat h
    obtain ⟨px, py, -, -, hend, d1, hx, d2, hy⟩ := alt_layout hlen e1 l1 e2 l2 hat
    rw [← hend]
    obtain ⟨m, hm, h | h⟩ := h.split d1
    · obtain ⟨k, m', hm', h1, h⟩ := ihb m _ i e hy h
      exact ⟨k, m', by omega, .altR _ _ _ _ h1, h⟩
    · obtain ⟨k, m', hm', h1, h⟩ := iha m _ i e hx h
      obtain ⟨m2, hm2, h⟩ := h.jump d2
      exact ⟨k, m2, by omega, .altL _ _ _ _ h1, h⟩
  | star a x o1 o2 _ e1 l1 e2 l2 iha =>
    intro n p i e hat h
    obtain ⟨px, pe, -, -, hend, d1, hx, d2⟩ := star_layout hlen e1 l1 e2 l2 hat
    rw [← hend]
    induction n using Nat.strongRecOn generalizing i with
    | _ n ihn =>
      obtain ⟨m, hm, h | h⟩ := h.split d1
      · exact ⟨i, m, by omega, .starNone _ _, h⟩
      · obtain ⟨k, m', hm', h1, h⟩ := iha m _ i e hx h
        obtain ⟨m2, hm2, h⟩ := h.jump d2
        obtain ⟨k', m3, hm3, h3, h⟩ := ihn m2 (by omega) k h
        exact ⟨k', m3, by omega, .starMore _ _ _ _ h1 h3, h⟩
  | plus a x o _ e1 l1 iha =>
    intro n p i e hat h
    obtain ⟨pe, -, hend, hx, d1⟩ := plus_layout hlen e1 l1 hat
    rw [← hend]
    induction n using Nat.strongRecOn generalizing i with
    | _ n ihn =>
      obtain ⟨k, m', hm', h1, h⟩ := iha n _ i e hx h
      obtain ⟨m, hm, h | h⟩ := h.split d1
      · obtain ⟨k', m3, hm3, h3, h⟩ := ihn m (by omega) k h
        exact ⟨k', m3, by omega, .plusMore _ _ _ _ h1 h3, h⟩
      · exact ⟨k, m, by omega, .plusOne _ _ _ h1, h⟩
  | opt a x o _ e1 l1 iha =>
    intro n p i e hat h
    obtain ⟨px, -, hend, d1, hx⟩ := opt_layout hlen e1 l1 hat
    rw [← hend]
    obtain ⟨m, hm, h | h⟩ := h.split d1
    · exact ⟨i, m, by omega, .optNone _ _, h⟩
    · obtain ⟨k, m', hm', h1, h⟩ := iha m _ i e hx h
      exact ⟨k, m', by omega, .optOne _ _ _ h1, h⟩
  | grp nc a x _ iha =>
    intro n p i e hat h
    obtain ⟨k, m, hm, h1, h⟩ := iha n p i e hat h
    exact ⟨k, m, hm, .grp _ _ _ _ h1, h⟩
  | repStar _ _ _ h | repOpt _ _ _ h | repPlus _ _ _ h | rep _ _ _ _ _ _ h => cases h

theorem Acc.ofStep {P t i s e ins q} (hd : P.decode s = .ok ins) (hi : i < t.length)
    (hc : consume ins (chAt t i) = .ok (.goesOn q)) (h : Acc P t (i + 1) q e) : Acc P t i s e :=
  .step i s q e ins hd hc (by omega) h

/-- Every match can be run -/
theorem code_complete {P : Prog} {t : List UCS4} (hlen : P.nfa.length < 2 ^ 30) {r : Re} {i k : Nat} (hm : Matches t r i k) :
    ∀ (bs : List Byte) (p e : Nat), Code false r bs → At P p bs → Acc P t k (p + bs.length) e → Acc P t i p e := by
  induction hm with
  | empty i => intro bs p e hc _ h; cases hc; exact h
  | chr i s c hi =>
    intro bs p e hc hat h
    cases hc with
    | chr _ _ hr h0 =>
      refine .ofStep (decode_char hat hr) (lt_of_some hi) (consume_char.2 ⟨chAt_of hi, rfl⟩) ?_
      rwa [List.length_cons, ← Nat.add_assoc, Nat.add_right_comm] at h
  | any i c hi h0 =>
    intro bs p e hc hat h
    cases hc
    exact .ofStep (decode_any hat) (lt_of_some hi) (consume_any.2 ⟨by rw [chAt_of hi]; exact h0, rfl⟩) h
  | bol i hb =>
    intro bs p e hc hat h
    cases hc
    refine .eps _ _ _ _ ⟨_, decode_bol hat, ?_⟩ h
    simp [Instr.eps, atBOL_iff.2 hb]
  | eol i hb =>
    intro bs p e hc hat h
    cases hc
    refine .eps _ _ _ _ ⟨_, decode_eol hat, ?_⟩ h
    simp [Instr.eps, atEOL_iff.2 hb]
  | cls i neg text rs c hi h0 hin =>
    intro bs p e hc hat h
    cases hc with
    | cls _ _ _ hne hr hb =>
      refine .ofStep (decode_cls hat hb) (lt_of_some hi)
        ((consume_cls hne hr).2 ⟨⟨by rw [chAt_of hi]; exact h0, by rw [chAt_of hi]; exact hin⟩, rfl⟩) ?_
      rwa [List.length_cons, ← Nat.add_assoc, Nat.add_right_comm] at h
  | prop i br q c hi h0 hp =>
    intro bs p e hc hat h
    cases hc
    exact .ofStep (decode_prop hat (by cases q <;> decide)) (lt_of_some hi)
      (consume_prop.2 ⟨⟨by rw [chAt_of hi]; exact h0, by rw [chAt_of hi]; exact hp⟩, rfl⟩) h
  | seq i j k a b _ _ iha ihb =>
    intro bs p e hc hat h
    cases hc with
    | seq _ _ x y ca cb =>
      refine iha x p e ca hat.left (ihb y _ e cb hat.right ?_)
      rwa [List.length_append, ← Nat.add_assoc] at h
  | altL i j a b _ iha =>
    intro bs p e hc hat h
    cases hc with
    | alt _ _ x y o1 o2 ca cb e1 l1 e2 l2 =>
      obtain ⟨px, py, -, -, hend, d1, hx, d2, hy⟩ := alt_layout hlen e1 l1 e2 l2 hat
      rw [← hend] at h
      exact .ofSplit d1 (.inr (iha x px e ca hx (.ofJump d2 h)))
  | altR i j a b _ ihb =>
    intro bs p e hc hat h
    cases hc with
    | alt _ _ x y o1 o2 ca cb e1 l1 e2 l2 =>
      obtain ⟨px, py, -, -, hend, d1, hx, d2, hy⟩ := alt_layout hlen e1 l1 e2 l2 hat
      rw [← hend] at h
      exact .ofSplit d1 (.inl (ihb y py e cb hy h))
  | starNone i a =>
    intro bs p e hc hat h
    cases hc with
    | star _ x o1 o2 ca e1 l1 e2 l2 =>
      obtain ⟨px, pe, -, -, hend, d1, hx, d2⟩ := star_layout hlen e1 l1 e2 l2 hat
      rw [← hend] at h
      exact .ofSplit d1 (.inl h)
  | starMore i j k a _ _ iha ihb =>
    intro bs p e hc hat h
    have h2 := ihb bs p e hc hat h
    cases hc with
    | star _ x o1 o2 ca e1 l1 e2 l2 =>
      obtain ⟨px, pe, -, -, hend, d1, hx, d2⟩ := star_layout hlen e1 l1 e2 l2 hat
      exact .ofSplit d1 (.inr (iha x px e ca hx (.ofJump d2 h2)))
  | plusOne i j a _ iha =>
    intro bs p e hc hat h
    cases hc with
    | plus _ x o ca e1 l1 =>
      obtain ⟨pe, -, hend, hx, d1⟩ := plus_layout hlen e1 l1 hat
      rw [← hend] at h
      exact iha x p e ca hx (.ofSplit d1 (.inr h))
  | plusMore i j k a _ _ iha ihb =>
    intro bs p e hc hat h
    have h2 := ihb bs p e hc hat h
    cases hc with
    | plus _ x o ca e1 l1 =>
      obtain ⟨pe, -, hend, hx, d1⟩ := plus_layout hlen e1 l1 hat
      exact iha x p e ca hx (.ofSplit d1 (.inl h2))
  | optNone i a =>
    intro bs p e hc hat h
    cases hc with
    | opt _ x o ca e1 l1 =>
      obtain ⟨px, -, hend, d1, hx⟩ := opt_layout hlen e1 l1 hat
      rw [← hend] at h
      exact .ofSplit d1 (.inl h)
  | optOne i j a _ iha =>
    intro bs p e hc hat h
    cases hc with
    | opt _ x o ca e1 l1 =>
      obtain ⟨px, -, hend, d1, hx⟩ := opt_layout hlen e1 l1 hat
      rw [← hend] at h
      exact .ofSplit d1 (.inr (iha x px e ca hx h))
  | grp i j nc a _ iha =>
    intro bs p e hc hat h
    cases hc with
    | grp _ _ _ ca => exact iha bs p e ca hat h
  | rep n f w mn mx a _ _ _ _ => intro bs p e hc hat h; cases hc <;> contradiction

/-- The stations inside the code of an expression: threads stay there or leave at its end. -/
def Inner (cnt : Bool) (P : Prog) (p : Nat) (bs : List Byte) (S : Nat → Prop) : Prop :=
  (∀ s, S s → p ≤ s ∧ s < p + bs.length) ∧ (S p ∨ bs = []) ∧
  ∀ s, S s → ∃ i, P.decode s = .ok i ∧ i.fine cnt = true ∧ ∀ n ∈ i.succs, S n ∨ n = p + bs.length

theorem Inner.one {cnt P p bs ins} (hd : P.decode p = .ok ins) (hne : bs ≠ []) (hs : ins.fine cnt = true)
    (hn : ∀ n ∈ ins.succs, n = p + bs.length) : Inner cnt P p bs (fun s => s = p) := by
  refine ⟨?_, .inl rfl, ?_⟩
  · rintro s rfl
    have := List.length_pos_iff.2 hne
    omega
  · rintro s rfl
    exact ⟨ins, hd, hs, fun n h => .inr (hn n h)⟩

theorem Inner.start {cnt P p bs S} (h : Inner cnt P p bs S) : S p ∨ p = p + bs.length := by
  rcases h.2.1 with h | h
  · exact .inl h
  · right; rw [h]; simp

theorem code_inner {cnt : Bool} {P : Prog} (hlen : P.nfa.length < 2 ^ 30) {r : Re} {bs : List Byte} (hc : Code cnt r bs) :
    ∀ (p : Nat), At P p bs → ∃ S, Inner cnt P p bs S := by
  induction hc with
  | empty => intro p _; exact ⟨fun _ => False, by simp, .inr rfl, by simp⟩
  | chr s c hr h0 =>
    intro p hat
    exact ⟨_, .one (decode_char hat hr) (by simp) rfl (by simp [Instr.succs]; omega)⟩
  | any => intro p hat; exact ⟨_, .one (decode_any hat) (by simp) rfl (by simp [Instr.succs])⟩
  | bol => intro p hat; exact ⟨_, .one (decode_bol hat) (by simp) rfl (by simp [Instr.succs])⟩
  | eol => intro p hat; exact ⟨_, .one (decode_eol hat) (by simp) rfl (by simp [Instr.succs])⟩
  | cls neg text rs hne hr hb =>
    intro p hat
    exact ⟨_, .one (decode_cls hat hb) (by simp) rfl (by simp [Instr.succs]; omega)⟩
  | prop br q =>
    intro p hat
    exact ⟨_, .one (decode_prop hat (by cases q <;> decide)) (by simp) rfl (by simp [Instr.succs])⟩
  | seq a b x y _ _ iha ihb =>
    intro p hat
    obtain ⟨A, ha1, ha2, ha3⟩ := iha p hat.left
    obtain ⟨B, hb⟩ := ihb _ hat.right
    have hbs := hb.start
    obtain ⟨hb1, hb2, hb3⟩ := hb
    refine ⟨fun s => A s ∨ B s, ?_, ?_, ?_⟩
    · rintro s (h | h)
      · have := ha1 s h; rw [List.length_append]; omega
      · have := hb1 s h; rw [List.length_append]; omega
    · rcases ha2 with h | h
      · exact .inl (.inl h)
      · rcases hb2 with h' | h'
        · rw [h] at h'; exact .inl (.inr h')
        · right; rw [h, h']; rfl
    · rw [List.length_append, ← Nat.add_assoc]
      rintro s (h | h)
      · obtain ⟨i, hi, hs, hn⟩ := ha3 s h
        refine ⟨i, hi, hs, fun n hn' => ?_⟩
        rcases hn n hn' with h | rfl
        · exact .inl (.inl h)
        · rcases hbs with h | h
          · exact .inl (.inr h)
          · exact .inr h
      · obtain ⟨i, hi, hs, hn⟩ := hb3 s h
        refine ⟨i, hi, hs, fun n hn' => ?_⟩
        rcases hn n hn' with h | rfl
        · exact .inl (.inr h)
        · exact .inr rfl
  | alt a b x y o1 o2 _ _ e1 l1 e2 l2 iha ihb =>
    intro p hat
    obtain ⟨px, py, g1, g2, hend, d1, hx, d2, hy⟩ := alt_layout hlen e1 l1 e2 l2 hat
    obtain ⟨A, ha⟩ := iha px hx
    obtain ⟨B, hb⟩ := ihb py hy
    have has := ha.start
    have hbs := hb.start
    obtain ⟨ha1, ha2, ha3⟩ := ha
    obtain ⟨hb1, hb2, hb3⟩ := hb
    refine ⟨fun s => s = p ∨ A s ∨ s = px + x.length ∨ B s, ?_, .inl (.inl rfl), ?_⟩
    · rw [← hend]
      rintro s (rfl | h | rfl | h)
      · omega
      · have := ha1 s h; omega
      · omega
      · have := hb1 s h; omega
    · rw [← hend]
      have hpy : (py = p ∨ A py ∨ py = px + x.length ∨ B py) ∨ py = py + y.length := by
        rcases hbs with h | h
        · exact .inl (.inr (.inr (.inr h)))
        · exact .inr h
      rintro s (rfl | h | rfl | h)
      · refine ⟨_, d1, rfl, ?_⟩
        simp only [Instr.succs, List.mem_cons, List.not_mem_nil, or_false]
        rintro n (rfl | rfl)
        · exact hpy
        · rcases has with h | h
          · exact .inl (.inr (.inl h))
          · exact .inl (.inr (.inr (.inl h)))
      · obtain ⟨i, hi, hs, hn⟩ := ha3 s h
        refine ⟨i, hi, hs, fun n hn' => ?_⟩
        rcases hn n hn' with h | h
        · exact .inl (.inr (.inl h))
        · exact .inl (.inr (.inr (.inl h)))
      · refine ⟨_, d2, rfl, ?_⟩
        simp only [Instr.succs, List.mem_cons, List.not_mem_nil, or_false]
        rintro n rfl
        exact .inr rfl
      · obtain ⟨i, hi, hs, hn⟩ := hb3 s h
        refine ⟨i, hi, hs, fun n hn' => ?_⟩
        rcases hn n hn' with h | h
        · exact .inl (.inr (.inr (.inr h)))
        · exact .inr h
  | star a x o1 o2 _ e1 l1 e2 l2 iha =>
    intro p hat
    obtain ⟨px, pe, g1, g2, hend, d1, hx, d2⟩ := star_layout hlen e1 l1 e2 l2 hat
    obtain ⟨A, ha⟩ := iha px hx
    have has := ha.start
    obtain ⟨ha1, ha2, ha3⟩ := ha
    refine ⟨fun s => s = p ∨ A s ∨ s = px + x.length, ?_, .inl (.inl rfl), ?_⟩
    · rw [← hend]
      rintro s (rfl | h | rfl)
      · omega
      · have := ha1 s h; omega
      · omega
    · rw [← hend]
      rintro s (rfl | h | rfl)
      · refine ⟨_, d1, rfl, ?_⟩
        simp only [Instr.succs, List.mem_cons, List.not_mem_nil, or_false]
        rintro n (rfl | rfl)
        · exact .inr rfl
        · rcases has with h | h
          · exact .inl (.inr (.inl h))
          · exact .inl (.inr (.inr h))
      · obtain ⟨i, hi, hs, hn⟩ := ha3 s h
        refine ⟨i, hi, hs, fun n hn' => ?_⟩
        rcases hn n hn' with h | h
        · exact .inl (.inr (.inl h))
        · exact .inl (.inr (.inr h))
      · refine ⟨_, d2, rfl, ?_⟩
        simp only [Instr.succs, List.mem_cons, List.not_mem_nil, or_false]
        rintro n rfl
        exact .inl (.inl rfl)
  | plus a x o _ e1 l1 iha =>
    intro p hat
    obtain ⟨pe, g1, hend, hx, d1⟩ := plus_layout hlen e1 l1 hat
    obtain ⟨A, ha⟩ := iha p hx
    have has := ha.start
    obtain ⟨ha1, ha2, ha3⟩ := ha
    refine ⟨fun s => A s ∨ s = p + x.length, ?_, .inl has, ?_⟩
    · rw [← hend]
      rintro s (h | rfl)
      · have := ha1 s h; omega
      · omega
    · rw [← hend]
      rintro s (h | rfl)
      · obtain ⟨i, hi, hs, hn⟩ := ha3 s h
        exact ⟨i, hi, hs, fun n hn' => .inl (hn n hn')⟩
      · refine ⟨_, d1, rfl, ?_⟩
        simp only [Instr.succs, List.mem_cons, List.not_mem_nil, or_false]
        rintro n (rfl | rfl)
        · exact .inl has
        · exact .inr rfl
  | opt a x o _ e1 l1 iha =>
    intro p hat
    obtain ⟨px, g1, hend, d1, hx⟩ := opt_layout hlen e1 l1 hat
    obtain ⟨A, ha⟩ := iha px hx
    have has := ha.start
    obtain ⟨ha1, ha2, ha3⟩ := ha
    refine ⟨fun s => s = p ∨ A s, ?_, .inl (.inl rfl), ?_⟩
    · rw [← hend]
      rintro s (rfl | h)
      · omega
      · have := ha1 s h; omega
    · rw [← hend]
      rintro s (rfl | h)
      · refine ⟨_, d1, rfl, ?_⟩
        simp only [Instr.succs, List.mem_cons, List.not_mem_nil, or_false]
        rintro n (rfl | rfl)
        · exact .inr rfl
        · rcases has with h | h
          · exact .inl (.inr h)
          · exact .inr h
      · obtain ⟨i, hi, hs, hn⟩ := ha3 s h
        refine ⟨i, hi, hs, fun n hn' => ?_⟩
        rcases hn n hn' with h | h
        · exact .inl (.inr h)
        · exact .inr h
  | grp nc a x _ iha => exact iha
  | repStar _ _ _ _ _ ih | repOpt _ _ _ _ _ ih | repPlus _ _ _ _ _ ih => exact ih
  | rep w mn mx a x o hcnt _ hmn hmx e1 l1 iha =>
    intro p hat
    subst hcnt
    obtain ⟨pe, g1, hend, d1, hx, d2⟩ := rep_layout hlen hmn (fun m h => (hmx m h).2.2) e1 l1 hat
    obtain ⟨A, ha⟩ := iha (p + 1) hx
    have has := ha.start
    obtain ⟨ha1, ha2, ha3⟩ := ha
    refine ⟨fun s => s = p ∨ A s ∨ s = p + 1 + x.length, ?_, .inl (.inl rfl), ?_⟩
    · rw [← hend]
      rintro s (rfl | h | rfl)
      · omega
      · have := ha1 s h; omega
      · omega
    · rw [← hend]
      rintro s (rfl | h | rfl)
      · refine ⟨_, d1, rfl, ?_⟩
        simp only [Instr.succs, List.mem_cons, List.not_mem_nil, or_false]
        rintro n rfl
        rcases has with h | h
        · exact .inl (.inr (.inl h))
        · exact .inl (.inr (.inr h))
      · obtain ⟨i, hi, hs, hn⟩ := ha3 s h
        refine ⟨i, hi, hs, fun n hn' => ?_⟩
        rcases hn n hn' with h | h
        · exact .inl (.inr (.inl h))
        · exact .inl (.inr (.inr h))
      · refine ⟨_, d2, rfl, ?_⟩
        simp only [Instr.succs, List.mem_cons, List.not_mem_nil, or_false]
        rintro n (rfl | rfl)
        · rcases has with h | h
          · exact .inl (.inr (.inl h))
          · exact .inl (.inr (.inr h))
        · exact .inr rfl

end Strpp.Rx
