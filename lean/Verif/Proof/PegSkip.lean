import Verif.Proof.PegChar
/-! skip_atom on well-formed expressions. -/
namespace Strpp.Pex
open Spec

section
variable {s : List Byte} {special : Byte → Bool} {calls : Bool} {skipExt : Nat → Res Nat}

/-- what skip_extended does -/
structure SkOk (s : List Byte) (special : Byte → Bool) (calls : Bool) (skipExt : Nat → Res Nat) : Prop where
  lit : ∀ p b, rd (s ++ [0#8]) p = .ok b → isExtended b = true → special b = false → skipExt p = .ok (p + 1)
  call : calls = true → ∀ p name post, Here s p (0x3C#8 :: name ++ [0x3E#8]) post → (∀ b ∈ name, nameByte b = true) → skipExt p = .ok (p + 1 + name.length + 1)

def EndB (post : List Byte) : Prop := nxt post = 0#8 ∨ nxt post = 0x29#8
def EndT (post : List Byte) : Prop := nxt post = 0#8 ∨ nxt post = 0x29#8 ∨ nxt post = 0x7C#8

theorem EndB.t {post : List Byte} (h : EndB post) : EndT post := h.imp id Or.inl
theorem EndT.colon {post : List Byte} (h : EndT post) : nxt post ≠ 0x3A#8 := by
  rcases h with h | h | h <;> rw [h] <;> decide

def okHead (b : Byte) : Prop := b ≠ 0#8 ∧ b ≠ 0x29#8 ∧ b ≠ 0x7C#8 ∧ b ≠ 0x3A#8

theorem plain_ne {b : Byte} (h : plainOutside special b = true) : b ≠ 0#8 ∧ b ≠ 0x5C#8 ∧ b ≠ 0x5E#8 ∧ b ≠ 0x24#8 ∧ b ≠ 0x2E#8 ∧ b ≠ 0x5B#8 ∧ b ≠ 0x3F#8 ∧ b ≠ 0x2A#8 ∧ b ≠ 0x2B#8 ∧
    b ≠ 0x28#8 ∧ b ≠ 0x29#8 ∧ b ≠ 0x7C#8 ∧ b ≠ 0x26#8 ∧ b ≠ 0x21#8 ∧ b ≠ 0x3A#8 ∧ special b = false := by
  simpa [plainOutside, and_assoc] using h

theorem plainOutside_ok : ∀ b : Byte, plainOutside special b = true → b ≠ 0#8 ∧ b ≠ 0x5C#8 := fun _ h => ⟨(plain_ne h).1, (plain_ne h).2.1⟩

theorem atom_head : ∀ e : Expr, e.wf special calls .atom → ∃ b rest, e.bytes = b :: rest ∧ okHead b := by
  intro e
  induction e with
  | one o =>
    intro h
    cases o with
    | lit w =>
      rcases w.head with ⟨b, rfl⟩ | ⟨rest, hr⟩
      · have := plain_ne h.1
        exact ⟨b, [], rfl, this.1, this.2.2.2.2.2.2.2.2.2.2.1, this.2.2.2.2.2.2.2.2.2.2.2.1, this.2.2.2.2.2.2.2.2.2.2.2.2.2.2.1⟩
      · exact ⟨_, rest, hr, by decide, by decide, by decide, by decide⟩
    | prop l => exact ⟨_, _, rfl, by decide, by decide, by decide, by decide⟩
    | cls neg items => exact ⟨_, _, rfl, by decide, by decide, by decide, by decide⟩
    | any => exact ⟨_, _, rfl, by decide, by decide, by decide, by decide⟩
  | bol => exact fun _ => ⟨_, _, rfl, by decide, by decide, by decide, by decide⟩
  | eol => exact fun _ => ⟨_, _, rfl, by decide, by decide, by decide, by decide⟩
  | grp e => exact fun _ => ⟨_, _, rfl, by decide, by decide, by decide, by decide⟩
  | opt e => exact fun _ => ⟨_, _, rfl, by decide, by decide, by decide, by decide⟩
  | star e => exact fun _ => ⟨_, _, rfl, by decide, by decide, by decide, by decide⟩
  | plus e => exact fun _ => ⟨_, _, rfl, by decide, by decide, by decide, by decide⟩
  | and e => exact fun _ => ⟨_, _, rfl, by decide, by decide, by decide, by decide⟩
  | not e => exact fun _ => ⟨_, _, rfl, by decide, by decide, by decide, by decide⟩
  | label e name ih =>
    intro h
    obtain ⟨b, rest, h1, h2⟩ := ih h.1
    exact ⟨b, _, by simp only [Expr.bytes, h1, List.cons_append]; rfl, h2⟩
  | call name lab =>
    intro _
    cases lab <;> exact ⟨_, _, rfl, by decide, by decide, by decide, by decide⟩
  | empty => intro h; cases h
  | seq a b => intro h; cases h
  | bar e => intro h; cases h
  | alt a b => intro h; cases h

theorem tail_head (e : Expr) (h : e.wf special calls .tail) (hne : e ≠ .empty) : ∃ b rest, e.bytes = b :: rest ∧ okHead b := by
  cases e with
  | seq a b =>
    obtain ⟨c, rest, h1, h2⟩ := atom_head a h.1
    exact ⟨c, rest ++ b.bytes, by simp [Expr.bytes, h1], h2⟩
  | empty => exact absurd rfl hne
  | _ => cases h

theorem body_head (e : Expr) (h : e.wf special calls .body) (hne : e ≠ .empty) : ∃ b rest, e.bytes = b :: rest ∧ b ≠ 0#8 ∧ b ≠ 0x29#8 ∧ b ≠ 0x3A#8 := by
  cases e with
  | seq a b =>
    obtain ⟨c, rest, h1, h2, h3, -, h4⟩ := atom_head a h.1
    exact ⟨c, rest ++ b.bytes, by simp [Expr.bytes, h1], h2, h3, h4⟩
  | empty => exact absurd rfl hne
  | bar e => exact ⟨_, _, rfl, by decide, by decide, by decide⟩
  | alt a b => exact ⟨_, _, rfl, by decide, by decide, by decide⟩
  | _ => cases h

theorem nxt_head {b : Byte} {bs rest post : List Byte} (h : bs = b :: rest) : nxt (bs ++ post) = b := by rw [h]; rfl

theorem alternates_head (e : Expr) (h : e.alternates = true) : ∃ rest, e.bytes = 0x7C#8 :: rest := by
  cases e with
  | bar e => exact ⟨_, rfl⟩
  | alt a b => exact ⟨_, rfl⟩
  | _ => cases h

theorem label_none {p : Nat} {b : Byte} (h : rd (s ++ [0#8]) p = .ok b) (hb : b ≠ 0x3A#8) : label (s ++ [0#8]) p = .ok (none, p) := by
  unfold label
  rw [h, res_bind_ok, if_neg (by simpa using hb)]

theorem nameEnd_eval : ∀ (name : List Byte) (k p : Nat) (post : List Byte), Here s p name post → (∀ b ∈ name, nameByte b = true) → nameByte (nxt post) = false →
    s.length < p + k → nameEnd (s ++ [0#8]) k p = .ok (p + name.length) := by
  have hal : ∀ b : Byte, ∃ a, ctype isAlnumA (sx b) = .ok a ∧ (a || b == 0x5F#8) = nameByte b := by
    have : ∀ b : Byte, ctype isAlnumA (sx b) = .ok (isAlnumA b.toNat) ∧ (isAlnumA b.toNat || b == 0x5F#8) = nameByte b := by decide +kernel
    exact fun b => ⟨_, this b⟩
  intro name
  induction name with
  | nil =>
    intro k p post h _ hn hk
    have hl := h.le
    obtain ⟨k, rfl⟩ : ∃ j, k = j + 1 := ⟨k - 1, by omega⟩
    obtain ⟨a, h1, h2⟩ := hal (nxt post)
    unfold nameEnd
    rw [h.end, res_bind_ok, h1, res_bind_ok, h2, hn, if_neg (by decide)]
    rfl
  | cons b name ih =>
    intro k p post h hb hn hk
    have hl := h.le
    obtain ⟨k, rfl⟩ : ∃ j, k = j + 1 := ⟨k - 1, by omega⟩
    obtain ⟨g1, g2⟩ := h.cons
    obtain ⟨a, h1, h2⟩ := hal b
    unfold nameEnd
    rw [g1, res_bind_ok, h1, res_bind_ok, h2, hb b (by simp), if_pos rfl, ih k (p + 1) post g2 (fun b' h' => hb b' (by simp [h'])) hn (by omega)]
    simp only [List.length_cons]
    congr 1
    omega

theorem label_some {p : Nat} {name post : List Byte} (h : Here s p (0x3A#8 :: name ++ [0x3A#8]) post) (hn : ∀ b ∈ name, nameByte b = true) :
    label (s ++ [0#8]) p = .ok (some (p + 1, p + 1 + name.length), p + 1 + name.length + 1) := by
  obtain ⟨g1, g2⟩ := Here.cons h
  have g3 := Here.left g2
  have g4 := Here.right g2
  unfold label closeColon
  rw [g1, res_bind_ok, if_pos (by decide), nameEnd_eval name _ _ _ g3 hn (by rfl) (by simp; omega), res_bind_ok, g4.cons.1, res_bind_ok, if_pos (by decide)]
  rfl

/-- One byte that stands for itself -/
theorem skipBody_simple {skip : Nat → Res Nat} {p : Nat} {b : Byte} (h : rd (s ++ [0#8]) p = .ok b)
    (hb : b ≠ 0x5C#8 ∧ b ≠ 0x5B#8 ∧ b ≠ 0x28#8 ∧ b ≠ 0x7C#8 ∧ b ≠ 0x26#8 ∧ b ≠ 0x21#8) (hx : isExtended b = true → skipExt p = .ok (p + 1)) :
    skipBody (s ++ [0#8]) skipExt skip p = .ok (p + 1) := by
  obtain ⟨h1, h2, h3, h4, h5, h6⟩ := hb
  unfold skipBody
  rw [h, res_bind_ok, if_neg (by simpa using h1), if_neg (by simpa using h2), if_neg (by simpa using h3), if_neg (by simpa using h4), if_neg (by simp [h5, h6])]
  split
  · rename_i h; exact hx h
  · rfl

theorem caret_eval {p : Nat} {items : List Item} {neg : Bool} {post : List Byte} (hok : ∀ i ∈ items, i.ok)
    (h : Here s p ((if neg then [0x5E#8] else []) ++ items.flatMap Item.bytes) (0x5D#8 :: post)) :
    caret (s ++ [0#8]) p = .ok (neg, p + (if neg then [0x5E#8] else []).length) := by
  unfold caret
  cases neg with
  | true => rw [(Here.cons h).1]; rfl
  | false =>
    have h : Here s p (items.flatMap Item.bytes) (0x5D#8 :: post) := h
    cases items with
    | nil => rw [h.end]; rfl
    | cons i items =>
      obtain ⟨b, rest, hb, -, -, -, h3⟩ := i.head (hok i (by simp))
      rw [List.flatMap_cons, hb] at h
      rw [(Here.cons h).1, res_bind_ok, if_neg (by simpa using h3)]
      rfl

section
variable (hsk : SkOk s special calls skipExt)
include hsk

theorem skipBody_one {skip : Nat → Res Nat} (o : One) (ho : o.ok special) {p : Nat} {post : List Byte} (h : Here s p o.bytes post) :
    skipBody (s ++ [0#8]) skipExt skip p = .ok (p + o.bytes.length) := by
  cases o with
  | lit w =>
    rcases w.head with ⟨b, rfl⟩ | ⟨rest, hr⟩
    · have hp := plain_ne ho.1
      have h1 := (Here.cons h).1
      exact skipBody_simple h1 ⟨hp.2.1, hp.2.2.2.2.2.1, hp.2.2.2.2.2.2.2.2.2.1, hp.2.2.2.2.2.2.2.2.2.2.2.1, hp.2.2.2.2.2.2.2.2.2.2.2.2.1, hp.2.2.2.2.2.2.2.2.2.2.2.2.2.1⟩
        (fun hx => hsk.lit p b h1 hx hp.2.2.2.2.2.2.2.2.2.2.2.2.2.2.2)
    · have hlit := literalChar_eval plainOutside_ok w ho h
      have h1 : Here s p (0x5C#8 :: rest) post := by have := h; simp only [One.bytes] at this; rwa [hr] at this
      unfold skipBody
      rw [h1.cons.1, res_bind_ok, if_pos (by decide), hlit]
      rfl
  | prop l =>
    obtain ⟨g1, g2⟩ := Here.cons h
    have : ∀ l : Byte, isPropLetter l = true → isOct l = false ∧ l ≠ 0x78#8 ∧ l ≠ 0x75#8 := by decide +kernel
    obtain ⟨q1, q2, q3⟩ := this l ho
    unfold skipBody
    rw [g1, res_bind_ok, if_pos (by decide)]
    unfold literalChar
    rw [g1, res_bind_ok, if_neg (by decide), if_neg (by decide), g2.cons.1, res_bind_ok, if_neg (by rw [q1]; decide), if_neg (by simpa using q2),
      if_neg (by simpa using q3)]
    rfl
  | cls neg items =>
    have hb : One.bytes (.cls neg items) = 0x5B#8 :: (((if neg then [0x5E#8] else []) ++ items.flatMap Item.bytes) ++ [0x5D#8]) := by
      simp [One.bytes]
    rw [hb] at h
    obtain ⟨g1, g2⟩ := Here.cons h
    have g3 := Here.left g2
    have g4 := Here.right g2
    have g5 := Here.right g3
    have hs := skipClassLoop_eval items ((s ++ [0#8]).length + 1) _ _ ho g5 (by simp; omega)
    unfold skipBody
    rw [g1, res_bind_ok, if_neg (by decide), if_pos (by decide), caret_eval ho g3, res_bind_ok, hs, res_bind_ok]
    unfold closeClass
    rw [List.length_append, ← Nat.add_assoc] at g4
    rw [g4.cons.1, res_bind_ok, if_pos (by decide), hb]
    simp only [List.length_cons, List.length_append, List.length_nil]
    congr 1
    omega
  | any =>
    exact skipBody_simple (Here.cons h).1 (by decide) (fun h => by cases h)

/-- what is known of skipping `e` -/
structure Sk (s : List Byte) (special : Byte → Bool) (calls : Bool) (skipExt : Nat → Res Nat) (e : Expr) : Prop where
  base : e.wf special calls .atom → e.labelled = true → ∀ n p post, Here s p e.bytes post → s.length + 1 ≤ p + n →
    skipBody (s ++ [0#8]) skipExt (skipAtom (s ++ [0#8]) skipExt n) p = .ok (p + e.bytes.length)
  single : e.wf special calls .atom → e.single = true → ∀ n p post, Here s p e.bytes post → nxt post ≠ 0x3A#8 → s.length + 2 ≤ p + n →
    skipAtom (s ++ [0#8]) skipExt n p = .ok (p + e.bytes.length)
  atom : e.wf special calls .atom → ∀ (stop : Byte → Bool) n p post j, (∀ b, okHead b → stop b = false) → Here s p e.bytes post → nxt post ≠ 0x3A#8 → s.length + 2 ≤ p + n →
    s.length < p + j → ∃ j', s.length < p + e.bytes.length + j' ∧
      skipTo (s ++ [0#8]) (skipAtom (s ++ [0#8]) skipExt n) stop j p = skipTo (s ++ [0#8]) (skipAtom (s ++ [0#8]) skipExt n) stop j' (p + e.bytes.length)
  tail : e.wf special calls .tail → ∀ (stop : Byte → Bool) n p post j, (∀ b, okHead b → stop b = false) → Here s p e.bytes post → EndT post → s.length + 2 ≤ p + n →
    s.length < p + j → ∃ j', s.length < p + e.bytes.length + j' ∧
      skipTo (s ++ [0#8]) (skipAtom (s ++ [0#8]) skipExt n) stop j p = skipTo (s ++ [0#8]) (skipAtom (s ++ [0#8]) skipExt n) stop j' (p + e.bytes.length)
  body : e.wf special calls .body → ∀ (stop : Byte → Bool) n p post j, ((∀ b, okHead b → stop b = false) ∨ e.alternates = true) → stop 0x7C#8 = false → Here s p e.bytes post → EndB post → s.length + 2 ≤ p + n →
    s.length < p + j → ∃ j', s.length < p + e.bytes.length + j' ∧
      skipTo (s ++ [0#8]) (skipAtom (s ++ [0#8]) skipExt n) stop j p = skipTo (s ++ [0#8]) (skipAtom (s ++ [0#8]) skipExt n) stop j' (p + e.bytes.length)

omit hsk in
/-- one step of skipTo -/
theorem skipTo_step {skip : Nat → Res Nat} {stop : Byte → Bool} {p q j : Nat} {b : Byte} (h : rd (s ++ [0#8]) p = .ok b) (hb : stop b = false)
    (hs : skip p = .ok q) (hpq : p < q) (hp : p ≤ s.length) (hj : s.length < p + j) :
    ∃ j', s.length < q + j' ∧ skipTo (s ++ [0#8]) skip stop j p = skipTo (s ++ [0#8]) skip stop j' q := by
  obtain ⟨j, rfl⟩ : ∃ i, j = i + 1 := ⟨j - 1, by omega⟩
  refine ⟨j, by omega, ?_⟩
  rw [skipTo, h, res_bind_ok, if_neg (by simp [hb]), hs, res_bind_ok]

omit hsk in
/-- from one skip -/
theorem atom_of_single {e : Expr} (hs : e.wf special calls .atom → e.single = true → ∀ n p post, Here s p e.bytes post → nxt post ≠ 0x3A#8 → s.length + 2 ≤ p + n →
    skipAtom (s ++ [0#8]) skipExt n p = .ok (p + e.bytes.length)) (h1 : e.single = true) :
    e.wf special calls .atom → ∀ (stop : Byte → Bool) n p post j, (∀ b, okHead b → stop b = false) → Here s p e.bytes post → nxt post ≠ 0x3A#8 → s.length + 2 ≤ p + n →
    s.length < p + j → ∃ j', s.length < p + e.bytes.length + j' ∧
      skipTo (s ++ [0#8]) (skipAtom (s ++ [0#8]) skipExt n) stop j p = skipTo (s ++ [0#8]) (skipAtom (s ++ [0#8]) skipExt n) stop j' (p + e.bytes.length) := by
  intro hw stop n p post j hstop h hp hn hj
  obtain ⟨b, rest, hb, hok⟩ := atom_head e hw
  have hh : Here s p (b :: rest) post := hb ▸ h
  exact skipTo_step hh.cons.1 (hstop b hok) (hs hw h1 n p post h hp hn) (by rw [hb]; simp) h.le hj

omit hsk in
/-- from the base: no label follows -/
theorem single_of_base {e : Expr} (hb : e.wf special calls .atom → e.labelled = true → ∀ n p post, Here s p e.bytes post → s.length + 1 ≤ p + n →
    skipBody (s ++ [0#8]) skipExt (skipAtom (s ++ [0#8]) skipExt n) p = .ok (p + e.bytes.length)) (h1 : e.labelled = true) :
    e.wf special calls .atom → e.single = true → ∀ n p post, Here s p e.bytes post → nxt post ≠ 0x3A#8 → s.length + 2 ≤ p + n →
    skipAtom (s ++ [0#8]) skipExt n p = .ok (p + e.bytes.length) := by
  intro hw _ n p post h hp hn
  have := h.le
  obtain ⟨n, rfl⟩ : ∃ i, n = i + 1 := ⟨n - 1, by omega⟩
  rw [skipAtom, hb hw h1 n p post h (by omega), res_bind_ok, label_none h.over.end hp]
  rfl

omit hsk in
theorem sk_base {e : Expr} (h1 : e.labelled = true) (h2 : e.single = true) (ht : e.wf special calls .tail → False) (hbd : e.wf special calls .body → False)
    (hb : e.wf special calls .atom → e.labelled = true → ∀ n p post, Here s p e.bytes post → s.length + 1 ≤ p + n →
      skipBody (s ++ [0#8]) skipExt (skipAtom (s ++ [0#8]) skipExt n) p = .ok (p + e.bytes.length)) : Sk s special calls skipExt e where
  base := hb
  single := single_of_base hb h1
  atom := atom_of_single (single_of_base hb h1) h2
  tail := fun h => absurd h ht
  body := fun h => absurd h hbd

omit hsk in
/-- an operator and its operand, skipped one after the other -/
theorem sk_op {o : Byte} {e e' : Expr} (hbytes : e'.bytes = o :: e.bytes) (ho : o = 0x3F#8 ∨ o = 0x2A#8 ∨ o = 0x2B#8) (hw : e'.wf special calls .atom → e.wf special calls .atom)
    (hl : e'.labelled = false) (hs : e'.single = false) (ht : e'.wf special calls .tail → False) (hbd : e'.wf special calls .body → False) (ih : Sk s special calls skipExt e) :
    Sk s special calls skipExt e' where
  base := fun _ h => by rw [hl] at h; cases h
  single := fun _ h => by rw [hs] at h; cases h
  tail := fun h => absurd h ht
  body := fun h => absurd h hbd
  atom := by
    intro hwf stop n p post j hstop h hp hn hj
    rw [hbytes] at h
    obtain ⟨g1, g2⟩ := h.cons
    obtain ⟨b, rest, hb, hok⟩ := atom_head e (hw hwf)
    have hh : Here s (p + 1) (b :: rest) post := hb ▸ g2
    have hle := h.le
    obtain ⟨n, rfl⟩ : ∃ i, n = i + 1 := ⟨n - 1, by omega⟩
    have hskip : skipAtom (s ++ [0#8]) skipExt (n + 1) p = .ok (p + 1) := by
      rw [skipAtom, skipBody_simple g1 (by rcases ho with rfl | rfl | rfl <;> decide) (by rcases ho with rfl | rfl | rfl <;> exact fun h => by cases h), res_bind_ok,
        label_none hh.cons.1 hok.2.2.2]
      rfl
    obtain ⟨j1, hj1, e1⟩ := skipTo_step (stop := stop) g1 (hstop o (by rcases ho with rfl | rfl | rfl <;> exact ⟨by decide, by decide, by decide, by decide⟩)) hskip (by omega) hle hj
    obtain ⟨j2, hj2, e2⟩ := ih.atom (hw hwf) stop (n + 1) (p + 1) post j1 hstop g2 hp (by omega) hj1
    refine ⟨j2, ?_, ?_⟩
    · rw [hbytes, List.length_cons]; omega
    · rw [e1, e2, hbytes, List.length_cons]
      congr 1
      omega

omit hsk in
/-- `&` and `!` -/
theorem sk_look {o : Byte} {e e' : Expr} (hbytes : e'.bytes = o :: e.bytes) (ho : o = 0x26#8 ∨ o = 0x21#8) (hw : e'.wf special calls .atom → e.wf special calls .atom ∧ e.single = true)
    (hl : e'.labelled = false) (hs : e'.single = e.single) (ht : e'.wf special calls .tail → False) (hbd : e'.wf special calls .body → False) (ih : Sk s special calls skipExt e) :
    Sk s special calls skipExt e' := by
  have hsingle : e'.wf special calls .atom → e'.single = true → ∀ n p post, Here s p e'.bytes post → nxt post ≠ 0x3A#8 → s.length + 2 ≤ p + n →
      skipAtom (s ++ [0#8]) skipExt n p = .ok (p + e'.bytes.length) := by
    intro hwf hsi n p post h hp hn
    rw [hbytes] at h
    obtain ⟨g1, g2⟩ := h.cons
    have hle := h.le
    obtain ⟨n, rfl⟩ : ∃ i, n = i + 1 := ⟨n - 1, by omega⟩
    have := ih.single (hw hwf).1 (hw hwf).2 n (p + 1) post g2 hp (by omega)
    rw [skipAtom, skipBody, g1, res_bind_ok]
    have hgo : ∀ q, p + 1 + e.bytes.length = q → (do let q ← skipAtom (s ++ [0#8]) skipExt n (p + 1); let r ← label (s ++ [0#8]) q; Except.ok r.2) = Except.ok (ε := Fault) q := by
      rintro q rfl
      rw [this, res_bind_ok, label_none g2.over.end hp]
      rfl
    have hlen : p + 1 + e.bytes.length = p + e'.bytes.length := by rw [hbytes, List.length_cons]; omega
    rcases ho with rfl | rfl
    · rw [if_neg (by decide), if_neg (by decide), if_neg (by decide), if_neg (by decide), if_pos (by decide)]
      exact hgo _ hlen
    · rw [if_neg (by decide), if_neg (by decide), if_neg (by decide), if_neg (by decide), if_pos (by decide)]
      exact hgo _ hlen
  exact {
    base := fun _ h => by rw [hl] at h; cases h
    single := hsingle
    atom := fun hwf => atom_of_single hsingle (by rw [hs]; exact (hw hwf).2) hwf
    tail := fun h => absurd h ht
    body := fun h => absurd h hbd }

/-- skipping one alternate: from the bar to the next one, or to the end -/
theorem skip_bar (e : Expr) (ih : Sk s special calls skipExt e) (hw : e.wf special calls .tail) {n p : Nat} {post : List Byte} (h : Here s p (0x7C#8 :: e.bytes) post)
    (hp : EndT post) (hn : s.length + 2 ≤ p + n) : skipAtom (s ++ [0#8]) skipExt n p = .ok (p + (e.bytes.length + 1)) := by
  obtain ⟨g1, g2⟩ := h.cons
  have hle := g2.le
  obtain ⟨n, rfl⟩ : ∃ i, n = i + 1 := ⟨n - 1, by omega⟩
  obtain ⟨j, hj, e1⟩ := ih.tail hw (fun b => b == 0x7C#8 || (b == 0x29#8 || b == 0#8)) n (p + 1) post ((s ++ [0#8]).length + 1)
    (by rintro b ⟨h1, h2, h3, h4⟩; simp [h1, h2, h3]) g2 hp (by omega) (by simp; omega)
  have hl := g2.over.le
  obtain ⟨j, rfl⟩ : ∃ i, j = i + 1 := ⟨j - 1, by omega⟩
  have hend := g2.over.end
  rw [skipAtom, skipBody, g1, res_bind_ok, if_neg (by decide), if_neg (by decide), if_neg (by decide), if_pos (by decide), e1, skipTo, hend, res_bind_ok, if_pos, res_bind_ok,
    label_none hend hp.colon]
  · rw [res_bind_ok]
    simp only
    congr 1
    omega
  · rcases hp with h | h | h <;> rw [h] <;> decide

theorem sk_all : ∀ e : Expr, Sk s special calls skipExt e := by
  intro e
  induction e with
  | one o =>
    refine sk_base rfl rfl id id ?_
    intro hw _ n p post h _
    exact skipBody_one hsk o hw h
  | bol => exact sk_base rfl rfl id id (fun _ _ n p post h _ => skipBody_simple (Here.cons h).1 (by decide) (fun h => by cases h))
  | eol => exact sk_base rfl rfl id id (fun _ _ n p post h _ => skipBody_simple (Here.cons h).1 (by decide) (fun h => by cases h))
  | grp e ih =>
    refine sk_base rfl rfl id id ?_
    intro hw _ n p post h hn
    obtain ⟨g1, g2⟩ := Here.cons h
    have g3 := Here.left g2
    have g4 := Here.right g2
    obtain ⟨j, hj, e1⟩ := ih.body hw (fun b => b == 0#8 || b == 0x29#8) n (p + 1) _ ((s ++ [0#8]).length + 1)
      (Or.inl (by rintro b ⟨h1, h2, h3, h4⟩; simp [h1, h2])) (by decide) g3 (Or.inr rfl) (by omega) (by simp; omega)
    have hl := g4.le
    obtain ⟨j, rfl⟩ : ∃ i, j = i + 1 := ⟨j - 1, by omega⟩
    rw [skipBody, g1, res_bind_ok, if_neg (by decide), if_neg (by decide), if_pos (by decide), e1, skipTo, g4.cons.1, res_bind_ok, if_pos (by decide), res_bind_ok, g4.cons.1,
      res_bind_ok, if_pos (by decide)]
    simp only [Expr.bytes, List.length_append, List.length_cons, List.length_nil]
    congr 1
    omega
  | opt e ih => exact sk_op rfl (Or.inl rfl) (fun h => h.1) rfl rfl id id ih
  | star e ih => exact sk_op rfl (Or.inr (Or.inl rfl)) (fun h => h.1) rfl rfl id id ih
  | plus e ih => exact sk_op rfl (Or.inr (Or.inr rfl)) (fun h => h.1) rfl rfl id id ih
  | and e ih => exact sk_look rfl (Or.inl rfl) id rfl rfl id id ih
  | not e ih => exact sk_look rfl (Or.inr rfl) id rfl rfl id id ih
  | label e name ih =>
    have hsingle : (Expr.label e name).wf special calls .atom → (Expr.label e name).single = true → ∀ n p post, Here s p (Expr.label e name).bytes post →
        nxt post ≠ 0x3A#8 → s.length + 2 ≤ p + n → skipAtom (s ++ [0#8]) skipExt n p = .ok (p + (Expr.label e name).bytes.length) := by
      intro hw _ n p post h hp hn
      have h : Here s p (e.bytes ++ (0x3A#8 :: name ++ [0x3A#8])) post := by simpa [Expr.bytes] using h
      have g1 := Here.left h
      have g2 := Here.right h
      have hle := h.le
      obtain ⟨n, rfl⟩ : ∃ i, n = i + 1 := ⟨n - 1, by omega⟩
      rw [skipAtom, ih.base hw.1 hw.2.1 n p _ g1 (by omega), res_bind_ok, label_some g2 hw.2.2, res_bind_ok]
      simp only [Expr.bytes, List.length_append, List.length_cons, List.length_nil]
      congr 1
      omega
    exact {
      base := fun _ h => by cases h
      single := hsingle
      atom := atom_of_single hsingle rfl
      tail := fun h => by cases h
      body := fun h => by cases h }
  | call name lab =>
    have hsingle : (Expr.call name lab).wf special calls .atom → (Expr.call name lab).single = true → ∀ n p post, Here s p (Expr.call name lab).bytes post →
        nxt post ≠ 0x3A#8 → s.length + 2 ≤ p + n → skipAtom (s ++ [0#8]) skipExt n p = .ok (p + (Expr.call name lab).bytes.length) := by
      intro hw _ n p post h hp hn
      have hle := h.le
      obtain ⟨n, rfl⟩ : ∃ i, n = i + 1 := ⟨n - 1, by omega⟩
      obtain ⟨hc, -, hname, hlab⟩ := hw
      have hcall : ∀ post', Here s p (0x3C#8 :: name ++ [0x3E#8]) post' → skipBody (s ++ [0#8]) skipExt (skipAtom (s ++ [0#8]) skipExt n) p = .ok (p + 1 + name.length + 1) := by
        intro post' h'
        rw [skipBody, (Here.cons h').1, res_bind_ok, if_neg (by decide), if_neg (by decide), if_neg (by decide), if_neg (by decide), if_neg (by decide), if_pos (by decide),
          hsk.call hc p name post' h' hname]
      cases lab with
      | none =>
        have h : Here s p (0x3C#8 :: name ++ [0x3E#8]) post := h
        have hend := h.over.end
        simp only [List.length_append, List.length_cons, List.length_nil] at hend
        rw [skipAtom, hcall post h, res_bind_ok, label_none (b := nxt post) (by rw [← hend]; congr 1; omega) hp]
        simp only [Expr.bytes, List.length_append, List.length_cons, List.length_nil, res_bind_ok]
        congr 1
        omega
      | some lab =>
        have h : Here s p ((0x3C#8 :: name ++ [0x3E#8]) ++ (0x3A#8 :: lab ++ [0x3A#8])) post := by simpa [Expr.bytes] using h
        have g1 := Here.left h
        have g2 := Here.right h
        simp only [List.length_append, List.length_cons, List.length_nil] at g2
        have g3 : Here s (p + 1 + name.length + 1) (0x3A#8 :: lab ++ [0x3A#8]) post := by
          have e : p + 1 + name.length + 1 = p + (name.length + 1 + (0 + 1)) := by omega
          rw [e]; exact g2
        rw [skipAtom, hcall _ g1, res_bind_ok, label_some g3 (hlab lab rfl)]
        simp only [Expr.bytes, List.length_append, List.length_cons, List.length_nil, res_bind_ok]
        congr 1
        omega
    exact {
      base := fun _ h => by cases h
      single := hsingle
      atom := atom_of_single hsingle rfl
      tail := fun h => by cases h
      body := fun h => by cases h }
  | empty =>
    exact {
      base := fun h => by cases h
      single := fun h => by cases h
      atom := fun h => by cases h
      tail := fun _ stop n p post j _ _ _ _ hj => ⟨j, by simpa [Expr.bytes] using hj, by simp [Expr.bytes]⟩
      body := fun _ stop n p post j _ _ _ _ _ hj => ⟨j, by simpa [Expr.bytes] using hj, by simp [Expr.bytes]⟩ }
  | seq a b iha ihb =>
    exact {
      base := fun h => by cases h
      single := fun h => by cases h
      atom := fun h => by cases h
      tail := by
        intro hw stop n p post j hstop h hp hn hj
        have h : Here s p (a.bytes ++ b.bytes) post := h
        have g1 := Here.left h
        have g2 := Here.right h
        have hcol : nxt (b.bytes ++ post) ≠ 0x3A#8 := by
          by_cases hb : b = .empty
          · subst hb; exact hp.colon
          · obtain ⟨c, rest, h1, h2⟩ := tail_head b hw.2 hb
            rw [nxt_head h1]; exact h2.2.2.2
        obtain ⟨j1, hj1, e1⟩ := iha.atom hw.1 stop n p _ j hstop g1 hcol hn hj
        obtain ⟨j2, hj2, e2⟩ := ihb.tail hw.2 stop n _ post j1 hstop g2 hp (by omega) hj1
        refine ⟨j2, ?_, ?_⟩
        · simp only [Expr.bytes, List.length_append]; omega
        · rw [e1, e2]; simp only [Expr.bytes, List.length_append, Nat.add_assoc]
      body := by
        intro hw stop n p post j hstop hbar h hp hn hj
        have hstop := hstop.resolve_right (by simp [Expr.alternates])
        have h : Here s p (a.bytes ++ b.bytes) post := h
        have g1 := Here.left h
        have g2 := Here.right h
        have hcol : nxt (b.bytes ++ post) ≠ 0x3A#8 := by
          by_cases hb : b = .empty
          · subst hb; exact hp.t.colon
          · obtain ⟨c, rest, h1, -, -, h2⟩ := body_head b hw.2 hb
            rw [nxt_head h1]; exact h2
        obtain ⟨j1, hj1, e1⟩ := iha.atom hw.1 stop n p _ j hstop g1 hcol hn hj
        obtain ⟨j2, hj2, e2⟩ := ihb.body hw.2 stop n _ post j1 (Or.inl hstop) hbar g2 hp (by omega) hj1
        refine ⟨j2, ?_, ?_⟩
        · simp only [Expr.bytes, List.length_append]; omega
        · rw [e1, e2]; simp only [Expr.bytes, List.length_append, Nat.add_assoc] }
  | bar e ih =>
    exact {
      base := fun h => by cases h
      single := fun h => by cases h
      atom := fun h => by cases h
      tail := fun h => by cases h
      body := by
        intro hw stop n p post j _ hbar h hp hn hj
        have h : Here s p (0x7C#8 :: e.bytes) post := h
        exact skipTo_step (q := p + (e.bytes.length + 1)) h.cons.1 hbar (skip_bar hsk e ih hw.2 h hp.t hn) (by omega) h.le hj }
  | alt a b iha ihb =>
    exact {
      base := fun h => by cases h
      single := fun h => by cases h
      atom := fun h => by cases h
      tail := fun h => by cases h
      body := by
        intro hw stop n p post j _ hbar h hp hn hj
        have h : Here s p ((0x7C#8 :: a.bytes) ++ b.bytes) post := h
        have g1 := Here.left h
        have g2 := Here.right h
        obtain ⟨rest, hr⟩ := alternates_head b hw.2.2.1
        have hpost : EndT (b.bytes ++ post) := Or.inr (Or.inr (nxt_head hr))
        obtain ⟨j1, hj1, e1⟩ := skipTo_step (stop := stop) g1.cons.1 hbar (skip_bar hsk a iha hw.2.1 g1 hpost hn) (by omega) h.le hj
        obtain ⟨j2, hj2, e2⟩ := ihb.body hw.2.2.2 stop n _ post j1 (Or.inr hw.2.2.1) hbar g2 hp (by omega) hj1
        refine ⟨j2, ?_, ?_⟩
        · simp only [Expr.bytes, List.length_append, List.length_cons]; simp only [List.length_cons] at hj2; omega
        · rw [e1]
          simp only [List.length_cons] at e2
          rw [e2]; simp only [Expr.bytes, List.length_append, List.length_cons, Nat.add_assoc] }

end
end

end Strpp.Pex
