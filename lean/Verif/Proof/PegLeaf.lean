import Verif.Model.Pegexp
import Verif.Spec.Pegexp
import Verif.Proof.Utf8Seq
import Verif.Proof.Utf8Decode
/-! Sources, and the parts of Pegexp that do not call match_atom. -/
namespace Strpp.Pex
open Spec

/-! ### Sources -/

/-- the source after `k` characters -/
def srcAt (t : List Byte) : Nat → Src
  | 0 => Src.start
  | k + 1 =>
    match decode1 (t.drop (srcAt t k).pos) with
    | some (c, n) => bump { srcAt t k with pos := (srcAt t k).pos + n, byteCount := (srcAt t k).byteCount + n } c
    | none => srcAt t k

theorem decode1_nul (l : List Byte) (h : l ≠ []) : decode1 (l ++ [0#8]) = decode1 l := by
  cases l with
  | nil => exact absurd rfl h
  | cons b rest =>
    simp only [List.cons_append, decode1]
    cases leadInfo b with
    | none => rfl
    | some nv =>
      obtain ⟨n, v⟩ := nv
      simp only
      by_cases hl : n ≤ rest.length
      · rw [List.take_append_of_le_length hl]
      · rw [if_neg, if_neg]
        · intro h'
          have := h'.1
          rw [List.length_take] at this
          omega
        · rintro ⟨h1, h2⟩
          have h3 : n = rest.length + 1 := by
            rw [List.length_take, List.length_append, List.length_singleton] at h1
            omega
          rw [h3, List.take_of_length_le (by simp)] at h2
          rw [List.all_append] at h2
          simp [isCont] at h2

section
variable (t : List Byte)

theorem bump_pos (s : Src) (c : UCS4) : (bump s c).pos = s.pos ∧ (bump s c).byteCount = s.byteCount := by
  unfold bump; split <;> exact ⟨rfl, rfl⟩

theorem srcAt_facts (k : Nat) (hk : k ≤ (decodeAll t).length) :
    (srcAt t k).pos ≤ t.length ∧ decodeAll (t.drop (srcAt t k).pos) = (decodeAll t).drop k ∧ (srcAt t k).byteCount = (srcAt t k).pos := by
  induction k with
  | zero => exact ⟨Nat.zero_le _, by simp [srcAt, Src.start], rfl⟩
  | succ k ih =>
    obtain ⟨h1, h2, h3⟩ := ih (by omega)
    have hne : t.drop (srcAt t k).pos ≠ [] := by
      intro h
      rw [h, decodeAll_nil] at h2
      have := congrArg List.length h2
      simp at this
      omega
    obtain ⟨c, n, hd⟩ := decode1_some _ hne
    have hp := decode1_pos _ _ _ hd
    have hst := decodeAll_step _ _ _ hd
    rw [srcAt, hd]
    simp only [bump_pos]
    refine ⟨?_, ?_, by rw [h3]⟩
    · have := hp.2.2
      rw [List.length_drop] at this
      omega
    · rw [← List.drop_drop]
      have : (decodeAll t).drop (k + 1) = ((decodeAll t).drop k).drop 1 := by rw [List.drop_drop]
      rw [this, ← h2, hst]
      rfl

theorem atEof_iff (hn : 0#8 ∉ t) (s : Src) (h : s.pos ≤ t.length) : atEof (t ++ [0#8]) s = .ok (decide (s.pos = t.length)) := by
  unfold atEof
  rcases Nat.lt_or_ge s.pos t.length with hl | hl
  · have : rd (t ++ [0#8]) s.pos = .ok t[s.pos] := by rw [rd_eq_ok, List.getElem?_append_left hl, List.getElem?_eq_getElem hl]
    rw [this, res_bind_ok]
    have hne : t[s.pos] ≠ 0#8 := fun h => hn (h ▸ List.getElem_mem hl)
    rw [beq_eq_false_iff_ne.mpr hne, decide_eq_false (by omega)]
  · have : rd (t ++ [0#8]) s.pos = .ok 0#8 := by simp [show s.pos = t.length by omega]
    rw [this, res_bind_ok]
    simp
    omega

theorem srcAt_pos_lt (k : Nat) (hk : k < (decodeAll t).length) : (srcAt t k).pos < t.length := by
  obtain ⟨h1, h2, h3⟩ := srcAt_facts t k (by omega)
  rcases Nat.lt_or_ge (srcAt t k).pos t.length with h | h
  · exact h
  · rw [List.drop_of_length_le h, decodeAll_nil] at h2
    have := congrArg List.length h2
    simp at this
    omega

theorem srcAt_end : (srcAt t (decodeAll t).length).pos = t.length := by
  obtain ⟨h1, h2, h3⟩ := srcAt_facts t _ (Nat.le_refl _)
  rcases Nat.lt_or_ge (srcAt t (decodeAll t).length).pos t.length with h | h
  · obtain ⟨c, n, hd⟩ := decode1_some (t.drop (srcAt t (decodeAll t).length).pos) (by
      intro h'
      have := congrArg List.length h'
      simp at this
      omega)
    rw [decodeAll_step _ _ _ hd] at h2
    simp at h2
  · omega

theorem srcAt_get (hn : 0#8 ∉ t) (k : Nat) (hk : k < (decodeAll t).length) :
    getChar (t ++ [0#8]) (srcAt t k) = .ok ((decodeAll t)[k], srcAt t (k + 1)) ∧ (srcAt t k).pos < (srcAt t (k + 1)).pos := by
  obtain ⟨h1, h2, h3⟩ := srcAt_facts t k (by omega)
  have hlt := srcAt_pos_lt t k hk
  have hne : t.drop (srcAt t k).pos ≠ [] := by
    intro h'
    have := congrArg List.length h'
    simp at this
    omega
  obtain ⟨c, n, hd, hg, hn1, -, -⟩ := get_decode1 (t ++ [0#8]) (srcAt t k).pos t.length 0#8 hlt (by simp) (by decide)
  rw [List.drop_append_of_le_length h1, decode1_nul _ hne] at hd
  have hc : c = (decodeAll t)[k] := by
    have hst := decodeAll_step _ _ _ hd
    rw [h2, List.drop_eq_getElem_cons hk] at hst
    injection hst with h _
    exact h.symm
  have hs : srcAt t (k + 1) = bump { srcAt t k with pos := (srcAt t k).pos + n, byteCount := (srcAt t k).byteCount + n } c := by
    rw [srcAt, hd]
  unfold getChar
  rw [atEof_iff t hn _ h1, res_bind_ok, if_neg (by simp; omega), hg, res_bind_ok, ← hc, hs]
  refine ⟨?_, ?_⟩
  · simp only [Nat.add_sub_cancel_left]
  · rw [(bump_pos _ _).1]
    simp only
    omega

theorem srcAt_eof (hn : 0#8 ∉ t) (k : Nat) (hk : k ≤ (decodeAll t).length) :
    atEof (t ++ [0#8]) (srcAt t k) = .ok (decide (k = (decodeAll t).length)) := by
  rw [atEof_iff t hn _ (srcAt_facts t k hk).1]
  rcases Nat.lt_or_eq_of_le hk with h | h
  · have := srcAt_pos_lt t k h
    congr 1
    simp
    omega
  · rw [h, srcAt_end]
    simp

theorem srcAt_mono (hn : 0#8 ∉ t) {i j : Nat} (h : i < j) (hj : j ≤ (decodeAll t).length) : (srcAt t i).pos < (srcAt t j).pos := by
  induction j with
  | zero => omega
  | succ j ih =>
    have h1 := (srcAt_get t hn j (by omega)).2
    rcases Nat.lt_or_eq_of_le (show i ≤ j by omega) with h' | h'
    · have := ih h' (by omega)
      omega
    · subst h'; exact h1

theorem srcAt_inj (hn : 0#8 ∉ t) {i j : Nat} (hi : i ≤ (decodeAll t).length) (hj : j ≤ (decodeAll t).length) :
    (srcAt t i).pos = (srcAt t j).pos ↔ i = j := by
  constructor
  · intro h
    rcases Nat.lt_trichotomy i j with h' | h' | h'
    · have := srcAt_mono t hn h' hj; omega
    · exact h'
    · have := srcAt_mono t hn h' hi; omega
  · rintro rfl; rfl

theorem srcAt_le (hn : 0#8 ∉ t) {i j : Nat} (h : i ≤ j) (hj : j ≤ (decodeAll t).length) : (srcAt t i).pos ≤ (srcAt t j).pos := by
  rcases Nat.lt_or_eq_of_le h with h' | h'
  · exact Nat.le_of_lt (srcAt_mono t hn h' hj)
  · subst h'; exact Nat.le_refl _

theorem decodeAll_le : ∀ (n : Nat) (l : List Byte), l.length ≤ n → (decodeAll l).length ≤ l.length := by
  intro n
  induction n with
  | zero =>
    intro l h
    have : l = [] := List.length_eq_zero_iff.mp (by omega)
    rw [this, decodeAll_nil]
    simp
  | succ n ih =>
    intro l h
    by_cases hl : l = []
    · subst hl; rw [decodeAll_nil]; simp
    · obtain ⟨c, k, hd⟩ := decode1_some l hl
      have hp := decode1_pos _ _ _ hd
      rw [decodeAll_step _ _ _ hd, List.length_cons]
      have := ih (l.drop k) (by simp; omega)
      rw [List.length_drop] at this
      omega

end

/-! ### Patterns -/

section
variable (s : List Byte) (F : Fault → Prop) (pr : Bool)

/-- A position from which the pattern is tidy, unless reading outside is tolerated -/
def In (q : Nat) : Prop := (q ≤ s.length ∧ tidy pr (s.drop q) = true) ∨ F .ub

/-- a result at or after `lo` -/
def Good {α : Type} (lo : Nat) : Res (α × Nat) → Prop
  | .error e => F e
  | .ok x => lo ≤ x.2 ∧ In s F pr x.2

def GoodN (lo : Nat) : Res Nat → Prop
  | .error e => F e
  | .ok x => lo ≤ x ∧ In s F pr x

variable {s F pr}

theorem good_bind {α β : Type} {lo lo' : Nat} {r : Res (α × Nat)} {g : α × Nat → Res (β × Nat)} (h : Good s F pr lo r)
    (hg : ∀ x, lo ≤ x.2 → In s F pr x.2 → r = .ok x → Good s F pr lo' (g x)) : Good s F pr lo' (r >>= g) := by
  cases r with
  | error e => exact h
  | ok x => exact hg x h.1 h.2 rfl

theorem good_bindN {α : Type} {lo lo' : Nat} {r : Res (α × Nat)} {g : α × Nat → Res Nat} (h : Good s F pr lo r)
    (hg : ∀ x, lo ≤ x.2 → In s F pr x.2 → r = .ok x → GoodN s F pr lo' (g x)) : GoodN s F pr lo' (r >>= g) := by
  cases r with
  | error e => exact h
  | ok x => exact hg x h.1 h.2 rfl

theorem goodN_bind {β : Type} {lo lo' : Nat} {r : Res Nat} {g : Nat → Res (β × Nat)} (h : GoodN s F pr lo r)
    (hg : ∀ x, lo ≤ x → In s F pr x → r = .ok x → Good s F pr lo' (g x)) : Good s F pr lo' (r >>= g) := by
  cases r with
  | error e => exact h
  | ok x => exact hg x h.1 h.2 rfl

theorem goodN_bindN {lo lo' : Nat} {r : Res Nat} {g : Nat → Res Nat} (h : GoodN s F pr lo r)
    (hg : ∀ x, lo ≤ x → In s F pr x → r = .ok x → GoodN s F pr lo' (g x)) : GoodN s F pr lo' (r >>= g) := by
  cases r with
  | error e => exact h
  | ok x => exact hg x h.1 h.2 rfl

theorem rd_pat (s : List Byte) (q : Nat) : (q < s.length ∧ ∃ b, s[q]? = some b ∧ rd (s ++ [0#8]) q = .ok b) ∨
    (q = s.length ∧ rd (s ++ [0#8]) q = .ok 0#8) ∨ (s.length < q ∧ rd (s ++ [0#8]) q = .error .ub) := by
  rcases Nat.lt_trichotomy q s.length with h | h | h
  · refine Or.inl ⟨h, s[q], List.getElem?_eq_getElem h, ?_⟩
    rw [rd_eq_ok, List.getElem?_append_left h, List.getElem?_eq_getElem h]
  · refine Or.inr (Or.inl ⟨h, ?_⟩)
    rw [rd_eq_ok, h]; simp
  · refine Or.inr (Or.inr ⟨h, rd_ge _ _ (by simp; omega)⟩)

/-- what a byte read at `q` tells -/
theorem rd_ok {q : Nat} {b : Byte} (h : rd (s ++ [0#8]) q = .ok b) : (b = 0#8 ∧ q = s.length) ∨ (q < s.length ∧ s[q]? = some b) := by
  rcases rd_pat s q with ⟨h1, b', h2, h3⟩ | ⟨h1, h2⟩ | ⟨-, h2⟩
  · rw [h3] at h; cases h; exact Or.inr ⟨h1, h2⟩
  · rw [h2] at h; cases h; exact Or.inl ⟨rfl, h1⟩
  · rw [h2] at h; cases h

theorem rd_err {q : Nat} {e : Fault} (hi : In s F pr q) (h : rd (s ++ [0#8]) q = .error e) : F e := by
  rcases rd_pat s q with ⟨h1, b', h2, h3⟩ | ⟨h1, h2⟩ | ⟨h1, h2⟩
  · rw [h3] at h; cases h
  · rw [h2] at h; cases h
  · rw [h2] at h; cases h
    rcases hi with ⟨hi, -⟩ | hi
    · omega
    · exact hi

theorem bind_rd {β : Type} {q lo : Nat} {g : Byte → Res (β × Nat)} (hi : In s F pr q) (hg : ∀ b, rd (s ++ [0#8]) q = .ok b → Good s F pr lo (g b)) :
    Good s F pr lo (rd (s ++ [0#8]) q >>= g) := by
  cases h : rd (s ++ [0#8]) q with
  | error e => exact rd_err hi h
  | ok b => exact hg b h

theorem bind_rdN {q lo : Nat} {g : Byte → Res Nat} (hi : In s F pr q) (hg : ∀ b, rd (s ++ [0#8]) q = .ok b → GoodN s F pr lo (g b)) :
    GoodN s F pr lo (rd (s ++ [0#8]) q >>= g) := by
  cases h : rd (s ++ [0#8]) q with
  | error e => exact rd_err hi h
  | ok b => exact hg b h

theorem tidyHex_cons (b : Byte) (rest : List Byte) : tidyHex (b :: rest) =
    (b != 0x5C#8 && (b != 0x7B#8 || (match rest with | [] => false | c :: _ => c != 0x5C#8))) := by
  rw [tidyHex.eq_def]
  rfl

theorem tidy_cons (b : Byte) (rest : List Byte) : tidy pr (b :: rest) = if b == 0x5C#8 then
      match rest with
      | [] => false
      | c :: rest' => (pr || !isPropLetter c) && ((c != 0x78#8 || tidyHex rest') && tidy pr rest')
    else
      match rest with
      | [] => b != 0x26#8 && b != 0x21#8
      | _ :: _ => tidy pr rest := by
  rw [tidy.eq_def]
  rfl

theorem in_step {q : Nat} {b : Byte} (hi : In s F pr q) (h : s[q]? = some b) (hb : b ≠ 0x5C#8) : In s F pr (q + 1) := by
  rcases hi with ⟨h1, h2⟩ | h1
  · have hq : q < s.length := (List.getElem?_eq_some_iff.mp h).1
    have hbq : s[q] = b := (List.getElem?_eq_some_iff.mp h).2
    rw [List.drop_eq_getElem_cons hq, hbq, tidy_cons, if_neg (by simpa using hb)] at h2
    refine Or.inl ⟨by omega, ?_⟩
    cases hr : s.drop (q + 1) with
    | nil => rfl
    | cons c rest => rw [hr] at h2; exact h2
  · exact Or.inr h1

/-- what follows a backslash -/
theorem in_esc {q : Nat} (hi : In s F pr q) (h : s[q]? = some 0x5C#8) : F .ub ∨ ∃ c, s[q + 1]? = some c ∧
    (q + 2 ≤ s.length ∧ tidy pr (s.drop (q + 2)) = true) ∧ (isPropLetter c = true → pr = true) ∧ (c = 0x78#8 → tidyHex (s.drop (q + 2)) = true) := by
  rcases hi with ⟨h1, h2⟩ | h1
  · right
    have hq : q < s.length := (List.getElem?_eq_some_iff.mp h).1
    have hbq : s[q] = 0x5C#8 := (List.getElem?_eq_some_iff.mp h).2
    rw [List.drop_eq_getElem_cons hq, hbq, tidy_cons, if_pos (by decide)] at h2
    cases hr : s.drop (q + 1) with
    | nil => rw [hr] at h2; cases h2
    | cons c rest =>
      have hq1 : q + 1 < s.length := by
        rcases Nat.lt_or_ge (q + 1) s.length with h' | h'
        · exact h'
        · rw [List.drop_of_length_le h'] at hr; cases hr
      have hd := List.drop_eq_getElem_cons hq1
      rw [hr] at hd
      injection hd with hc hrest
      rw [hr] at h2
      simp only [Bool.and_eq_true, Bool.or_eq_true, Bool.not_eq_true', bne_iff_ne, ne_eq] at h2
      refine ⟨c, by rw [List.getElem?_eq_getElem hq1, hc], ⟨by omega, ?_⟩, ?_, ?_⟩
      · rw [← hrest]; exact h2.2.2
      · intro hp
        rcases h2.1 with h | h
        · exact h
        · rw [h] at hp; cases hp
      · intro hc'
        rw [← hrest]
        exact h2.2.1.resolve_left (by simpa using hc')
  · exact Or.inl h1

/-- `&` and `!` are not last -/
theorem in_look {q : Nat} {b : Byte} (hi : In s F pr q) (h : s[q]? = some b) (hb : b = 0x26#8 ∨ b = 0x21#8) : q + 1 < s.length ∨ F .ub := by
  rcases hi with ⟨h1, h2⟩ | h1
  · left
    have hq : q < s.length := (List.getElem?_eq_some_iff.mp h).1
    have hbq : s[q] = b := (List.getElem?_eq_some_iff.mp h).2
    rcases Nat.lt_or_ge (q + 1) s.length with h' | h'
    · exact h'
    · rw [List.drop_eq_getElem_cons hq, hbq, tidy_cons, if_neg (by rcases hb with rfl | rfl <;> decide), List.drop_of_length_le h'] at h2
      rcases hb with rfl | rfl <;> simp at h2
  · exact Or.inr h1

set_option linter.unusedSectionVars false
variable (hs : 0#8 ∉ s)
include hs

theorem ne_nul {q : Nat} {b : Byte} (h : s[q]? = some b) : b ≠ 0#8 := by
  rintro rfl
  exact hs (List.mem_of_getElem? h)

omit hs in
theorem not_nul {q : Nat} {b : Byte} (h : rd (s ++ [0#8]) q = .ok b) (hb : b ≠ 0#8) : s[q]? = some b := by
  rcases rd_ok h with ⟨h, -⟩ | ⟨-, h⟩
  · exact absurd h hb
  · exact h

omit hs in
theorem octDigit_good {p : Nat} (rc : UCS4) (hi : In s F pr p) : Good s F pr p (octDigit (s ++ [0#8]) rc p) := by
  unfold octDigit
  refine bind_rd hi (fun b hb => ?_)
  split
  · rename_i h
    have h0 : b ≠ 0#8 := by rintro rfl; simp [isOct] at h
    exact ⟨Nat.le_succ _, in_step hi (not_nul hb h0) (by rintro rfl; simp [isOct] at h)⟩
  · exact ⟨Nat.le_refl _, hi⟩

omit hs in
theorem openBrace_good {p : Nat} (hi : In s F pr p) : Good s F pr p (openBrace (s ++ [0#8]) p) := by
  unfold openBrace
  refine bind_rd hi (fun b hb => ?_)
  split
  · rename_i h
    have h : b = 0x7B#8 := by simpa using h
    subst h
    exact ⟨Nat.le_succ _, in_step hi (not_nul hb (by decide)) (by decide)⟩
  · exact ⟨Nat.le_refl _, hi⟩

omit hs in
theorem closeBrace_good {p : Nat} (br : Bool) (hi : In s F pr p) : GoodN s F pr p (closeBrace (s ++ [0#8]) br p) := by
  unfold closeBrace
  split
  · refine bind_rdN hi (fun b hb => ?_)
    split
    · rename_i h
      have h : b = 0x7D#8 := by simpa using h
      subst h
      exact ⟨Nat.le_succ _, in_step hi (not_nul hb (by decide)) (by decide)⟩
    · exact ⟨Nat.le_refl _, hi⟩
  · exact ⟨Nat.le_refl _, hi⟩

omit hs in
theorem good_mono {α : Type} {lo lo' : Nat} {r : Res (α × Nat)} (h : Good s F pr lo r) (hl : lo' ≤ lo) : Good s F pr lo' r := by
  cases r with
  | error e => exact h
  | ok x => exact ⟨Nat.le_trans hl h.1, h.2⟩

omit hs in
theorem goodN_mono {lo lo' : Nat} {r : Res Nat} (h : GoodN s F pr lo r) (hl : lo' ≤ lo) : GoodN s F pr lo' r := by
  cases r with
  | error e => exact h
  | ok x => exact ⟨Nat.le_trans hl h.1, h.2⟩

theorem unhex_bs : unhex (sx 0x5C#8) < 0 := by decide
theorem unhex_nul : unhex (sx 0#8) < 0 := by decide

omit hs in
theorem uniLoop_good : ∀ (i : Nat) (rc : UCS4) (p : Nat), In s F pr p → Good s F pr p (uniLoop (s ++ [0#8]) i rc p) := by
  intro i
  induction i with
  | zero =>
    intro rc p hi
    unfold uniLoop
    exact bind_rd hi (fun b hb => ⟨Nat.le_refl _, hi⟩)
  | succ i ih =>
    intro rc p hi
    unfold uniLoop
    refine bind_rd hi (fun b hb => ?_)
    split
    · exact ⟨Nat.le_refl _, hi⟩
    · rename_i h0
      split
      · exact ⟨Nat.le_refl _, hi⟩
      · rename_i h
        have h0 : b ≠ 0#8 := by simpa using h0
        refine good_mono (ih _ _ (in_step hi (not_nul hb h0) ?_)) (Nat.le_succ _)
        rintro rfl
        exact h (by decide)

omit hs in
theorem uniEscape_good {p : Nat} (hi : In s F pr p) : Good s F pr p (uniEscape (s ++ [0#8]) p) := by
  unfold uniEscape
  refine good_bind (openBrace_good hi) (fun o ho1 ho2 _ => ?_)
  refine good_bind (uniLoop_good _ _ _ ho2) (fun r hr1 hr2 _ => ?_)
  refine goodN_bind (closeBrace_good _ hr2) (fun q hq1 hq2 _ => ?_)
  exact ⟨by omega, hq2⟩

omit hs in
theorem hexEscape_good {p : Nat} (hi : In s F pr p) (hx : F .ub ∨ tidyHex (s.drop p) = true) : Good s F pr p (hexEscape (s ++ [0#8]) p) := by
  unfold hexEscape
  refine bind_rd hi (fun b hb => ?_)
  split
  · exact ⟨Nat.le_refl _, hi⟩
  · rename_i h0
    have h0 : b ≠ 0#8 := by simpa using h0
    have hsp := not_nul hb h0
    have hpl : p < s.length := (List.getElem?_eq_some_iff.mp hsp).1
    -- the first digit
    have hfirst : Good s F pr p (openBrace (s ++ [0#8]) p) := openBrace_good hi
    refine good_bind hfirst (fun o ho1 ho2 ho => ?_)
    have hok : F .ub ∨ ∃ c, s[o.2]? = some c ∧ c ≠ 0x5C#8 := by
      rcases hx with hx | hx
      · exact Or.inl hx
      · right
        rw [List.drop_eq_getElem_cons hpl, (List.getElem?_eq_some_iff.mp hsp).2, tidyHex_cons] at hx
        simp only [Bool.and_eq_true, Bool.or_eq_true, bne_iff_ne, ne_eq] at hx
        unfold openBrace at ho
        rw [hb, res_bind_ok] at ho
        split at ho
        · rename_i hbr
          have hbr : b = 0x7B#8 := by simpa using hbr
          cases ho
          have h2 := hx.2.resolve_left (by simp [hbr])
          cases hr : s.drop (p + 1) with
          | nil => rw [hr] at h2; cases h2
          | cons c rest =>
            rw [hr] at h2
            refine ⟨c, ?_, by simpa using h2⟩
            have : (s.drop (p + 1))[0]? = some c := by rw [hr]; rfl
            rw [List.getElem?_drop] at this
            exact this
        · cases ho
          exact ⟨b, hsp, hx.1⟩
    refine bind_rd ho2 (fun b1 hb1 => ?_)
    have hi1 : In s F pr (o.2 + 1) := by
      rcases hok with h | ⟨c, h1, h2⟩
      · exact Or.inr h
      · exact in_step ho2 h1 h2
    refine bind_rd hi1 (fun b2 hb2 => ?_)
    simp only
    have hr : o.2 + 1 ≤ (if unhex (sx b2) ≥ 0 then ((BitVec.ofInt 32 (unhex (sx b1)) : UCS4) <<< 4 ||| BitVec.ofInt 32 (unhex (sx b2)), o.2 + 2)
        else ((BitVec.ofInt 32 (unhex (sx b1)) : UCS4), o.2 + 1)).2 ∧ In s F pr (if unhex (sx b2) ≥ 0 then
        ((BitVec.ofInt 32 (unhex (sx b1)) : UCS4) <<< 4 ||| BitVec.ofInt 32 (unhex (sx b2)), o.2 + 2)
        else ((BitVec.ofInt 32 (unhex (sx b1)) : UCS4), o.2 + 1)).2 := by
      split
      · rename_i h
        have h0 : b2 ≠ 0#8 := by rintro rfl; exact absurd h (by decide)
        exact ⟨by simp, in_step hi1 (not_nul hb2 h0) (by rintro rfl; exact absurd h (by decide))⟩
      · exact ⟨Nat.le_refl _, hi1⟩
    generalize (if unhex (sx b2) ≥ 0 then ((BitVec.ofInt 32 (unhex (sx b1)) : UCS4) <<< 4 ||| BitVec.ofInt 32 (unhex (sx b2)), o.2 + 2)
        else ((BitVec.ofInt 32 (unhex (sx b1)) : UCS4), o.2 + 1)) = r at hr
    refine goodN_bind (closeBrace_good _ hr.2) (fun q hq1 hq2 _ => ?_)
    exact ⟨by omega, hq2⟩

/-- an escape -/
theorem literal_esc {p : Nat} (hi : In s F pr p) (h : s[p]? = some 0x5C#8) : Good s F pr (p + 1) (literalChar (s ++ [0#8]) p) := by
  unfold literalChar
  refine bind_rd hi (fun b hb => ?_)
  have hbe : b = 0x5C#8 := by
    rcases rd_ok hb with ⟨-, h1⟩ | ⟨-, h1⟩
    · have := (List.getElem?_eq_some_iff.mp h).1; omega
    · rw [h] at h1; cases h1; rfl
  subst hbe
  rw [if_neg (by decide), if_neg (by decide)]
  rcases in_esc hi h with hu | ⟨c, hc, ht, hp, hx⟩
  · refine bind_rd (Or.inr hu) (fun c hc => ?_)
    split
    · refine good_bind (octDigit_good (p := p + 2) _ (Or.inr hu)) (fun r hr1 _ _ => ?_)
      exact good_mono (octDigit_good _ (Or.inr hu)) (by omega)
    · split
      · exact good_mono (hexEscape_good (Or.inr hu) (Or.inl hu)) (by omega)
      · split
        · exact good_mono (uniEscape_good (Or.inr hu)) (by omega)
        · exact ⟨by simp, Or.inr hu⟩
  · have hrd : rd (s ++ [0#8]) (p + 1) = .ok c := by
      have := (List.getElem?_eq_some_iff.mp hc).1
      rw [rd_eq_ok, List.getElem?_append_left this, hc]
    have hi2 : In s F pr (p + 2) := Or.inl ht
    rw [hrd, res_bind_ok]
    split
    · refine good_bind (octDigit_good (p := p + 2) _ hi2) (fun r hr1 hr2 _ => ?_)
      exact good_mono (octDigit_good _ hr2) (by omega)
    · split
      · rename_i h
        exact good_mono (hexEscape_good hi2 (Or.inr (hx (by simpa using h)))) (by omega)
      · split
        · exact good_mono (uniEscape_good hi2) (by omega)
        · exact ⟨by simp, hi2⟩

theorem literal_strict {p : Nat} {b : Byte} (hi : In s F pr p) (h : rd (s ++ [0#8]) p = .ok b) (hb : b ≠ 0#8) :
    Good s F pr (p + 1) (literalChar (s ++ [0#8]) p) := by
  have hsp := not_nul h hb
  by_cases hbs : b = 0x5C#8
  · exact literal_esc hs hi (hbs ▸ hsp)
  · unfold literalChar
    rw [h, res_bind_ok, if_neg (by simpa using hb), if_pos (by simpa using hbs)]
    exact ⟨Nat.le_refl _, in_step hi hsp hbs⟩

theorem literal_good {p : Nat} (hi : In s F pr p) : Good s F pr p (literalChar (s ++ [0#8]) p) := by
  cases h : rd (s ++ [0#8]) p with
  | error e => unfold literalChar; rw [h]; exact rd_err hi h
  | ok b =>
    by_cases hb : b = 0#8
    · unfold literalChar
      rw [h, res_bind_ok, hb]
      exact ⟨Nat.le_refl _, hi⟩
    · exact good_mono (literal_strict hs hi h hb) (Nat.le_succ _)

omit hs in
theorem ctype_good (f : Nat → Bool) (ch : UCS4) (hc : InCtype ch ∨ F .ub) (g : Bool → Bool) (q lo : Nat) (hl : lo ≤ q) (hi : In s F pr q) :
    Good s F pr lo (do let r ← ctype f ch; .ok (g r, q)) := by
  unfold ctype
  split
  · exact ⟨hl, hi⟩
  · rename_i h
    rcases hc with hc | hc
    · unfold InCtype at hc; simp at h; omega
    · exact hc

/-- after a backslash at `p` -/
theorem charProperty_good {p : Nat} (hi : In s F pr p) (h : s[p]? = some 0x5C#8) (ch : UCS4) (hc : pr = true → InCtype ch ∨ F .ub) :
    Good s F pr (p + 1) (charProperty (s ++ [0#8]) (p + 1) ch) := by
  have hlit := literal_esc hs hi h
  have hp1 : p < s.length := (List.getElem?_eq_some_iff.mp h).1
  unfold charProperty
  rcases in_esc hi h with hu | ⟨c, hcc, ht, hp, hx⟩
  · cases hr : rd (s ++ [0#8]) (p + 1) with
    | error e =>
      rcases rd_pat s (p + 1) with ⟨-, b', -, h3⟩ | ⟨-, h2⟩ | ⟨-, h2⟩
      · rw [h3] at hr; cases hr
      · rw [h2] at hr; cases hr
      · rw [h2] at hr; cases hr; exact hu
    | ok b =>
      rw [res_bind_ok]
      iterate 2 (split; · exact ctype_good _ _ (Or.inr hu) id (p + 1 + 1) _ (by omega) (Or.inr hu))
      split
      · exact ctype_good _ _ (Or.inr hu) (fun r => r || ((0x61 ≤ ch.toNat && ch.toNat ≤ 0x66) || (0x41 ≤ ch.toNat && ch.toNat ≤ 0x46))) (p + 1 + 1) _ (by omega) (Or.inr hu)
      iterate 4 (split; · exact ctype_good _ _ (Or.inr hu) id (p + 1 + 1) _ (by omega) (Or.inr hu))
      rw [if_neg (by simp)]
      refine good_bind hlit (fun r hr1 hr2 _ => ⟨hr1, hr2⟩)
  · have hrd : rd (s ++ [0#8]) (p + 1) = .ok c := by
      have := (List.getElem?_eq_some_iff.mp hcc).1
      rw [rd_eq_ok, List.getElem?_append_left this, hcc]
    have hi2 : In s F pr (p + 1 + 1) := Or.inl ht
    rw [hrd, res_bind_ok]
    have hch : isPropLetter c = true → InCtype ch ∨ F .ub := fun hl => hc (hp hl)
    iterate 2 (split; · rename_i hl; exact ctype_good _ _ (hch (by simp only [beq_iff_eq] at hl; subst hl; decide)) id (p + 1 + 1) _ (by omega) hi2)
    split
    · rename_i hl
      exact ctype_good _ _ (hch (by simp only [beq_iff_eq] at hl; subst hl; decide))
        (fun r => r || ((0x61 ≤ ch.toNat && ch.toNat ≤ 0x66) || (0x41 ≤ ch.toNat && ch.toNat ≤ 0x46))) (p + 1 + 1) _ (by omega) hi2
    iterate 4 (split; · rename_i hl; exact ctype_good _ _ (hch (by simp only [beq_iff_eq] at hl; subst hl; decide)) id (p + 1 + 1) _ (by omega) hi2)
    rw [if_neg (by simp)]
    exact good_bind hlit (fun r hr1 hr2 _ => ⟨hr1, hr2⟩)

omit hs in
theorem ctype_char (f : Nat → Bool) (b : Byte) : ∃ r, ctype f (sx b) = .ok r ∧ (r = true → f b.toNat = true ∧ b.toNat < 128) := by
  have h : -128 ≤ (sx b).toInt ∧ (sx b).toInt ≤ 255 := by
    have := b.isLt
    unfold sx
    rw [BitVec.toInt_signExtend_of_le (by decide)]
    have h1 := BitVec.le_toInt b
    have h2 := BitVec.toInt_lt (x := b)
    simp at h1 h2
    omega
  unfold ctype
  rw [if_pos (by simpa using h)]
  refine ⟨_, rfl, ?_⟩
  have : ∀ b : Byte, (sx b).toNat < 128 → (sx b).toNat = b.toNat := by decide +kernel
  intro hr
  simp only [Bool.and_eq_true, decide_eq_true_eq] at hr
  rw [this b hr.1] at hr
  exact ⟨hr.2, hr.1⟩

theorem classItem_good {p : Nat} {b : Byte} (hi : In s F pr p) (h : rd (s ++ [0#8]) p = .ok b) (hb : b ≠ 0#8) (ch : UCS4)
    (hc : pr = true → InCtype ch ∨ F .ub) : Good s F pr (p + 1) (classItem (s ++ [0#8]) p ch) := by
  have hsp := not_nul h hb
  have hp1 : p < s.length := (List.getElem?_eq_some_iff.mp hsp).1
  unfold classItem
  rw [h, res_bind_ok]
  obtain ⟨e, he⟩ : ∃ e, rd (s ++ [0#8]) (p + 1) = .ok e := by
    rcases rd_pat s (p + 1) with ⟨-, b', -, h3⟩ | ⟨-, h2⟩ | ⟨h1, -⟩
    · exact ⟨_, h3⟩
    · exact ⟨_, h2⟩
    · omega
  rw [he, res_bind_ok]
  obtain ⟨al, hal, -⟩ := ctype_char isAlphaA e
  rw [hal, res_bind_ok]
  split
  · rename_i hcond
    simp only [Bool.and_eq_true, beq_iff_eq] at hcond
    exact charProperty_good hs hi (hcond.1 ▸ hsp) ch hc
  · refine good_bind (literal_strict hs hi h hb) (fun c1 hc1 hc2 _ => ?_)
    refine bind_rd hc2 (fun d hd => ?_)
    split
    · rename_i hdash
      have hdash : d = 0x2D#8 := by simpa using hdash
      subst hdash
      refine good_bind (literal_good hs (in_step hc2 (not_nul hd (by decide)) (by decide))) (fun c2 hd1 hd2 _ => ⟨?_, hd2⟩)
      simp only at hd1 ⊢
      omega
    · exact ⟨hc1, hc2⟩

theorem classLoop_good (ch : UCS4) (hc : pr = true → InCtype ch ∨ F .ub) : ∀ (k p : Nat) (inC : Bool), In s F pr p → s.length < p + k →
    1 ≤ k → Good s F pr p (classLoop (s ++ [0#8]) ch k p inC) := by
  intro k
  induction k with
  | zero => intro p inC _ _ h; omega
  | succ k ih =>
    intro p inC hi hk _
    unfold classLoop
    refine bind_rd hi (fun b hb => ?_)
    split
    · exact ⟨Nat.le_refl _, hi⟩
    · rename_i h0
      simp only [Bool.or_eq_true, beq_iff_eq, not_or] at h0
      have hl := (List.getElem?_eq_some_iff.mp (not_nul hb h0.1)).1
      refine good_bind (classItem_good hs hi hb h0.1 ch hc) (fun r hr1 hr2 _ => ?_)
      exact good_mono (ih _ _ hr2 (by omega) (by omega)) (by omega)

omit hs in
theorem caret_good {p : Nat} (hi : In s F pr p) : Good s F pr p (caret (s ++ [0#8]) p) := by
  unfold caret
  refine bind_rd hi (fun b hb => ?_)
  split
  · rename_i h
    have h : b = 0x5E#8 := by simpa using h
    subst h
    exact ⟨Nat.le_succ _, in_step hi (not_nul hb (by decide)) (by decide)⟩
  · exact ⟨Nat.le_refl _, hi⟩

omit hs in
theorem closeClass_good {p : Nat} (hi : In s F pr p) : GoodN s F pr p (closeClass (s ++ [0#8]) p) := by
  unfold closeClass
  refine bind_rdN hi (fun b hb => ?_)
  split
  · rename_i h
    have h : b = 0x5D#8 := by simpa using h
    subst h
    exact ⟨Nat.le_succ _, in_step hi (not_nul hb (by decide)) (by decide)⟩
  · exact ⟨Nat.le_refl _, hi⟩

omit hs in
theorem nameEnd_good : ∀ (k p : Nat), In s F pr p → s.length < p + k → 1 ≤ k → GoodN s F pr p (nameEnd (s ++ [0#8]) k p) := by
  intro k
  induction k with
  | zero => intro p _ _ h; omega
  | succ k ih =>
    intro p hi hk _
    unfold nameEnd
    refine bind_rdN hi (fun b hb => ?_)
    obtain ⟨al, hal, hal2⟩ := ctype_char isAlnumA b
    rw [hal, res_bind_ok]
    split
    · rename_i h
      have hb2 : b ≠ 0#8 ∧ b ≠ 0x5C#8 := by
        simp only [Bool.or_eq_true, beq_iff_eq] at h
        rcases h with h | rfl
        · have := hal2 h
          constructor <;> rintro rfl <;> simp [isAlnumA, isAlphaA, isUpperA, isLowerA, isDigitA] at this
        · decide
      have hl := (List.getElem?_eq_some_iff.mp (not_nul hb hb2.1)).1
      exact goodN_mono (ih _ (in_step hi (not_nul hb hb2.1) hb2.2) (by omega) (by omega)) (Nat.le_succ _)
    · exact ⟨Nat.le_refl _, hi⟩

omit hs in
theorem closeColon_good {p : Nat} (hi : In s F pr p) : GoodN s F pr p (closeColon (s ++ [0#8]) p) := by
  unfold closeColon
  refine bind_rdN hi (fun b hb => ?_)
  split
  · rename_i h
    have h : b = 0x3A#8 := by simpa using h
    subst h
    exact ⟨Nat.le_succ _, in_step hi (not_nul hb (by decide)) (by decide)⟩
  · exact ⟨Nat.le_refl _, hi⟩

omit hs in
theorem label_good {p : Nat} (hi : In s F pr p) : Good s F pr p (label (s ++ [0#8]) p) := by
  unfold label
  refine bind_rd hi (fun b hb => ?_)
  split
  · rename_i h
    have h : b = 0x3A#8 := by simpa using h
    subst h
    have hi1 := in_step hi (not_nul hb (by decide)) (by decide)
    refine goodN_bind (nameEnd_good _ _ hi1 (by simp; omega) (by omega)) (fun e he1 he2 _ => ?_)
    refine goodN_bind (closeColon_good he2) (fun q hq1 hq2 _ => ⟨?_, hq2⟩)
    simp only
    omega
  · exact ⟨Nat.le_refl _, hi⟩

theorem skipClassLoop_good : ∀ (k p : Nat), In s F pr p → s.length < p + k → 1 ≤ k → GoodN s F pr p (skipClassLoop (s ++ [0#8]) k p) := by
  intro k
  induction k with
  | zero => intro p _ _ h; omega
  | succ k ih =>
    intro p hi hk _
    unfold skipClassLoop
    refine bind_rdN hi (fun b hb => ?_)
    split
    · exact ⟨Nat.le_refl _, hi⟩
    · rename_i h0
      simp only [Bool.or_eq_true, beq_iff_eq, not_or] at h0
      have hl := (List.getElem?_eq_some_iff.mp (not_nul hb h0.1)).1
      refine good_bindN (literal_strict hs hi hb h0.1) (fun c1 h1 h2 _ => ?_)
      refine bind_rdN h2 (fun d hd => ?_)
      split
      · rename_i hdash
        have hdash : d = 0x2D#8 := by simpa using hdash
        subst hdash
        refine good_bindN (literal_good hs (in_step h2 (not_nul hd (by decide)) (by decide))) (fun c2 h3 h4 _ => ?_)
        exact goodN_mono (ih _ h4 (by omega) (by omega)) (by omega)
      · exact goodN_mono (ih _ h2 (by omega) (by omega)) (by omega)

/-- something to skip at `p` -/
def Hd (s : List Byte) (F : Fault → Prop) (p : Nat) : Prop := p < s.length ∨ F .ub

theorem skipTo_good (skip : Nat → Res Nat) (stop : Byte → Bool) (hstop : stop 0#8 = true) (lo : Nat)
    (hskip : ∀ q, lo ≤ q → In s F pr q → Hd s F q → GoodN s F pr (q + 1) (skip q)) :
    ∀ (k p : Nat), lo ≤ p → In s F pr p → s.length < p + k → 1 ≤ k → GoodN s F pr p (skipTo (s ++ [0#8]) skip stop k p) := by
  intro k
  induction k with
  | zero => intro p _ _ _ h; omega
  | succ k ih =>
    intro p hlo hi hk _
    unfold skipTo
    refine bind_rdN hi (fun b hb => ?_)
    split
    · exact ⟨Nat.le_refl _, hi⟩
    · rename_i h0
      have hb0 : b ≠ 0#8 := by rintro rfl; exact h0 hstop
      have hl := (List.getElem?_eq_some_iff.mp (not_nul hb hb0)).1
      refine goodN_bindN (hskip p hlo hi (Or.inl hl)) (fun q hq1 hq2 _ => ?_)
      exact goodN_mono (ih _ (by omega) hq2 (by omega) (by omega)) (by omega)

/-- what skip_extended has to do -/
def SkipExt (s : List Byte) (F : Fault → Prop) (pr : Bool) (skipExt : Nat → Res Nat) : Prop :=
  ∀ q b, s[q]? = some b → isExtended b = true → In s F pr q → GoodN s F pr (q + 1) (skipExt q)

theorem skipBody_good (skipExt : Nat → Res Nat) (he : SkipExt s F pr skipExt) (skip : Nat → Res Nat) (p : Nat)
    (hskip : ∀ q, p + 1 ≤ q → In s F pr q → Hd s F q → GoodN s F pr (q + 1) (skip q)) (hi : In s F pr p) (hd : Hd s F p) :
    GoodN s F pr (p + 1) (skipBody (s ++ [0#8]) skipExt skip p) := by
  unfold skipBody
  refine bind_rdN hi (fun rc hrc => ?_)
  by_cases h0 : rc = 0#8
  · -- the end: only where reading outside is tolerated
    subst h0
    rcases rd_ok hrc with ⟨-, hp⟩ | ⟨-, hp⟩
    · have hu : F .ub := by
        rcases hd with hd | hd
        · omega
        · exact hd
      rw [if_neg (by decide), if_neg (by decide), if_neg (by decide), if_neg (by decide), if_neg (by decide), if_neg (by decide)]
      exact ⟨Nat.le_refl _, Or.inr hu⟩
    · exact absurd (ne_nul hs hp) (by simp)
  · have hsp := not_nul hrc h0
    have hpl : p < s.length := (List.getElem?_eq_some_iff.mp hsp).1
    split
    · rename_i h
      have h : rc = 0x5C#8 := by simpa using h
      refine good_bindN (literal_esc hs hi (h ▸ hsp)) (fun r h1 h2 _ => ⟨h1, h2⟩)
    · rename_i hbs
      have hbs : rc ≠ 0x5C#8 := by simpa using hbs
      have hi1 := in_step hi hsp hbs
      split
      · refine good_bindN (caret_good hi1) (fun n h1 h2 _ => ?_)
        refine goodN_bindN (skipClassLoop_good hs _ _ h2 (by simp; omega) (by omega)) (fun q h3 h4 _ => ?_)
        exact goodN_mono (closeClass_good h4) (by omega)
      · split
        · refine goodN_bindN (skipTo_good hs skip _ (by decide) (p + 1) hskip _ _ (Nat.le_refl _) hi1 (by simp; omega) (by omega)) (fun q h1 h2 hres => ?_)
          refine bind_rdN h2 (fun b hb => ?_)
          split
          · rename_i hb0
            have hb0 : b ≠ 0#8 := by simpa using hb0
            -- the loop stopped at a bracket
            refine ⟨by omega, in_step h2 (not_nul hb hb0) ?_⟩
            rintro rfl
            -- a backslash does not stop it
            have : ∀ (k p q : Nat), skipTo (s ++ [0#8]) skip (fun b => b == 0#8 || b == 0x29#8) k p = .ok q →
                ∃ c, rd (s ++ [0#8]) q = .ok c ∧ (c = 0#8 ∨ c = 0x29#8) := by
              intro k
              induction k with
              | zero => intro p q h; cases h
              | succ k ih =>
                intro p q h
                unfold skipTo at h
                obtain ⟨c, e1, h⟩ := hbind h
                split at h
                · rename_i hc
                  cases h
                  exact ⟨c, e1, by simpa using hc⟩
                · obtain ⟨q', -, h⟩ := hbind h
                  exact ih _ _ h
            obtain ⟨c, e1, e2⟩ := this _ _ _ hres
            rw [hb] at e1
            cases e1
            rcases e2 with e2 | e2 <;> exact absurd e2 (by decide)
          · exact ⟨h1, h2⟩
        · split
          · exact skipTo_good hs skip _ (by decide) (p + 1) hskip _ _ (Nat.le_refl _) hi1 (by simp; omega) (by omega)
          · split
            · rename_i h
              simp only [Bool.or_eq_true, beq_iff_eq] at h
              exact goodN_mono (hskip _ (Nat.le_refl _) hi1 (in_look hi hsp h)) (by omega)
            · split
              · rename_i h
                exact he p rc hsp h hi
              · exact ⟨Nat.le_refl _, hi1⟩

theorem skipAtom_good (skipExt : Nat → Res Nat) (he : SkipExt s F pr skipExt) : ∀ (n p : Nat), In s F pr p → Hd s F p → s.length + 2 ≤ p + n → 1 ≤ n →
    GoodN s F pr (p + 1) (skipAtom (s ++ [0#8]) skipExt n p) := by
  intro n
  induction n with
  | zero => intro p _ _ _ h; omega
  | succ n ih =>
    intro p hi hd hn _
    unfold skipAtom
    rcases Nat.lt_or_ge s.length p with hp | hp
    · unfold skipBody
      rw [rd_ge _ _ (by simp; omega)]
      exact rd_err hi (rd_ge _ _ (by simp; omega))
    · refine goodN_bindN (skipBody_good hs skipExt he _ p ?_ hi hd) (fun q h1 h2 _ => ?_)
      · intro q hq hi' hd'
        exact ih q hi' hd' (by omega) (by omega)
      · exact good_bindN (label_good h2) (fun l h3 h4 _ => ⟨by omega, h4⟩)

end

end Strpp.Pex
