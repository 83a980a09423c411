import Verif.Model.Ptr
import Verif.Props.Utf8
/-! Properties C14-C15: guarded pointers (include/char_ptr.h, include/utf8_ptr.h). -/
namespace Strpp
open Spec

/-- Position `z` holds the first NUL at or after `p`. -/
def FirstNul (m : List Byte) (p z : Nat) : Prop :=
  p ≤ z ∧ m[z]? = some 0#8 ∧ ∀ i, p ≤ i → i < z → ∃ b, m[i]? = some b ∧ b ≠ 0#8

theorem atNul_at (m : List Byte) (z : Nat) (h : m[z]? = some 0#8) : atNul m (z : Int) = .ok true := by
  unfold atNul; rw [rdI_ok m z _ h]; rfl

theorem atNul_before (m : List Byte) (p : Nat) (b : Byte) (h : m[p]? = some b) (hb : b ≠ 0#8) :
    atNul m (p : Int) = .ok false := by
  unfold atNul; rw [rdI_ok m p _ h]; simp [hb]

theorem FirstNul.next {m : List Byte} {p z : Nat} (h : FirstNul m p z) (hlt : p < z) : FirstNul m (p + 1) z :=
  ⟨by omega, h.2.1, fun i h1 h2 => h.2.2 i (by omega) h2⟩

theorem cpAdvance_spec (m : List Byte) (n p z : Nat) (h : FirstNul m p z) :
    cpAdvance m n (p : Int) = .ok (((min (p + n) z : Nat) : Int), n - (min (p + n) z - p)) := by
  induction n generalizing p with
  | zero =>
    have := h.1
    have e : min (p + 0) z = p := by omega
    simp only [cpAdvance, e]; simp
  | succ n ih =>
    rcases Nat.lt_or_eq_of_le h.1 with hlt | rfl
    · obtain ⟨b, hb, hne⟩ := h.2.2 p (Nat.le_refl _) hlt
      simp only [cpAdvance, atNul_before m p b hb hne, res_bind_ok, Bool.false_eq_true, if_false]
      have e : (p : Int) + 1 = ((p + 1 : Nat) : Int) := by omega
      rw [e, ih (p + 1) (h.next hlt)]
      have e2 : min (p + 1 + n) z = min (p + (n + 1)) z := by omega
      rw [e2]
      simp only [Except.ok.injEq, Prod.mk.injEq, true_and]
      omega
    · simp only [cpAdvance, atNul_at m p h.2.1, res_bind_ok, if_true]
      have e : min (p + (n + 1)) p = p := by omega
      rw [e]; simp

/-- C14 (partial): `++` on a NulGuardedCharPtr or GuardedCharPtr moves one byte on, and stays at the NUL. -/
theorem C14_increment_partial (m : List Byte) (p z : Nat) (h : FirstNul m p z) :
    nulCharIncr m p = .ok (((if p = z then p else p + 1) : Nat) : Int) := by
  unfold nulCharIncr
  rcases Nat.lt_or_eq_of_le h.1 with hlt | rfl
  · obtain ⟨b, hb, hne⟩ := h.2.2 p (Nat.le_refl _) hlt
    simp only [atNul_before m p b hb hne, res_bind_ok, Bool.false_eq_true, if_false]
    rw [if_neg (by omega)]; rfl
  · simp only [atNul_at m p h.2.1, res_bind_ok, if_true]

/-- C14 (partial): `+= n` for `n ≥ 0` on a NulGuardedCharPtr moves `n` bytes on or to the NUL. -/
theorem C14_nul_add_partial (m : List Byte) (p z n : Nat) (h : FirstNul m p z) :
    nulCharAdd m p n = .ok ((min (p + n) z : Nat) : Int) := by
  unfold nulCharAdd
  have e : (n : Int).toNat = n := by omega
  rw [e, cpAdvance_spec m n p z h]
  simp only [res_bind_ok]
  rw [if_neg (by omega)]

/-- C14 (partial): `+= i` on a GuardedCharPtr with `i ≤ 0`, or with `i` not more than the distance to the NUL, moves by
`i`, but not before the origin. -/
theorem C14_guarded_add_partial (m : List Byte) (o p z : Nat) (i : Int) (h : FirstNul m p z) (ho : o ≤ p)
    (hi : i ≤ (z : Int) - p) :
    guardedCharAdd m o p i = .ok (max (o : Int) (p + i)) := by
  unfold guardedCharAdd
  rcases Int.lt_or_le 0 i with hpos | hneg
  · obtain ⟨n, rfl⟩ : ∃ n : Nat, i = (n : Int) := ⟨i.toNat, by omega⟩
    have e : (n : Int).toNat = n := by omega
    have em : min (p + n) z = p + n := by omega
    rw [e, cpAdvance_spec m n p z h, em]
    simp only [res_bind_ok]
    have hl : n - (p + n - p) = 0 := by omega
    rw [hl, if_pos hpos, if_neg (by omega)]
    congr 1
    omega
  · have e : i.toNat = 0 := by omega
    rw [e]
    simp only [cpAdvance, res_bind_ok]
    rw [if_neg (show ¬ i > 0 by omega)]
    split
    · congr 1; omega
    · congr 1; omega

/-- Forward operations of a guarded pointer. -/
inductive FwdOp
  | incr
  | add (n : Nat)

def FwdOp.run (m : List Byte) (p : Int) : FwdOp → Res Int
  | .incr => nulCharIncr m p
  | .add n => nulCharAdd m p n

/-- C14 (partial): any sequence of forward operations leaves a NulGuardedCharPtr between its start and the NUL, so it
can be dereferenced. Missing: backward moves (see the refutations). -/
theorem C14_forward_sequence_partial (m : List Byte) (p z : Nat) (h : FirstNul m p z) (ops : List FwdOp) :
    ∃ q : Nat, ops.foldlM (FwdOp.run m) (p : Int) = .ok (q : Int) ∧ p ≤ q ∧ q ≤ z := by
  induction ops generalizing p with
  | nil => exact ⟨p, rfl, Nat.le_refl _, h.1⟩
  | cons op ops ih =>
    have step : ∃ q : Nat, FwdOp.run m (p : Int) op = .ok (q : Int) ∧ p ≤ q ∧ q ≤ z := by
      have := h.1
      cases op with
      | incr => exact ⟨_, C14_increment_partial m p z h, by split <;> omega, by split <;> omega⟩
      | add n => exact ⟨_, C14_nul_add_partial m p z n h, by omega, by omega⟩
    obtain ⟨q, hq, h1, h2⟩ := step
    have hq' : FirstNul m q z := ⟨h2, h.2.1, fun i a b => h.2.2 i (by omega) b⟩
    obtain ⟨r, hr, h3, h4⟩ := ih q hq'
    refine ⟨r, ?_, by omega, h4⟩
    rw [List.foldlM_cons, hq]
    exact hr

example : FirstNul [0x41#8, 0x42#8, 0x00#8] 0 2 := by
  refine ⟨by omega, rfl, ?_⟩
  intro i _ h2
  match i, h2 with
  | 0, _ => exact ⟨0x41#8, rfl, by decide⟩
  | 1, _ => exact ⟨0x42#8, rfl, by decide⟩

/-- C14 is false at full strength. On the string "A" (position 0, NUL at 1, two bytes in all): a NulGuardedCharPtr moved
by -1 from the NUL goes *forward*, to 2; a GuardedCharPtr moved by 2 ends at 2, beyond the NUL; and `--` on a
GuardedCharPtr at its origin goes to -1. -/
theorem C14_refuted :
    nulCharAdd [0x41#8, 0x00#8] 1 (-1) = .ok 2 ∧
    nulCharSub [0x41#8, 0x00#8] 1 1 = .ok 2 ∧
    guardedCharAdd [0x41#8, 0x00#8] 0 0 2 = .ok 2 ∧
    charDecr 0 = -1 := by decide

/-- Every overshoot of a GuardedCharPtr by `+=` lands beyond the NUL: the guard never works. -/
theorem C14_guarded_overshoot (m : List Byte) (o p z n : Nat) (h : FirstNul m p z) (ho : o ≤ p) (hn : z < p + n) :
    guardedCharAdd m o p n = .ok ((p + n : Nat) : Int) := by
  unfold guardedCharAdd
  have e : (n : Int).toNat = n := by omega
  have em : min (p + n) z = z := by omega
  have := h.1
  rw [e, cpAdvance_spec m n p z h, em]
  simp only [res_bind_ok]
  have hi : (if (n : Int) > 0 then ((n - (z - p) : Nat) : Int) else (n : Int)) = ((n - (z - p) : Nat) : Int) :=
    if_pos (by omega)
  simp only [hi]
  rw [if_neg (by omega)]
  congr 1
  omega

/-! ### UTF-8 pointers -/

/-- Byte offset of character `k` of a text written at `base`. -/
def charOff (base : Nat) (cs : List UCS4) (k : Nat) : Nat := base + ((cs.take k).flatMap utf8Put).length

/-- The buffer holds, at `base`, the characters `cs` (none reserved, none NUL) and a NUL. -/
def HoldsText (m : List Byte) (base : Nat) (cs : List UCS4) : Prop :=
  (∀ c ∈ cs, ¬ Reserved c ∧ c ≠ 0#32) ∧
  ∃ pre post, m = pre ++ cs.flatMap utf8Put ++ 0#8 :: post ∧ pre.length = base

theorem take_succ_flat (cs : List UCS4) (k : Nat) (hk : k < cs.length) :
    (cs.take (k + 1)).flatMap utf8Put = (cs.take k).flatMap utf8Put ++ utf8Put cs[k] := by
  rw [List.take_add_one, List.flatMap_append, List.getElem?_eq_getElem hk]
  simp

theorem split_at (cs : List UCS4) (k : Nat) (hk : k < cs.length) :
    cs.flatMap utf8Put = (cs.take k).flatMap utf8Put ++ utf8Put cs[k] ++ (cs.drop (k + 1)).flatMap utf8Put := by
  conv => lhs; rw [← List.take_append_drop (k + 1) cs]
  rw [List.flatMap_append, take_succ_flat cs k hk]

theorem HoldsText.get {m : List Byte} {base : Nat} {cs : List UCS4} (h : HoldsText m base cs) (k : Nat)
    (hk : k < cs.length) :
    utf8Get m (charOff base cs k) = .ok (cs[k], charOff base cs (k + 1)) := by
  obtain ⟨hc, pre, post, rfl, rfl⟩ := h
  have h1 := C01_utf8_round_trip (pre ++ (cs.take k).flatMap utf8Put)
    ((cs.drop (k + 1)).flatMap utf8Put ++ 0#8 :: post) cs[k] (hc _ (List.getElem_mem hk)).1
  have e : pre ++ (cs.take k).flatMap utf8Put ++ utf8Put cs[k] ++ ((cs.drop (k + 1)).flatMap utf8Put ++ 0#8 :: post)
      = pre ++ cs.flatMap utf8Put ++ 0#8 :: post := by
    rw [split_at cs k hk]; simp only [List.append_assoc]
  rw [e] at h1
  unfold charOff
  rw [take_succ_flat cs k hk]
  simp only [List.length_append] at h1 ⊢
  rw [h1]
  simp only [Except.ok.injEq, Prod.mk.injEq, true_and]; omega

theorem HoldsText.nul {m : List Byte} {base : Nat} {cs : List UCS4} (h : HoldsText m base cs) :
    m[charOff base cs cs.length]? = some 0#8 := by
  obtain ⟨hc, pre, post, rfl, rfl⟩ := h
  unfold charOff
  rw [List.take_length, List.getElem?_append_right (by simp)]
  simp

theorem put_head_ne_zero (ch : UCS4) (h : ¬ Reserved ch) (h0 : ch ≠ 0#32) : ∃ b, (utf8Put ch)[0]? = some b ∧ b ≠ 0#8 := by
  obtain ⟨hd, b, cs, v, hp, hli, hc⟩ := C02_utf8_shape ch h
  refine ⟨b, by rw [hp]; rfl, ?_⟩
  rintro rfl
  have hl : leadInfo 0#8 = some (0, 0) := by decide
  rw [hl] at hli
  simp only [Option.some.injEq, Prod.mk.injEq] at hli
  have hnil : cs = [] := List.length_eq_zero_iff.mp hli.1.symm
  subst hnil
  have := hd []
  rw [hp] at this
  have e : decode1 ([0#8] ++ []) = some (0#32, 1) := by decide
  rw [e] at this
  simp only [Option.some.injEq, Prod.mk.injEq] at this
  exact h0 this.1.symm

theorem HoldsText.notNul {m : List Byte} {base : Nat} {cs : List UCS4} (h : HoldsText m base cs) (k : Nat)
    (hk : k < cs.length) : ∃ b, m[charOff base cs k]? = some b ∧ b ≠ 0#8 := by
  obtain ⟨hc, pre, post, rfl, rfl⟩ := h
  obtain ⟨b, hb, hne⟩ := put_head_ne_zero cs[k] (hc _ (List.getElem_mem hk)).1 (hc _ (List.getElem_mem hk)).2
  refine ⟨b, ?_, hne⟩
  unfold charOff
  rw [split_at cs k hk]
  simp only [List.append_assoc]
  rw [List.getElem?_append_right (by omega), List.getElem?_append_right (by omega)]
  have e : pre.length + ((cs.take k).flatMap utf8Put).length - pre.length - ((cs.take k).flatMap utf8Put).length = 0 := by
    omega
  rw [e, List.getElem?_append_left (List.length_pos_iff.mpr (put_ne_nil _))]
  exact hb

theorem HoldsText.back {m : List Byte} {base : Nat} {cs : List UCS4} (h : HoldsText m base cs) (k : Nat)
    (hk : k < cs.length) :
    utf8Backup m (charOff base cs (k + 1) : Nat) none = .ok (some (charOff base cs k : Nat)) := by
  obtain ⟨hc, pre, post, rfl, rfl⟩ := h
  have h1 := C06_backup_wellformed (pre ++ (cs.take k).flatMap utf8Put)
    ((cs.drop (k + 1)).flatMap utf8Put ++ 0#8 :: post) cs[k] (hc _ (List.getElem_mem hk)).1
  have e : pre ++ (cs.take k).flatMap utf8Put ++ utf8Put cs[k] ++ ((cs.drop (k + 1)).flatMap utf8Put ++ 0#8 :: post)
      = pre ++ cs.flatMap utf8Put ++ 0#8 :: post := by
    rw [split_at cs k hk]; simp only [List.append_assoc]
  rw [e] at h1
  unfold charOff
  rw [take_succ_flat cs k hk]
  simp only [List.length_append] at h1 ⊢
  rw [← Nat.add_assoc]; exact h1

theorem HoldsText.advance {m : List Byte} {base : Nat} {cs : List UCS4} (h : HoldsText m base cs) (n k : Nat)
    (hk : k ≤ cs.length) :
    utf8Advance m n (charOff base cs k : Nat) = .ok ((charOff base cs (min (k + n) cs.length) : Nat) : Int) := by
  induction n generalizing k with
  | zero =>
    have e : min (k + 0) cs.length = k := by omega
    rw [e]; rfl
  | succ n ih =>
    rcases Nat.lt_or_eq_of_le hk with hlt | rfl
    · obtain ⟨b, hb, hne⟩ := h.notNul k hlt
      have hg : utf8GetI m (charOff base cs k : Nat) = .ok (cs[k], ((charOff base cs (k + 1) : Nat) : Int)) := by
        unfold utf8GetI
        rw [if_neg (by omega)]
        have e : ((charOff base cs k : Nat) : Int).toNat = charOff base cs k := by omega
        rw [e, h.get k hlt]; rfl
      simp only [utf8Advance, atNul_before m _ b hb hne, res_bind_ok, Bool.false_eq_true, if_false, hg]
      rw [ih (k + 1) (by omega)]
      have e : min (k + 1 + n) cs.length = min (k + (n + 1)) cs.length := by omega
      rw [e]
    · simp only [utf8Advance, atNul_at m _ h.nul, res_bind_ok, if_true]
      have e : min (cs.length + (n + 1)) cs.length = cs.length := by omega
      rw [e]

theorem charOff_lt {m : List Byte} {base : Nat} {cs : List UCS4} (_h : HoldsText m base cs) (k : Nat)
    (hk : k < cs.length) : charOff base cs k < charOff base cs (k + 1) := by
  unfold charOff
  rw [take_succ_flat cs k hk, List.length_append]
  have := List.length_pos_iff.mpr (put_ne_nil cs[k])
  omega

theorem charOff_pos {m : List Byte} {base : Nat} {cs : List UCS4} (h : HoldsText m base cs) (k : Nat)
    (hk : k ≤ cs.length) (h0 : 0 < k) : base < charOff base cs k := by
  obtain ⟨j, rfl⟩ : ∃ j, k = j + 1 := ⟨k - 1, by omega⟩
  have := charOff_lt h j (by omega)
  have : base ≤ charOff base cs j := by unfold charOff; omega
  omega

theorem HoldsText.backN {m : List Byte} {base : Nat} {cs : List UCS4} (h : HoldsText m base cs) (n k : Nat)
    (hk : k ≤ cs.length) :
    utf8BackToOrigin m base n (charOff base cs k : Nat) = .ok ((charOff base cs (k - n) : Nat) : Int) := by
  induction n generalizing k with
  | zero => rfl
  | succ n ih =>
    simp only [utf8BackToOrigin]
    rcases Nat.eq_zero_or_pos k with rfl | hpos
    · have e : charOff base cs 0 = base := by simp [charOff]
      rw [if_neg (by rw [e]; omega)]
      simp
    · have := charOff_pos h k hk hpos
      rw [if_pos (by omega)]
      obtain ⟨j, rfl⟩ : ∃ j, k = j + 1 := ⟨k - 1, by omega⟩
      rw [h.back j (by omega)]
      simp only [res_bind_ok]
      rw [ih j (by omega)]
      have e : j + 1 - (n + 1) = j - n := by omega
      rw [e]

theorem HoldsText.backN_unguarded {m : List Byte} {base : Nat} {cs : List UCS4} (h : HoldsText m base cs) (n k : Nat)
    (hk : k ≤ cs.length) (hn : n ≤ k) :
    utf8BackN m n (charOff base cs k : Nat) = .ok ((charOff base cs (k - n) : Nat) : Int) := by
  induction n generalizing k with
  | zero => rfl
  | succ n ih =>
    obtain ⟨j, rfl⟩ : ∃ j, k = j + 1 := ⟨k - 1, by omega⟩
    simp only [utf8BackN, h.back j (by omega), res_bind_ok]
    rw [ih j (by omega) (by omega)]
    have e : j + 1 - (n + 1) = j - n := by omega
    rw [e]

/-- C15 (partial: well-formed text). On any text of whole characters, moving a GuardedUTF8Ptr by any `i` from any
character moves by whole characters, stopping at the first character and at the NUL. Missing: malformed text, where
the pointer can leave the string, see `C15_refuted`. -/
theorem C15_guarded_add_partial (m : List Byte) (base : Nat) (cs : List UCS4) (h : HoldsText m base cs) (k : Nat)
    (hk : k ≤ cs.length) (i : Int) :
    guardedUtf8Add m base (charOff base cs k : Nat) i
      = .ok ((charOff base cs (min cs.length ((k : Int) + i).toNat) : Nat) : Int) := by
  unfold guardedUtf8Add
  rw [h.advance i.toNat k hk]
  simp only [res_bind_ok]
  rw [h.backN _ _ (by omega)]
  congr 3
  omega

/-- C15 (partial). `++` on a UTF-8 pointer goes to the next character, and stays at the NUL. -/
theorem C15_increment_partial (m : List Byte) (base : Nat) (cs : List UCS4) (h : HoldsText m base cs) (k : Nat)
    (hk : k ≤ cs.length) :
    nulUtf8Incr m (charOff base cs k : Nat) = .ok ((charOff base cs (min cs.length (k + 1)) : Nat) : Int) := by
  unfold nulUtf8Incr utf8AtEof utf8Deref
  rcases Nat.lt_or_eq_of_le hk with hlt | rfl
  · have hg : utf8GetI m (charOff base cs k : Nat) = .ok (cs[k], ((charOff base cs (k + 1) : Nat) : Int)) := by
      unfold utf8GetI
      rw [if_neg (by omega)]
      have e : ((charOff base cs k : Nat) : Int).toNat = charOff base cs k := by omega
      rw [e, h.get k hlt]; rfl
    have hne : (cs[k] == 0#32) = false := by
      rw [beq_eq_false_iff_ne]; exact (h.1 _ (List.getElem_mem hlt)).2
    simp only [hg, res_bind_ok, hne, Bool.false_eq_true, if_false]
    have e : min cs.length (k + 1) = k + 1 := by omega
    rw [e]
  · have hg : utf8GetI m (charOff base cs cs.length : Nat) = .ok (0#32, ((charOff base cs cs.length + 1 : Nat) : Int)) := by
      unfold utf8GetI
      rw [if_neg (by omega)]
      have e : ((charOff base cs cs.length : Nat) : Int).toNat = charOff base cs cs.length := by omega
      rw [e, (get_ascii m _ 0#8 h.nul (by decide)).2]; rfl
    simp only [hg, res_bind_ok]
    have e : min cs.length (cs.length + 1) = cs.length := by omega
    rw [e]; rfl

/-- C15 (partial). `--` (not guarded at the start) goes to the previous character when there is one; the guarded
`predecr()` also stays at the first. -/
theorem C15_decrement_partial (m : List Byte) (base : Nat) (cs : List UCS4) (h : HoldsText m base cs) (k : Nat)
    (hk : k ≤ cs.length) :
    (0 < k → nulUtf8Decr m (charOff base cs k : Nat) = .ok ((charOff base cs (k - 1) : Nat) : Int)) ∧
    guardedUtf8Predecr m base (charOff base cs k : Nat) = .ok ((charOff base cs (k - 1) : Nat) : Int) := by
  have h1 : 0 < k → nulUtf8Decr m (charOff base cs k : Nat) = .ok ((charOff base cs (k - 1) : Nat) : Int) :=
    fun h0 => h.backN_unguarded 1 k hk h0
  refine ⟨h1, ?_⟩
  unfold guardedUtf8Predecr
  rcases Nat.eq_zero_or_pos k with rfl | hpos
  · have e : charOff base cs 0 = base := by simp [charOff]
    rw [e]; simp
  · have := charOff_pos h k hk hpos
    rw [if_neg (by simp; omega)]
    exact h1 hpos

/-- C15 (partial). Dereferencing gives the character at the position, NUL at the end. -/
theorem C15_deref_partial (m : List Byte) (base : Nat) (cs : List UCS4) (h : HoldsText m base cs) (k : Nat)
    (hk : k ≤ cs.length) :
    utf8Deref m (charOff base cs k : Nat) = .ok (cs[k]?.getD 0#32) := by
  unfold utf8Deref utf8GetI
  rw [if_neg (by omega)]
  have e : ((charOff base cs k : Nat) : Int).toNat = charOff base cs k := by omega
  rw [e]
  rcases Nat.lt_or_eq_of_le hk with hlt | rfl
  · rw [h.get k hlt]; simp [hlt]
  · rw [(get_ascii m _ 0#8 h.nul (by decide)).2]; simp

example : HoldsText ([0x41#32, 0x20AC#32].flatMap utf8Put ++ 0#8 :: []) 0 [0x41#32, 0x20AC#32] := by
  refine ⟨?_, [], [], rfl, rfl⟩
  intro c hc
  simp only [List.mem_cons, List.not_mem_nil, or_false] at hc
  rcases hc with rfl | rfl <;> decide

/-- C15 is false at full strength. A pointer created at the continuation byte of `€` (origin 1) and advanced backs up to
0, before its origin; at the origin itself, `--` (the inherited, unguarded operator) reads before the buffer; and an
over-long NUL (C0 80) stops `++` for ever although the string goes on. -/
theorem C15_refuted :
    guardedUtf8Add [0xE2#8, 0x82#8, 0xAC#8, 0x00#8] 1 2 (-1) = .ok 0 ∧
    nulUtf8Decr [0x82#8, 0x00#8] 0 = .error .ub ∧
    nulUtf8Incr [0xC0#8, 0x80#8, 0x41#8, 0x00#8] 0 = .ok 0 := by decide

end Strpp
