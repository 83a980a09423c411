import Verif.Props.Ptr
import Verif.Props.Utf8Exact
/-! Property C75: what every move of the guarded pointers does, on any text (include/char_ptr.h, include/utf8_ptr.h). -/
namespace Strpp
open Spec

/-! ### character pointers -/

/-- C75. `+= i`, `-= i`, `+ i` and `- i` on a NulGuardedCharPtr (and `-= i`, `+ i`, `- i` on a GuardedCharPtr, which
inherits them), for every `i`: forwards it stops at the NUL; *backwards it goes forwards*, by as much as was asked and
whatever is there. So it stays in the string exactly for moves that are forward, or not longer than what is left. -/
theorem C75_nul_char (m : List Byte) (p z : Nat) (i : Int) (h : FirstNul m p z) :
    nulCharAdd m p i = .ok (if 0 ≤ i then min ((p : Int) + i) z else p + -i) ∧
    nulCharSub m p i = .ok (if i ≤ 0 then min ((p : Int) - i) z else p + i) := by
  have key : ∀ i : Int, nulCharAdd m p i = .ok (if 0 ≤ i then min ((p : Int) + i) z else p + -i) := by
    intro i
    rcases Int.lt_or_le i 0 with hneg | hpos
    · unfold nulCharAdd
      have e : i.toNat = 0 := by omega
      rw [e]
      simp only [cpAdvance, res_bind_ok]
      rw [if_pos hneg, if_neg (by omega)]
      congr 1
    · obtain ⟨n, rfl⟩ : ∃ n : Nat, i = (n : Int) := ⟨i.toNat, by omega⟩
      rw [C14_nul_add_partial m p z n h, if_pos hpos]
      congr 1; omega
  refine ⟨key i, ?_⟩
  unfold nulCharSub
  rw [key]
  congr 1
  by_cases hi : i ≤ 0
  · rw [if_pos (by omega), if_pos hi]; omega
  · rw [if_neg (by omega), if_neg hi]; omega

/-- C75. `+= i` on a GuardedCharPtr, for every `i`: by exactly `i`, but not before the origin; the NUL does not stop it.
So it stays in the string exactly if the move does not pass the NUL. -/
theorem C75_guarded_char (m : List Byte) (o p z : Nat) (i : Int) (h : FirstNul m p z) (ho : o ≤ p) :
    guardedCharAdd m o p i = .ok (max (o : Int) (p + i)) := by
  rcases (show i ≤ (z : Int) - p ∨ (z : Int) - p < i by omega) with hi | hi
  · exact C14_guarded_add_partial m o p z i h ho hi
  · have := h.1
    obtain ⟨n, rfl⟩ : ∃ n : Nat, i = (n : Int) := ⟨i.toNat, by omega⟩
    rw [C14_guarded_overshoot m o p z n h ho (by omega)]
    congr 1; omega

-- all of the outcomes occur
example : nulCharAdd [0x41#8, 0x42#8, 0x00#8] 0 9 = .ok 2 ∧ nulCharAdd [0x41#8, 0x42#8, 0x00#8] 2 (-2) = .ok 4 ∧
    guardedCharAdd [0x41#8, 0x42#8, 0x00#8] 0 2 (-5) = .ok 0 ∧ guardedCharAdd [0x41#8, 0x42#8, 0x00#8] 0 1 5 = .ok 6 := by decide
example : FirstNul [0x41#8, 0x42#8, 0x00#8] 1 2 :=
  ⟨by decide, rfl, fun i h1 h2 => by
    have : i = 1 := by omega
    subst this; exact ⟨0x42#8, rfl, by decide⟩⟩

/-! ### UTF-8 pointers on arbitrary bytes -/

theorem decode1_nul (l r : List Byte) (hl : l ≠ []) : decode1 (l ++ 0#8 :: r) = decode1 l := by
  cases l with
  | nil => exact absurd rfl hl
  | cons b l =>
    simp only [List.cons_append, decode1]
    cases leadInfo b with
    | none => rfl
    | some kv =>
      obtain ⟨k, v⟩ := kv
      simp only
      rcases (show k ≤ l.length ∨ l.length < k by omega) with hk | hk
      · rw [List.take_append_of_le_length hk]
      · have h0 : ¬ (((l ++ 0#8 :: r).take k).length = k ∧ ((l ++ 0#8 :: r).take k).all isCont = true) := by
          rintro ⟨-, ha⟩
          rw [List.all_eq_true] at ha
          have := ha 0#8 (List.mem_of_getElem? (i := l.length) (by rw [List.getElem?_take_of_lt hk]; simp))
          revert this; decide
        have h1 : ¬ ((l.take k).length = k ∧ (l.take k).all isCont = true) := by
          rintro ⟨ha, -⟩
          rw [List.length_take] at ha; omega
        rw [if_neg h0, if_neg h1]

theorem drop_split (m : List Byte) (p z : Nat) (hp : p ≤ z) (hz : m[z]? = some 0#8) :
    m.drop p = (m.take z).drop p ++ 0#8 :: m.drop (z + 1) := by
  have hzl : z < m.length := by
    rcases Nat.lt_or_ge z m.length with h | h
    · exact h
    · rw [List.getElem?_eq_none h] at hz; cases hz
  have h0 : m[z] = 0#8 := by rw [List.getElem?_eq_getElem hzl] at hz; exact Option.some.inj hz
  have e : m = m.take z ++ 0#8 :: m.drop (z + 1) := by
    rw [← h0, ← List.drop_eq_getElem_cons hzl, List.take_append_drop]
  conv => lhs; rw [e]
  rw [List.drop_append_of_le_length (by rw [List.length_take]; omega)]

/-- Reading a character of the text before the NUL at `z` -/
theorem get_cut (m : List Byte) (p z : Nat) (hp : p < z) (hz : m[z]? = some 0#8) (ch : UCS4) (n : Nat)
    (h : decode1 ((m.take z).drop p) = some (ch, n)) : utf8GetI m (p : Int) = .ok (ch, ((p + n : Nat) : Int)) ∧ 1 ≤ n ∧ p + n ≤ z := by
  have hne : (m.take z).drop p ≠ [] := by intro he; rw [he] at h; cases h
  obtain ⟨ch', n', hd, hg, -, h1, -, -, h3⟩ := C03_utf8_get_safe m p z (by omega) hz
  rw [drop_split m p z (by omega) hz, decode1_nul _ _ hne, h] at hd
  simp only [Option.some.injEq, Prod.mk.injEq] at hd
  obtain ⟨rfl, rfl⟩ := hd
  refine ⟨?_, h1, h3 hp⟩
  unfold utf8GetI
  rw [if_neg (by omega), Int.toNat_natCast, hg]
  rfl

theorem text_ne (m : List Byte) (p z : Nat) (hp : p < z) (hz : m[z]? = some 0#8) : (m.take z).drop p ≠ [] := by
  have hzl : z < m.length := by
    rcases Nat.lt_or_ge z m.length with h | h
    · exact h
    · rw [List.getElem?_eq_none h] at hz; cases hz
  intro he
  have := congrArg List.length he
  rw [List.length_drop, List.length_take] at this
  simp at this; omega

/-- C75. `+= n` with `n ≥ 0`, on both UTF-8 pointers and on any bytes before the first NUL: it moves over `n` of the
characters into which the bytes are cut (malformed bytes count as characters), or to the NUL. -/
theorem C75_utf8_forward (m : List Byte) (o p z : Nat) (hn : FirstNul m p z) (cs : List (UCS4 × Nat))
    (h : Cut ((m.take z).drop p) cs) (n : Nat) :
    nulUtf8Add m p n = .ok ((p + ((cs.take n).map Prod.snd).sum : Nat) : Int) ∧
    guardedUtf8Add m o p n = .ok ((p + ((cs.take n).map Prod.snd).sum : Nat) : Int) := by
  have key : ∀ (n p : Nat) (cs : List (UCS4 × Nat)), FirstNul m p z → Cut ((m.take z).drop p) cs →
      utf8Advance m n p = .ok ((p + ((cs.take n).map Prod.snd).sum : Nat) : Int) := by
    intro n
    induction n with
    | zero => intro p cs _ _; simp [utf8Advance]
    | succ n ih =>
      intro p cs hn h
      simp only [utf8Advance]
      rcases Nat.lt_or_eq_of_le hn.1 with hlt | rfl
      · obtain ⟨b, hb, hne⟩ := hn.2.2 p (Nat.le_refl _) hlt
        rw [atNul_before m p b hb hne, res_bind_ok, if_neg (by decide)]
        generalize hbs : (m.take z).drop p = bs at h
        cases h with
        | nil => exact absurd hbs (text_ne m p z hlt hn.2.1)
        | @cons _ ch k cs' hd hc =>
          rw [← hbs] at hd hc
          obtain ⟨hg, h1, h2⟩ := get_cut m p z hlt hn.2.1 ch k hd
          rw [hg, res_bind_ok]
          rw [List.drop_drop] at hc
          simp only
          rw [ih (p + k) cs' ⟨h2, hn.2.1, fun i a b => hn.2.2 i (by omega) b⟩ hc, List.take_succ_cons, List.map_cons,
            List.sum_cons, Nat.add_assoc]
      · rw [atNul_at m p hn.2.1, res_bind_ok, if_pos rfl]
        have he : (m.take p).drop p = [] := List.drop_eq_nil_of_le (by rw [List.length_take]; omega)
        rw [he] at h
        cases h with
        | nil => simp
        | cons h _ => cases h
  have e : (n : Int).toNat = n := by omega
  have e0 : (-(n : Int)).toNat = 0 := by omega
  unfold nulUtf8Add guardedUtf8Add
  rw [e, e0, key n p cs hn h]
  exact ⟨rfl, rfl⟩

/-- C75. `++` on both UTF-8 pointers, on any bytes: over one character, except that it stays where a NUL is decoded, be
it the terminator or an over-long form of NUL in the text. -/
theorem C75_utf8_increment (m : List Byte) (p z : Nat) (hz : m[z]? = some 0#8) :
    (∀ ch n, p < z → decode1 ((m.take z).drop p) = some (ch, n) →
      nulUtf8Incr m p = .ok (if ch = 0#32 then (p : Int) else ((p + n : Nat) : Int))) ∧
    nulUtf8Incr m z = .ok (z : Int) := by
  unfold nulUtf8Incr utf8AtEof utf8Deref
  constructor
  · intro ch n hp hd
    obtain ⟨hg, -, -⟩ := get_cut m p z hp hz ch n hd
    rw [hg]
    simp only [res_bind_ok]
    by_cases h0 : ch = 0#32
    · rw [if_pos h0, if_pos (by rw [h0]; rfl)]
    · rw [if_neg h0, if_neg (by simpa using h0)]
  · have hg : utf8GetI m (z : Int) = .ok ((0#8 : Byte).zeroExtend 32, ((z + 1 : Nat) : Int)) := by
      unfold utf8GetI
      rw [if_neg (by omega), Int.toNat_natCast, (get_ascii m z 0#8 hz (by decide)).2]
      rfl
    rw [hg]
    rfl

/-- C75. `+= -1` on a GuardedUTF8Ptr, on any bytes: stays at the origin; elsewhere it goes to where the bytes before it
begin a character, or to the byte before. (`predecr()` likewise; `--` is the unguarded `UTF8Backup`, see C73.) -/
theorem C75_utf8_back (m : List Byte) (o p : Nat) (hm : p ≤ m.length) (ho : o ≤ p)
    (hsafe : 6 ≤ p ∨ ∃ i c, i < p ∧ m[i]? = some c ∧ isCont c = false) :
    (p = o → guardedUtf8Add m o p (-1) = .ok (o : Int) ∧ guardedUtf8Predecr m o p = .ok (o : Int)) ∧
    (o < p → (∀ q, Begins m q p → guardedUtf8Add m o p (-1) = .ok (q : Int) ∧ guardedUtf8Predecr m o p = .ok (q : Int)) ∧
      ((∀ q, ¬ Begins m q p) → guardedUtf8Add m o p (-1) = .ok ((p - 1 : Nat) : Int) ∧
        guardedUtf8Predecr m o p = .ok ((p - 1 : Nat) : Int))) := by
  obtain ⟨b1, b2, -⟩ := C73_backup_unlimited m p hm
  unfold guardedUtf8Add guardedUtf8Predecr
  have e1 : (-1 : Int).toNat = 0 := rfl
  have e2 : (-(-1 : Int)).toNat = 1 := rfl
  rw [e1, e2]
  simp only [utf8Advance, res_bind_ok, utf8BackToOrigin, utf8BackN]
  refine ⟨?_, ?_⟩
  · rintro rfl
    rw [if_neg (by omega), if_pos (by simp)]
    exact ⟨rfl, rfl⟩
  · intro hlt
    rw [if_pos (by omega), if_neg (by simp; omega)]
    constructor
    · intro q hB
      rw [b1 q hB]
      exact ⟨rfl, rfl⟩
    · intro hno
      rw [b2 hno hsafe]
      exact ⟨rfl, rfl⟩

/-- the moves of a GuardedUTF8Ptr that are guarded -/
inductive GMove where
  | incr                -- `++p`
  | predecr             -- `p.predecr()`
  | add (i : Int)       -- `p += i`

/-- Simplification: the value returned by the call is the pointer itself. -/
def GMove.run (m : List Byte) (o : Nat) (p : Int) : GMove → Res Int
  | .incr => nulUtf8Incr m p
  | .predecr => guardedUtf8Predecr m o p
  | .add i => guardedUtf8Add m o p i

/-- Backing up from inside the text, with an origin that is no continuation byte, stays at or after the origin. -/
theorem back_stays (m : List Byte) (o z p : Nat) (c : Byte) (hz : m[z]? = some 0#8) (hc : m[o]? = some c) (hnc : isCont c = false)
    (ho : o < p) (hp : p ≤ z) : ∃ q : Nat, utf8Backup m p none = .ok (some (q : Int)) ∧ o ≤ q ∧ q < p := by
  have hzl : z < m.length := by
    rcases Nat.lt_or_ge z m.length with h | h
    · exact h
    · rw [List.getElem?_eq_none h] at hz; cases hz
  obtain ⟨b1, b2, -⟩ := C73_backup_unlimited m p (by omega)
  by_cases hB : ∃ q, Begins m q p
  · obtain ⟨q, hq⟩ := hB
    refine ⟨q, b1 q hq, ?_, hq.1⟩
    rcases Nat.lt_or_ge q o with hlt | hge
    · obtain ⟨c', h1, h2⟩ := hq.2.2 o hlt ho
      rw [hc] at h1; cases h1
      rw [hnc] at h2; cases h2
    · exact hge
  · refine ⟨p - 1, b2 (fun q hq => hB ⟨q, hq⟩) (Or.inr ⟨o, c, ho, hc, hnc⟩), by omega, by omega⟩

/-- C75. A GuardedUTF8Ptr made at a byte that is no continuation byte, in any NUL-terminated bytes, stays between its
origin and the terminator whatever sequence of `++`, `predecr()` and `+= i` (either sign) is made with it, and no move
reads outside of the buffer. -/
theorem C75_guarded_utf8_stays (m : List Byte) (o z : Nat) (c : Byte) (hz : m[z]? = some 0#8) (hc : m[o]? = some c)
    (hnc : isCont c = false) (ms : List GMove) (p : Nat) (h1 : o ≤ p) (h2 : p ≤ z) :
    ∃ q : Nat, ms.foldlM (GMove.run m o) (p : Int) = .ok (q : Int) ∧ o ≤ q ∧ q ≤ z := by
  have hget : ∀ p : Nat, p ≤ z → ∃ ch n, utf8GetI m (p : Int) = .ok (ch, ((p + n : Nat) : Int)) ∧ (p < z → p + n ≤ z) := by
    intro p hp
    obtain ⟨ch, n, -, hg, -, -, -, -, hlt⟩ := C03_utf8_get_safe m p z hp hz
    refine ⟨ch, n, ?_, hlt⟩
    unfold utf8GetI
    rw [if_neg (by omega), Int.toNat_natCast, hg]
    rfl
  have hadv : ∀ (n p : Nat), o ≤ p → p ≤ z → ∃ q : Nat, utf8Advance m n p = .ok (q : Int) ∧ o ≤ q ∧ q ≤ z := by
    intro n
    induction n with
    | zero => intro p h1 h2; exact ⟨p, rfl, h1, h2⟩
    | succ n ih =>
      intro p h1 h2
      simp only [utf8Advance]
      have hzl : z < m.length := by
        rcases Nat.lt_or_ge z m.length with h | h
        · exact h
        · rw [List.getElem?_eq_none h] at hz; cases hz
      have hpm : m[p]? = some m[p] := List.getElem?_eq_getElem (by omega)
      by_cases h0 : m[p] = 0#8
      · rw [atNul_at m p (by rw [hpm, h0]), res_bind_ok, if_pos rfl]
        exact ⟨p, rfl, h1, h2⟩
      · rw [atNul_before m p _ hpm h0, res_bind_ok, if_neg (by decide)]
        have hpz : p ≠ z := by
          rintro rfl
          rw [hpm] at hz; exact h0 (Option.some.inj hz)
        obtain ⟨ch, n', hg, hlt⟩ := hget p h2
        rw [hg, res_bind_ok]
        exact ih (p + n') (by omega) (hlt (by omega))
  have hback : ∀ (n p : Nat), o ≤ p → p ≤ z → ∃ q : Nat, utf8BackToOrigin m o n p = .ok (q : Int) ∧ o ≤ q ∧ q ≤ z := by
    intro n
    induction n with
    | zero => intro p h1 h2; exact ⟨p, rfl, h1, h2⟩
    | succ n ih =>
      intro p h1 h2
      simp only [utf8BackToOrigin]
      rcases Nat.lt_or_eq_of_le h1 with hlt | rfl
      · obtain ⟨q, hq, h3, h4⟩ := back_stays m o z p c hz hc hnc hlt h2
        rw [if_pos (by omega), hq, res_bind_ok]
        exact ih q h3 (by omega)
      · rw [if_neg (by omega)]
        exact ⟨o, rfl, Nat.le_refl _, h2⟩
  induction ms generalizing p with
  | nil => exact ⟨p, rfl, h1, h2⟩
  | cons x ms ih =>
    have step : ∃ q : Nat, GMove.run m o (p : Int) x = .ok (q : Int) ∧ o ≤ q ∧ q ≤ z := by
      cases x with
      | incr =>
        obtain ⟨ch, n, hg, hlt⟩ := hget p h2
        simp only [GMove.run]
        unfold nulUtf8Incr utf8AtEof utf8Deref
        rw [hg]
        simp only [res_bind_ok]
        by_cases h0 : ch = 0#32
        · rw [if_pos (by rw [h0]; rfl)]
          exact ⟨p, rfl, h1, h2⟩
        · rw [if_neg (by simpa using h0)]
          have hpz : p ≠ z := by
            rintro rfl
            have := (get_ascii m p 0#8 hz (by decide)).2
            unfold utf8GetI at hg
            rw [if_neg (by omega), Int.toNat_natCast, this, res_bind_ok] at hg
            simp only [Except.ok.injEq, Prod.mk.injEq] at hg
            exact h0 (by rw [← hg.1]; decide)
          exact ⟨p + n, rfl, by omega, hlt (by omega)⟩
      | predecr =>
        simp only [GMove.run, guardedUtf8Predecr]
        rcases Nat.lt_or_eq_of_le h1 with hlt | rfl
        · obtain ⟨q, hq, h3, h4⟩ := back_stays m o z p c hz hc hnc hlt h2
          rw [if_neg (by simp; omega)]
          simp only [utf8BackN]
          rw [hq, res_bind_ok]
          exact ⟨q, rfl, h3, by omega⟩
        · rw [if_pos (by simp)]
          exact ⟨o, rfl, Nat.le_refl _, h2⟩
      | add i =>
        simp only [GMove.run, guardedUtf8Add]
        obtain ⟨q, hq, h3, h4⟩ := hadv i.toNat p h1 h2
        rw [hq, res_bind_ok]
        exact hback _ q h3 h4
    obtain ⟨q, hq, h3, h4⟩ := step
    obtain ⟨r, hr, h5, h6⟩ := ih q h3 h4
    exact ⟨r, by rw [List.foldlM_cons, hq, res_bind_ok, hr], h5, h6⟩

-- malformed bytes: E2 82 (incomplete), C0 80 (over-long), FF
example : [GMove.incr, .incr, .add 5, .add (-2), .predecr].foldlM
    (GMove.run [0xE2#8, 0x82#8, 0xC0#8, 0x80#8, 0xFF#8, 0x00#8] 0) 0 = .ok (0 : Int) := by decide
example : isCont 0xE2#8 = false := by decide

end Strpp
