import Verif.Proof.RxProg
import Verif.Proof.RxStack
/-! Programs with counters: every match that is reported is a match. -/
set_option linter.unusedVariables false
namespace Strpp.Rx
open Spec

/-- The program can go in `n` moves from station `s` at offset `i`, with the counters `K` (offset and count, the top one
first) and a match that started at `c`, to acceptance at `e` of a match that started at `c'` -/
inductive Run (P : Prog) (t : List UCS4) : Nat → Nat → Nat → List (Nat × Nat) → Nat → Nat → Nat → Prop
  | acc (i s n : Nat) (K : List (Nat × Nat)) (c : Nat) : P.decode s = .ok (.accept n) → i ≤ t.length → Run P t 0 i s K c c i
  | eps (m i s s' : Nat) (K : List (Nat × Nat)) (c c' e : Nat) (ins : Instr) : P.decode s = .ok ins → (∀ n, ins ≠ .capStart 0 n) →
      s' ∈ ins.eps t i → Run P t m i s' K c c' e → Run P t (m + 1) i s K c c' e
  | start (m i s n : Nat) (K : List (Nat × Nat)) (c c' e : Nat) : P.decode s = .ok (.capStart 0 n) → Run P t m i n K i c' e →
      Run P t (m + 1) i s K c c' e
  | step (m i s n : Nat) (K : List (Nat × Nat)) (c c' e : Nat) (ins : Instr) : P.decode s = .ok ins → consume ins (chAt t i) = .ok (.goesOn n) →
      i ≤ t.length → Run P t m (i + 1) n K c c' e → Run P t (m + 1) i s K c c' e
  | zero (m i s n : Nat) (K : List (Nat × Nat)) (c c' e : Nat) : P.decode s = .ok (.zero n) → Run P t m i n ((i, 0) :: K) c c' e →
      Run P t (m + 1) i s K c c' e
  | loop (m i s mn mx a n o k : Nat) (K : List (Nat × Nat)) (c c' e : Nat) : P.decode s = .ok (.count mn mx a n) → (toShort (k + 1) ≤ mx ∨ mx = 0) →
      Run P t m i a ((i, k + 1) :: K) c c' e → Run P t (m + 1) i s ((o, k) :: K) c c' e
  | leave (m i s mn mx a n o k : Nat) (K : List (Nat × Nat)) (c c' e : Nat) : P.decode s = .ok (.count mn mx a n) → ((mn : Int) ≤ toShort (k + 1) ∨ o = i) →
      (mx = 0 ∨ toShort (k + 1) ≤ mx) → Run P t m i n K c c' e → Run P t (m + 1) i s ((o, k) :: K) c c' e

section
variable {P : Prog} {t : List UCS4} {n i s : Nat} {K : List (Nat × Nat)} {c c' e : Nat}

/-- at an instruction without counters that does not start the match -/
theorem Run.inv {ins : Instr} (h : Run P t n i s K c c' e) (hd : P.decode s = .ok ins) (hf : ins.simple = true) (hna : ∀ k, ins ≠ .accept k) :
    (∃ m < n, ∃ s' ∈ ins.eps t i, Run P t m i s' K c c' e) ∨
    ∃ m < n, ∃ s', consume ins (chAt t i) = .ok (.goesOn s') ∧ i ≤ t.length ∧ Run P t m (i + 1) s' K c c' e := by
  cases h with
  | acc _ _ k _ _ h hi => rw [hd] at h; cases h; exact (hna k rfl).elim
  | eps m _ _ s' _ _ _ _ ins' h h0 hm h' =>
    rw [hd] at h; cases h
    exact .inl ⟨m, by omega, s', hm, h'⟩
  | start m _ _ _ _ _ _ _ h => rw [hd] at h; cases h; simp [Instr.simple] at hf
  | step m _ _ q _ _ _ _ ins' h hc hi h' =>
    rw [hd] at h; cases h
    exact .inr ⟨m, by omega, q, hc, hi, h'⟩
  | zero _ _ _ _ _ _ _ _ h => rw [hd] at h; cases h; cases hf
  | loop _ _ _ _ _ _ _ _ _ _ _ _ _ h => rw [hd] at h; cases h; cases hf
  | leave _ _ _ _ _ _ _ _ _ _ _ _ _ h => rw [hd] at h; cases h; cases hf

theorem Run.split {a b : Nat} (h : Run P t n i s K c c' e) (hd : P.decode s = .ok (.split a b)) :
    ∃ m < n, Run P t m i a K c c' e ∨ Run P t m i b K c c' e := by
  rcases h.inv hd rfl (by simp) with ⟨m, hm, s', hs, h⟩ | ⟨m, hm, s', hc, -⟩
  · simp only [Instr.eps, List.mem_cons, List.not_mem_nil, or_false] at hs
    rcases hs with rfl | rfl
    · exact ⟨m, hm, .inl h⟩
    · exact ⟨m, hm, .inr h⟩
  · cases hc

theorem Run.jump {a b : Nat} (h : Run P t n i s K c c' e) (hd : P.decode s = .ok (.jump a b)) :
    ∃ m < n, Run P t m i a K c c' e := by
  rcases h.inv hd rfl (by simp) with ⟨m, hm, s', hs, h⟩ | ⟨m, hm, s', hc, -⟩
  · simp only [Instr.eps, List.mem_cons, List.not_mem_nil, or_false] at hs
    subst hs
    exact ⟨m, hm, h⟩
  · cases hc

theorem Run.one {ins : Instr} {r : Re} {q : Nat} (h : Run P t n i s K c c' e) (hd : P.decode s = .ok ins) (hf : ins.simple = true)
    (heps : ins.eps t i = []) (hna : ∀ k, ins ≠ .accept k)
    (hm : ∀ s', i ≤ t.length → consume ins (chAt t i) = .ok (.goesOn s') → s' = q ∧ Matches t r i (i + 1)) :
    ∃ k m, m ≤ n ∧ Matches t r i k ∧ Run P t m k q K c c' e := by
  rcases h.inv hd hf hna with ⟨m, hm', s', hs, h⟩ | ⟨m, hm', s', hc, hi, h⟩
  · rw [heps] at hs; cases hs
  · obtain ⟨rfl, h2⟩ := hm s' hi hc
    exact ⟨i + 1, m, by omega, h2, h⟩

theorem Run.atZero {q : Nat} (h : Run P t n i s K c c' e) (hd : P.decode s = .ok (.zero q)) :
    ∃ m < n, Run P t m i q ((i, 0) :: K) c c' e := by
  cases h with
  | acc _ _ k _ _ h hi => rw [hd] at h; cases h
  | eps m _ _ s' _ _ _ _ ins' h h0 hm h' => rw [hd] at h; cases h; cases hm
  | start m _ _ _ _ _ _ _ h => rw [hd] at h; cases h
  | step m _ _ q _ _ _ _ ins' h hc hi h' => rw [hd] at h; cases h; cases hc
  | zero m _ _ _ _ _ _ _ h h' => rw [hd] at h; cases h; exact ⟨m, by omega, h'⟩
  | loop _ _ _ _ _ _ _ _ _ _ _ _ _ h => rw [hd] at h; cases h
  | leave _ _ _ _ _ _ _ _ _ _ _ _ _ h => rw [hd] at h; cases h

theorem Run.atCount {mn mx a q o k : Nat} (h : Run P t n i s ((o, k) :: K) c c' e) (hd : P.decode s = .ok (.count mn mx a q)) :
    ∃ m < n, ((toShort (k + 1) ≤ mx ∨ mx = 0) ∧ Run P t m i a ((i, k + 1) :: K) c c' e) ∨
      (((mn : Int) ≤ toShort (k + 1) ∨ o = i) ∧ (mx = 0 ∨ toShort (k + 1) ≤ mx) ∧ Run P t m i q K c c' e) := by
  cases h with
  | acc _ _ k _ _ h hi => rw [hd] at h; cases h
  | eps m _ _ s' _ _ _ _ ins' h h0 hm h' => rw [hd] at h; cases h; cases hm
  | start m _ _ _ _ _ _ _ h => rw [hd] at h; cases h
  | step m _ _ q _ _ _ _ ins' h hc hi h' => rw [hd] at h; cases h; cases hc
  | zero m _ _ _ _ _ _ _ h h' => rw [hd] at h; cases h
  | loop m _ _ _ _ _ _ _ _ _ _ _ _ h h1 h' => rw [hd] at h; cases h; exact ⟨m, by omega, .inl ⟨h1, h'⟩⟩
  | leave m _ _ _ _ _ _ _ _ _ _ _ _ h h1 h2 h' => rw [hd] at h; cases h; exact ⟨m, by omega, .inr ⟨h1, h2, h'⟩⟩

theorem Run.atStart {q : Nat} (h : Run P t n i s K c c' e) (hd : P.decode s = .ok (.capStart 0 q)) :
    ∃ m < n, Run P t m i q K i c' e := by
  cases h with
  | acc _ _ k _ _ h hi => rw [hd] at h; cases h
  | eps m _ _ s' _ _ _ _ ins' h h0 hm h' => rw [hd] at h; cases h; exact (h0 _ rfl).elim
  | start m _ _ _ _ _ _ _ h h' => rw [hd] at h; cases h; exact ⟨m, by omega, h'⟩
  | step m _ _ q _ _ _ _ ins' h hc hi h' => rw [hd] at h; cases h; cases hc
  | zero m _ _ _ _ _ _ _ h h' => rw [hd] at h; cases h
  | loop _ _ _ _ _ _ _ _ _ _ _ _ _ h => rw [hd] at h; cases h
  | leave _ _ _ _ _ _ _ _ _ _ _ _ _ h => rw [hd] at h; cases h

theorem Run.atAccept {q : Nat} (h : Run P t n i s K c c' e) (hd : P.decode s = .ok (.accept q)) : c' = c ∧ e = i ∧ i ≤ t.length := by
  cases h with
  | acc _ _ k _ _ h hi => exact ⟨rfl, rfl, hi⟩
  | eps m _ _ s' _ _ _ _ ins' h h0 hm h' => rw [hd] at h; cases h; cases hm
  | start m _ _ _ _ _ _ _ h h' => rw [hd] at h; cases h
  | step m _ _ q _ _ _ _ ins' h hc hi h' => rw [hd] at h; cases h; cases hc
  | zero m _ _ _ _ _ _ _ h h' => rw [hd] at h; cases h
  | loop _ _ _ _ _ _ _ _ _ _ _ _ _ h => rw [hd] at h; cases h
  | leave _ _ _ _ _ _ _ _ _ _ _ _ _ h => rw [hd] at h; cases h
end

/-- some matches in a row -/
def Row (t : List UCS4) (a : Re) (N i k : Nat) : Prop := ∃ f : Nat → Nat, f 0 = i ∧ f N = k ∧ ∀ m, m < N → Matches t a (f m) (f (m + 1))

theorem Row.zero {t a} (i : Nat) : Row t a 0 i i := ⟨fun _ => i, rfl, rfl, fun _ h => by omega⟩

theorem Row.cons {t a N i j k} (h : Matches t a i j) (hr : Row t a N j k) : Row t a (N + 1) i k := by
  obtain ⟨f, h0, h1, h2⟩ := hr
  refine ⟨fun m => if m = 0 then i else f (m - 1), rfl, h1, fun m hm => ?_⟩
  by_cases hz : m = 0
  · subst hz
    show Matches t a i (f 0)
    rw [h0]; exact h
  · have := h2 (m - 1) (by omega)
    simp only [if_neg hz]
    rw [show m - 1 + 1 = m by omega] at this
    exact this

theorem Row.same {t a i} (h : Matches t a i i) : ∀ N, Row t a N i i
  | 0 => .zero i
  | N + 1 => .cons h (Row.same h N)

theorem Row.rep {t a N i k} (h : Row t a N i k) (w : List UCS4) (mn : Nat) (mx : Option Nat) (h1 : mn ≤ N) (h2 : ∀ m, mx = some m → N ≤ m) :
    Matches t (.rep w mn mx a) i k := by
  obtain ⟨f, rfl, rfl, hf⟩ := h
  exact .rep N f w mn mx a hf h1 h2

theorem star_row {t r i k} (h : Matches t r i k) : ∀ a, r = .star a → ∃ N, Row t a N i k := by
  induction h with
  | starNone i a => intro b e; cases e; exact ⟨0, .zero i⟩
  | starMore i j k a h1 _ _ ih =>
    intro b e
    cases e
    obtain ⟨N, hN⟩ := ih a rfl
    exact ⟨N + 1, .cons h1 hN⟩
  | _ => intro a e; cases e

theorem plus_row {t r i k} (h : Matches t r i k) : ∀ a, r = .plus a → ∃ N, 1 ≤ N ∧ Row t a N i k := by
  induction h with
  | plusOne i j a h1 => intro b e; cases e; exact ⟨1, Nat.le_refl _, .cons h1 (.zero j)⟩
  | plusMore i j k a h1 _ _ ih =>
    intro b e
    cases e
    obtain ⟨N, -, hN⟩ := ih a rfl
    exact ⟨N + 1, by omega, .cons h1 hN⟩
  | _ => intro a e; cases e

theorem matches_star_rep {t a i k} (w : List UCS4) (h : Matches t (.star a) i k) : Matches t (.rep w 0 none a) i k := by
  obtain ⟨N, hN⟩ := star_row h a rfl
  exact hN.rep w 0 none (Nat.zero_le _) (fun m h => by cases h)

theorem matches_plus_rep {t a i k} (w : List UCS4) (h : Matches t (.plus a) i k) : Matches t (.rep w 1 none a) i k := by
  obtain ⟨N, h1, hN⟩ := plus_row h a rfl
  exact hN.rep w 1 none h1 (fun m h => by cases h)

theorem matches_opt_rep {t a i k} (w : List UCS4) (h : Matches t (.opt a) i k) : Matches t (.rep w 0 (some 1) a) i k := by
  cases h with
  | optNone => exact (Row.zero i).rep w 0 (some 1) (Nat.le_refl _) (fun m h => Nat.zero_le _)
  | optOne _ _ _ h => exact (Row.cons h (.zero k)).rep w 0 (some 1) (Nat.zero_le _) (fun m h => by cases h; exact Nat.le_refl _)

/-- Every run from the beginning of the code of an expression leaves it after a match, with the same counters -/
theorem code_soundK {P : Prog} {t : List UCS4} (hlen : P.nfa.length < 2 ^ 30) {r : Re} {bs : List Byte} (hc : Code true r bs) :
    ∀ (n p i : Nat) (K : List (Nat × Nat)) (c c' e : Nat), At P p bs → Run P t n i p K c c' e →
      ∃ k m, m ≤ n ∧ Matches t r i k ∧ Run P t m k (p + bs.length) K c c' e := by
  induction hc with
  | empty => intro n p i K c c' e _ h; exact ⟨i, n, Nat.le_refl _, .empty i, h⟩
  | chr s ch hc h0 =>
    intro n p i K c c' e hat h
    refine h.one (q := p + (opChar :: utf8Put ch).length) (decode_char hat hc) rfl rfl (by simp) (fun s' hi hs => ?_)
    obtain ⟨h1, h2⟩ := consume_char.1 hs
    refine ⟨by rw [h2, List.length_cons]; omega, .chr i s ch ?_⟩
    rw [chAt_nz hi (by rw [h1]; exact h0), h1]
  | any =>
    intro n p i K c c' e hat h
    refine h.one (q := p + 1) (decode_any hat) rfl rfl (by simp) (fun s' hi hs => ?_)
    obtain ⟨h1, h2⟩ := consume_any.1 hs
    exact ⟨h2, .any i _ (chAt_nz hi h1) h1⟩
  | bol =>
    intro n p i K c c' e hat h
    rcases h.inv (decode_bol hat) rfl (by simp) with ⟨m, hm, s', hs, h⟩ | ⟨m, hm, s', hc, -⟩
    · simp only [Instr.eps] at hs
      split at hs
      · rename_i hb
        cases List.mem_singleton.1 hs
        exact ⟨i, m, by omega, .bol i (atBOL_iff.1 hb), h⟩
      · cases hs
    · cases hc
  | eol =>
    intro n p i K c c' e hat h
    rcases h.inv (decode_eol hat) rfl (by simp) with ⟨m, hm, s', hs, h⟩ | ⟨m, hm, s', hc, -⟩
    · simp only [Instr.eps] at hs
      split at hs
      · rename_i hb
        cases List.mem_singleton.1 hs
        exact ⟨i, m, by omega, .eol i (atEOL_iff.1 hb), h⟩
      · cases hs
    · cases hc
  | cls neg text rs hne hr hb =>
    intro n p i K c c' e hat h
    refine h.one (q := p + _) (decode_cls hat hb) rfl rfl (by simp) (fun s' hi hs => ?_)
    obtain ⟨⟨h1, h2⟩, h3⟩ := (consume_cls hne hr).1 hs
    exact ⟨by rw [h3, List.length_cons]; omega, .cls i neg text rs _ (chAt_nz hi h1) h1 h2⟩
  | prop br q =>
    intro n p i K c c' e hat h
    refine h.one (q := p + _) (decode_prop hat (by cases q <;> decide)) rfl rfl (by simp) (fun s' hi hs => ?_)
    obtain ⟨⟨h1, h2⟩, h3⟩ := consume_prop.1 hs
    exact ⟨h3, .prop i br q _ (chAt_nz hi h1) h1 h2⟩
  | seq a b x y _ _ iha ihb =>
    intro n p i K c c' e hat h
    obtain ⟨k, m, hm, h1, h⟩ := iha n p i K c c' e hat.left h
    obtain ⟨k', m', hm', h2, h⟩ := ihb m _ k K c c' e hat.right h
    refine ⟨k', m', by omega, .seq _ _ _ _ _ h1 h2, ?_⟩
    rwa [List.length_append, ← Nat.add_assoc]
  | alt a b x y o1 o2 _ _ e1 l1 e2 l2 iha ihb =>
    intro n p i K c c' e hat h
    obtain ⟨px, py, -, -, hend, d1, hx, d2, hy⟩ := alt_layout hlen e1 l1 e2 l2 hat
    rw [← hend]
    obtain ⟨m, hm, h | h⟩ := h.split d1
    · obtain ⟨k, m', hm', h1, h⟩ := ihb m _ i K c c' e hy h
      exact ⟨k, m', by omega, .altR _ _ _ _ h1, h⟩
    · obtain ⟨k, m', hm', h1, h⟩ := iha m _ i K c c' e hx h
      obtain ⟨m2, hm2, h⟩ := h.jump d2
      exact ⟨k, m2, by omega, .altL _ _ _ _ h1, h⟩
  | star a x o1 o2 _ e1 l1 e2 l2 iha =>
    intro n p i K c c' e hat h
    obtain ⟨px, pe, -, -, hend, d1, hx, d2⟩ := star_layout hlen e1 l1 e2 l2 hat
    rw [← hend]
    induction n using Nat.strongRecOn generalizing i with
    | _ n ihn =>
      obtain ⟨m, hm, h | h⟩ := h.split d1
      · exact ⟨i, m, by omega, .starNone _ _, h⟩
      · obtain ⟨k, m', hm', h1, h⟩ := iha m _ i K c c' e hx h
        obtain ⟨m2, hm2, h⟩ := h.jump d2
        obtain ⟨k', m3, hm3, h3, h⟩ := ihn m2 (by omega) k h
        exact ⟨k', m3, by omega, .starMore _ _ _ _ h1 h3, h⟩
  | plus a x o _ e1 l1 iha =>
    intro n p i K c c' e hat h
    obtain ⟨pe, -, hend, hx, d1⟩ := plus_layout hlen e1 l1 hat
    rw [← hend]
    induction n using Nat.strongRecOn generalizing i with
    | _ n ihn =>
      obtain ⟨k, m', hm', h1, h⟩ := iha n _ i K c c' e hx h
      obtain ⟨m, hm, h | h⟩ := h.split d1
      · obtain ⟨k', m3, hm3, h3, h⟩ := ihn m (by omega) k h
        exact ⟨k', m3, by omega, .plusMore _ _ _ _ h1 h3, h⟩
      · exact ⟨k, m, by omega, .plusOne _ _ _ h1, h⟩
  | opt a x o _ e1 l1 iha =>
    intro n p i K c c' e hat h
    obtain ⟨px, -, hend, d1, hx⟩ := opt_layout hlen e1 l1 hat
    rw [← hend]
    obtain ⟨m, hm, h | h⟩ := h.split d1
    · exact ⟨i, m, by omega, .optNone _ _, h⟩
    · obtain ⟨k, m', hm', h1, h⟩ := iha m _ i K c c' e hx h
      exact ⟨k, m', by omega, .optOne _ _ _ h1, h⟩
  | grp nc a x _ iha =>
    intro n p i K c c' e hat h
    obtain ⟨k, m, hm, h1, h⟩ := iha n p i K c c' e hat h
    exact ⟨k, m, hm, .grp _ _ _ _ h1, h⟩
  | repStar w a bs _ _ ih =>
    intro n p i K c c' e hat h
    obtain ⟨k, m, hm, h1, h⟩ := ih n p i K c c' e hat h
    exact ⟨k, m, hm, matches_star_rep w h1, h⟩
  | repOpt w a bs _ _ ih =>
    intro n p i K c c' e hat h
    obtain ⟨k, m, hm, h1, h⟩ := ih n p i K c c' e hat h
    exact ⟨k, m, hm, matches_opt_rep w h1, h⟩
  | repPlus w a bs _ _ ih =>
    intro n p i K c c' e hat h
    obtain ⟨k, m, hm, h1, h⟩ := ih n p i K c c' e hat h
    exact ⟨k, m, hm, matches_plus_rep w h1, h⟩
  | rep w mn mx a x o _ _ hmn hmx e1 l1 iha =>
    intro n p i K c c' e hat h
    obtain ⟨pe, -, hend, d1, hx, d2⟩ := rep_layout hlen hmn (fun m h => (hmx m h).2.2) e1 l1 hat
    rw [← hend]
    have key : ∀ (n i q : Nat), (∀ M, mx = some M → q ≤ M) → Run P t n i (p + 1) ((i, q) :: K) c c' e →
        ∃ N k m, m ≤ n ∧ Row t a N i k ∧ mn ≤ q + N ∧ (∀ M, mx = some M → q + N ≤ M) ∧ Run P t m k pe K c c' e := by
      intro n
      induction n using Nat.strongRecOn with
      | _ n ihn =>
        intro i q hqM h
        obtain ⟨k, m, hm, h1, h⟩ := iha n _ i _ c c' e hx h
        obtain ⟨m2, hm2, ⟨hloop, h⟩ | ⟨hmin, hmax, h⟩⟩ := h.atCount d2
        · obtain ⟨N, k', m3, hm3, hr, g1, g2, h⟩ := ihn m2 (by omega) k (q + 1) (by
            intro M hM
            have := hqM M hM
            have h5 := hmx M hM
            rw [hM] at hloop
            simp only [Option.getD_some, toShort] at hloop
            omega) h
          exact ⟨N + 1, k', m3, by omega, .cons h1 hr, by omega, fun M hM => by have := g2 M hM; omega, h⟩
        · have hM : ∀ M, mx = some M → q + 1 ≤ M := by
            intro M hM
            have h5 := hmx M hM
            have := hqM M hM
            rw [hM] at hmax
            simp only [Option.getD_some, toShort] at hmax
            omega
          by_cases hq : mn ≤ q + 1
          · exact ⟨1, k, m2, by omega, .cons h1 (.zero k), hq, hM, h⟩
          · have hik : i = k := hmin.resolve_left (by unfold toShort; omega)
            subst hik
            refine ⟨mn - q, i, m2, by omega, Row.same h1 _, by omega, fun M hM' => ?_, h⟩
            have := (hmx M hM').1
            omega
    obtain ⟨m, hm, h⟩ := h.atZero d1
    obtain ⟨N, k, m2, hm2, ⟨f, f0, fN, hf⟩, g1, g2, h⟩ := key m i 0 (fun _ _ => Nat.zero_le _) h
    refine ⟨k, m2, by omega, ?_, h⟩
    rw [← f0, ← fN]
    exact .rep N f w mn mx a hf (by omega) (fun M hM => by have := g2 M hM; omega)

/-! ### The matcher -/

/-- a thread at offset `i`: its counters are `K`, and what it can still reach can be reached from the beginning -/
structure KeptK (P : Prog) (t : List UCS4) (off s0 i : Nat) (th : Thr) (K : List (Nat × Nat)) : Prop where
  caps : ∃ cp bd, th.res.captures = some cp ∧ Holds cp bd ∧ bd.stack = K
  run : ∀ n c e, Run P t n i th.station K th.res.cap0 c e → ∃ m, Run P t m off s0 [] 0 c e

/-- A set of stations which threads do not leave -/
def ClosedK (P : Prog) (R : Nat → Prop) : Prop :=
  ∀ s, R s → ∃ i, P.decode s = .ok i ∧ (i.fine true = true ∨ ∃ n, i = .capStart 0 n) ∧
    ∀ n ∈ i.succs, R n

def Good (P : Prog) (t : List UCS4) (R : Nat → Prop) (off s0 i : Nat) (th : Thr) : Prop := R th.station ∧ ∃ K, KeptK P t off s0 i th K

theorem holds_stack {c : Caps} {b : Board} (h : Holds c b) {x : Nat × Nat} (ht : c.top = .ok x) : ∃ K, b.stack = x :: K := by
  unfold Caps.top at ht
  obtain ⟨_, hu, ht⟩ := hbind ht
  obtain ⟨o, ho, ht⟩ := hbind ht
  obtain ⟨n, hn, ht⟩ := hbind ht
  cases ht
  have hu : c.used > 0 := by
    by_cases hu' : c.used > 0
    · exact hu'
    · rw [decide_eq_false hu'] at hu; cases hu
  have hused := h.used
  cases hst : b.stack with
  | nil => rw [hst, List.length_nil] at hused; omega
  | cons y K =>
    obtain ⟨y1, y2⟩ := y
    rcases h.vals with ⟨-, h2, -⟩ | hF
    · rw [hst] at h2; cases h2
    · obtain ⟨h1, h2⟩ := hF.stack 0 (y1, y2) (by rw [hst]; rfl)
      have hl : b.stack.length = K.length + 1 := by rw [hst]; rfl
      have hb := h.base
      have ho' : c.at (c.base + c.used - 2) = .ok y1 := at_ok (by rw [← h1]; congr 1; omega)
      have hn' : c.at (c.base + c.used - 1) = .ok y2 := at_ok (by rw [← h2]; congr 1; omega)
      rw [ho] at ho'; rw [hn] at hn'
      cases ho'; cases hn'
      exact ⟨K, rfl⟩

section
variable {P : Prog} {t : List UCS4} {off s0 : Nat}

theorem KeptK.eps {i : Nat} {th : Thr} {K : List (Nat × Nat)} {s' : Nat} {ins : Instr} (h : KeptK P t off s0 i th K)
    (hd : P.decode th.station = .ok ins) (h0 : ∀ n, ins ≠ .capStart 0 n) (hs : s' ∈ ins.eps t i) : KeptK P t off s0 i ⟨s', th.res⟩ K :=
  ⟨h.caps, fun n c e hr => h.run (n + 1) c e (.eps n i _ s' K _ c e ins hd h0 hs hr)⟩

theorem KeptK.set {i s' : Nat} {th : Thr} {K : List (Nat × Nat)} {k : Int} {r : RVal} (h : KeptK P t off s0 i th K)
    (hd : P.decode th.station = .ok (.capStart k s')) (hk : 0 ≤ k) (hr : th.res.captureSet (k * 2) i = .ok r) : KeptK P t off s0 i ⟨s', r⟩ K := by
  obtain ⟨cp, bd, h1, h2, h3⟩ := h.caps
  by_cases hk0 : k = 0
  · subst hk0
    have hrv : r = { th.res with cap0 := i } := by
      have : (0 : Int) * 2 = 0 := rfl
      rw [this] at hr
      simpa [RVal.captureSet] using hr.symm
    subst hrv
    exact ⟨⟨cp, bd, h1, h2, h3⟩, fun n c e hrun => h.run (n + 1) c e (.start n i _ s' K _ c e hd hrun)⟩
  · have hc0 := captureSet_cap0 _ _ k _ (by omega) hr
    unfold RVal.captureSet at hr
    rw [if_neg (by omega), h1] at hr
    obtain ⟨c2, hc2, hr⟩ := hbind hr
    cases hr
    have hs := h2.captureSet (k * 2) i (by omega)
    simp only [Board.call] at hs
    rw [if_neg (by omega), if_neg (by omega)] at hs
    by_cases hl : k * 2 < 2 * (bd.groups : Int)
    · rw [if_pos hl] at hs
      obtain ⟨c3, hc3, hh⟩ := hs
      rw [hc2] at hc3; cases hc3
      refine ⟨⟨c2, _, rfl, hh, h3⟩, fun n c e hrun => h.run (n + 1) c e (.eps n i _ s' K _ c e _ hd (fun m he => ?_) (by simp [Instr.eps]) hrun)⟩
      cases he; exact hk0 rfl
    · rw [if_neg hl] at hs
      dsimp only at hs
      rw [hs] at hc2; cases hc2

theorem KeptK.zero {i s' : Nat} {th : Thr} {K : List (Nat × Nat)} {r : RVal} (h : KeptK P t off s0 i th K)
    (hd : P.decode th.station = .ok (.zero s')) (hr : th.res.pushZero i = .ok r) : KeptK P t off s0 i ⟨s', r⟩ ((i, 0) :: K) := by
  obtain ⟨cp, bd, h1, h2, h3⟩ := h.caps
  unfold RVal.pushZero at hr
  rw [h1] at hr
  obtain ⟨c2, hc2, hr⟩ := hbind hr
  cases hr
  have hs := h2.pushZero i
  simp only [Board.call] at hs
  by_cases hl : bd.stack.length < bd.room
  · rw [if_pos hl] at hs
    obtain ⟨c3, hc3, hh⟩ := hs
    rw [hc2] at hc3; cases hc3
    refine ⟨⟨c2, _, rfl, hh, ?_⟩, fun n c e hrun => h.run (n + 1) c e (.zero n i _ s' K _ c e hd hrun)⟩
    show (i, 0) :: bd.stack = _
    rw [h3]
  · rw [if_neg hl] at hs
    dsimp only at hs
    rw [hs] at hc2; cases hc2

theorem KeptK.count {i mn mx a q : Nat} {th : Thr} {K : List (Nat × Nat)} {prev : Nat × Nat} {inc : Nat × RVal} (h : KeptK P t off s0 i th K)
    (hd : P.decode th.station = .ok (.count mn mx a q)) (hp : th.res.top = .ok prev) (hi : th.res.incr i = .ok inc) :
    (∃ K', ((toShort inc.1 ≤ mx ∨ mx = 0) → KeptK P t off s0 i ⟨a, inc.2⟩ K')) ∧
    (∀ r, ((mn : Int) ≤ toShort inc.1 ∨ prev.1 = i) → (mx = 0 ∨ toShort inc.1 ≤ mx) → inc.2.pop = .ok r → ∃ K', KeptK P t off s0 i ⟨q, r⟩ K') := by
  obtain ⟨cp, bd, h1, h2, h3⟩ := h.caps
  unfold RVal.top at hp
  rw [h1] at hp
  obtain ⟨K1, hK1⟩ := holds_stack h2 hp
  obtain ⟨o, k⟩ := prev
  unfold RVal.incr at hi
  rw [h1] at hi
  obtain ⟨x, hx, hi⟩ := hbind hi
  cases hi
  have hs := h2.incr i
  simp only [Board.call, hK1] at hs
  obtain ⟨c3, hc3, hh⟩ := hs
  rw [hx] at hc3
  cases hc3
  rw [hK1] at h3
  subst h3
  refine ⟨⟨(i, k + 1) :: K1, fun hmx => ⟨⟨c3, _, rfl, hh, rfl⟩, fun n c e hrun => h.run (n + 1) c e (.loop n i _ mn mx a q o k K1 _ c e hd hmx hrun)⟩⟩, ?_⟩
  intro r hmn hmx hr
  unfold RVal.pop at hr
  obtain ⟨c4, hc4, hr⟩ := hbind hr
  cases hr
  have hs := hh.pop
  simp only [Board.call] at hs
  obtain ⟨c5, hc5, hh5⟩ := hs
  have hc4 : c3.pop = .ok c4 := hc4
  rw [hc4] at hc5; cases hc5
  exact ⟨K1, ⟨c4, _, rfl, hh5, rfl⟩, fun n c e hrun => h.run (n + 1) c e (.leave n i _ mn mx a q o k K1 _ c e hd hmn hmx hrun)⟩

theorem addthread_good {junk : Nat} {R : Nat → Prop} (hR : ClosedK P R) (i : Nat) :
    ∀ (fuel : Nat) (entry : Bool) (th : Thr) (shunts : List Nat) (maxDup : Nat) (ns out : List Thr), Good P t R off s0 i th →
      (∀ x ∈ ns, Good P t R off s0 i x) → addthread P t junk fuel entry th i shunts maxDup ns = .ok out →
      ∀ x ∈ out, Good P t R off s0 i x := by
  intro fuel
  induction fuel with
  | zero => intro entry th shunts maxDup ns out _ _ h; cases entry <;> cases h
  | succ fuel ih =>
    intro entry th shunts maxDup ns out hth hns h
    cases entry with
    | true =>
      rw [addthread] at h
      split at h
      · cases h; exact hns
      · obtain ⟨_, -, h⟩ := hbind h
        obtain ⟨d, -, h⟩ := hbind h
        split at h
        · cases h; exact hns
        · exact ih false th _ _ ns out hth hns h
    | false =>
      rw [addthread] at h
      obtain ⟨ins, hi, h⟩ := hbind h
      obtain ⟨hr, K, hk⟩ := hth
      obtain ⟨ins', hi', hf, hsu⟩ := hR _ hr
      rw [hi] at hi'; cases hi'
      have wait : (assert (decide (ns.length < P.maxStation)) >>= fun _ => .ok (ns ++ [th])) = .ok out → ∀ x ∈ out, Good P t R off s0 i x := by
        intro h
        obtain ⟨_, -, h⟩ := hbind h
        cases h
        intro x hx
        rcases List.mem_append.1 hx with hx | hx
        · exact hns x hx
        · cases List.mem_singleton.1 hx; exact ⟨hr, K, hk⟩
      cases ins with
      | bol n =>
        dsimp only at h
        split at h
        · rename_i hb
          exact ih false ⟨n, th.res⟩ _ _ ns out ⟨hsu n (by simp [Instr.succs]), K, hk.eps hi (by simp) (by rw [Instr.eps, show atBOL t i = true from hb]; simp)⟩ hns h
        · cases h; exact hns
      | eol n =>
        dsimp only at h
        split at h
        · rename_i hb
          exact ih false ⟨n, th.res⟩ _ _ ns out ⟨hsu n (by simp [Instr.succs]), K, hk.eps hi (by simp) (by rw [Instr.eps, show atEOL t i = true from hb]; simp)⟩ hns h
        · cases h; exact hns
      | jump a n => exact ih false ⟨a, th.res⟩ _ _ ns out ⟨hsu a (by simp [Instr.succs]), K, hk.eps hi (by simp) (by simp [Instr.eps])⟩ hns h
      | split a n =>
        obtain ⟨n1, h1, h⟩ := hbind h
        have g1 := ih true ⟨a, th.res⟩ _ _ ns n1 ⟨hsu a (by simp [Instr.succs]), K, hk.eps hi (by simp) (by simp [Instr.eps])⟩ hns h1
        exact ih true ⟨n, th.res⟩ _ _ n1 out ⟨hsu n (by simp [Instr.succs]), K, hk.eps hi (by simp) (by simp [Instr.eps])⟩ g1 h
      | capStart k n =>
        obtain ⟨r, hr1, h⟩ := hbind h
        have hk0 : 0 ≤ k := by
          rcases hf with hf | ⟨m, hf⟩
          · simp [Instr.fine, Instr.simple, Instr.counts] at hf; omega
          · cases hf; omega
        exact ih false ⟨n, r⟩ _ _ ns out ⟨hsu n (by simp [Instr.succs]), K, hk.set hi hk0 hr1⟩ hns h
      | capEnd k n =>
        obtain ⟨r, hr1, h⟩ := hbind h
        cases h; exact hns
      | zero n =>
        obtain ⟨r, hr1, h⟩ := hbind h
        exact ih false ⟨n, r⟩ _ _ ns out ⟨hsu n (by simp [Instr.succs]), _, hk.zero hi hr1⟩ hns h
      | count mn mx a n =>
        obtain ⟨prev, hp, h⟩ := hbind h
        obtain ⟨inc, hinc, h⟩ := hbind h
        obtain ⟨⟨K', hloop⟩, hleave⟩ := hk.count hi hp hinc
        have fin : ∀ n1, (∀ x ∈ n1, Good P t R off s0 i x) →
            (if ((decide (toShort inc.1 ≥ mn) || prev.1 == i) && (mx == 0 || decide (toShort inc.1 ≤ mx))) = true then
              inc.2.pop >>= fun cont => addthread P t junk fuel true ⟨n, cont⟩ i shunts mn n1 else .ok n1) = .ok out →
            ∀ x ∈ out, Good P t R off s0 i x := by
          intro n1 g1 h
          split at h
          · rename_i hc
            rw [Bool.and_eq_true, Bool.or_eq_true, Bool.or_eq_true, decide_eq_true_eq, decide_eq_true_eq, beq_iff_eq, beq_iff_eq] at hc
            obtain ⟨cont, hpop, h⟩ := hbind h
            obtain ⟨K2, hk2⟩ := hleave cont hc.1 hc.2 hpop
            exact ih true ⟨n, cont⟩ _ _ n1 out ⟨hsu n (by simp [Instr.succs]), K2, hk2⟩ g1 h
          · cases h; exact g1
        dsimp only at h
        split at h
        · rename_i hc
          rw [Bool.and_eq_true, Bool.or_eq_true, decide_eq_true_eq, beq_iff_eq] at hc
          obtain ⟨n1, h1, h⟩ := hbind h
          exact fin n1 (ih true ⟨a, inc.2⟩ _ _ ns n1 ⟨hsu a (by simp [Instr.succs]), K', hloop hc.1⟩ hns h1) h
        · obtain ⟨n1, h1, h⟩ := hbind h
          cases h1
          exact fin ns hns h
      | negLook a n => rcases hf with hf | ⟨m, hf⟩ <;> cases hf
      | char c n => exact wait h
      | prop x n => exact wait h
      | cls b x n => exact wait h
      | any n => exact wait h
      | accept n => exact wait h
      | start a b => rcases hf with hf | ⟨m, hf⟩ <;> cases hf
      | null a => rcases hf with hf | ⟨m, hf⟩ <;> cases hf
      | token => rcases hf with hf | ⟨m, hf⟩ <;> cases hf

/-- a result that was reported is the outcome of a run -/
def Real (P : Prog) (t : List UCS4) (off s0 : Nat) (r : RVal) : Prop := ∀ e, r.cap1 = some e → ∃ m, Run P t m off s0 [] 0 r.cap0 e

theorem cycle_good {junk fuel : Nat} {R : Nat → Prop} (hR : ClosedK P R) (i : Nat) (hi : i ≤ t.length) :
    ∀ (L ns : List Thr) (r : RVal) (out : List Thr × RVal), (∀ x ∈ L, Good P t R off s0 i x) → (∀ x ∈ ns, Good P t R off s0 (i + 1) x) →
      Real P t off s0 r → cycle P t (fun th off ns => addthread P t junk fuel true th off [] 0 ns) i L ns r = .ok out →
      (∀ x ∈ out.1, Good P t R off s0 (i + 1) x) ∧ Real P t off s0 out.2 := by
  intro L
  induction L with
  | nil => intro ns r out _ hns hr h; cases h; exact ⟨hns, hr⟩
  | cons th L ih =>
    intro ns r out hL hns hr h
    rw [cycle] at h
    obtain ⟨r1, h1, h⟩ := hbind h
    have hL' : ∀ x ∈ L, Good P t R off s0 i x := fun x hx => hL x (by simp [hx])
    obtain ⟨hrth, K, hk⟩ := hL th (by simp)
    have key : (∀ x ∈ r1.1, Good P t R off s0 (i + 1) x) ∧ Real P t off s0 r1.2 := by
      unfold stepThread at h1
      obtain ⟨ins, hd, h2⟩ := hbind h1
      clear h1
      obtain ⟨st, hc, h1⟩ := hbind h2
      clear h2
      cases st with
      | stops => cases h1; exact ⟨hns, hr⟩
      | accepts =>
        obtain ⟨n, rfl⟩ := consume_accepts hc
        dsimp only at h1
        split at h1
        · obtain ⟨r', hr', h1⟩ := hbind h1
          rw [captureSet_one _ _ _ hr'] at h1
          cases h1
          refine ⟨hns, fun e he => ?_⟩
          cases he
          exact hk.run 0 _ _ (.acc i _ n K _ hd hi)
        · cases h1; exact ⟨hns, hr⟩
      | goesOn n =>
        obtain ⟨ns', hadd, h1⟩ := hbind h1
        cases h1
        have hRn : R n := by
          obtain ⟨i', hi', -, hsu⟩ := hR _ hrth
          rw [hd] at hi'; cases hi'
          exact hsu n (consume_succ hc)
        refine ⟨addthread_good hR (i + 1) fuel true ⟨n, th.res⟩ [] 0 ns ns' ⟨hRn, K, hk.caps, fun m c e hrun => ?_⟩ hns hadd, hr⟩
        exact hk.run (m + 1) c e (.step m i _ n K _ c e ins hd hc hi hrun)
    exact ih r1.1 r1.2 out hL' key.1 key.2 h

theorem matchLoop_good {junk fuel : Nat} {R : Nat → Prop} (hR : ClosedK P R) :
    ∀ (n i : Nat) (L : List Thr) (r : RVal) (out : RVal × Nat), n = t.length + 1 - i → (∀ x ∈ L, Good P t R off s0 i x) → Real P t off s0 r →
      matchLoop P t (fun th off ns => addthread P t junk fuel true th off [] 0 ns) n i L r = .ok out → Real P t off s0 out.1 := by
  intro n
  induction n with
  | zero => intro i L r out _ _ hr h; cases h; exact hr
  | succ n ih =>
    intro i L r out hn hL hr h
    rw [matchLoop] at h
    split at h
    · cases h; exact hr
    · obtain ⟨r1, h1, h⟩ := hbind h
      obtain ⟨g1, g2⟩ := cycle_good hR i (by omega) L [] r r1 hL (by simp) hr h1
      exact ih (i + 1) r1.1 r1.2 out (by omega) g1 g2 h

theorem matchRun_good {junk fuel : Nat} {R : Nat → Prop} (hR : ClosedK P R) (h0 : R s0) (hc : P.maxCounter ≤ 127) (hg : 1 ≤ P.maxCapture)
    (out : RVal × Nat) (h : matchRun P t junk fuel s0 off = .ok out) : Real P t off s0 out.1 := by
  unfold matchRun matchFrom at h
  obtain ⟨cur, hcur, h⟩ := hbind h
  refine matchLoop_good hR _ off cur .fail out rfl ?_ (fun e he => by cases he) h
  refine addthread_good hR off fuel true _ [] 0 [] cur ⟨h0, [], ?_, fun n c e hr => ⟨n, hr⟩⟩ (by simp) hcur
  exact ⟨_, _, rfl, holds_new _ _ hc hg, rfl⟩
end

/-! ### Compiled expressions -/

theorem Compiled.closedK {r : Re} {P : Prog} (h : Compiled r P) : ∃ R, ClosedK P R ∧ R P.searchStation ∧ R P.startStation := by
  obtain ⟨bs, a, j, n, hc, hat, hS, d1, d2, d3, ga, gj⟩ := h.parts
  have hst := decode_capStart hat.left.left
  have hb : At P (P.startStation + 2) bs := hat.left.right
  have hacc : At P (P.startStation + 2 + bs.length) [opAccept] := by
    have := hat.right
    rwa [List.length_append, ← Nat.add_assoc] at this
  obtain ⟨S, hI⟩ := code_inner h.len hc _ hb
  have hs := hI.start
  obtain ⟨hI1, hI2, hI3⟩ := hI
  have hd := decode_accept hacc
  refine ⟨fun s => S s ∨ s = P.startStation + 2 + bs.length ∨ s = P.searchStation ∨ s = a ∨ s = j ∨ s = P.startStation, ?_,
    .inr (.inr (.inl rfl)), .inr (.inr (.inr (.inr (.inr rfl))))⟩
  rintro s (h | rfl | rfl | rfl | rfl | rfl)
  · obtain ⟨i, h1, h2, h3⟩ := hI3 s h
    refine ⟨i, h1, .inl h2, fun m hm => ?_⟩
    rcases h3 m hm with h | h
    · exact .inl h
    · exact .inr (.inl h)
  · exact ⟨_, hd, .inl rfl, by simp [Instr.succs]⟩
  · refine ⟨_, d1, .inl rfl, ?_⟩
    simp only [Instr.succs, List.mem_cons, List.not_mem_nil, or_false]
    rintro m (rfl | rfl)
    · exact .inr (.inr (.inr (.inr (.inr rfl))))
    · exact .inr (.inr (.inr (.inl rfl)))
  · refine ⟨_, d2, .inl rfl, ?_⟩
    simp only [Instr.succs, List.mem_cons, List.not_mem_nil, or_false]
    rintro m rfl
    exact .inr (.inr (.inr (.inr (.inl rfl))))
  · refine ⟨_, d3, .inl rfl, ?_⟩
    simp only [Instr.succs, List.mem_cons, List.not_mem_nil, or_false]
    rintro m rfl
    exact .inr (.inr (.inl rfl))
  · refine ⟨_, hst, .inr ⟨_, rfl⟩, ?_⟩
    simp only [Instr.succs, List.mem_cons, List.not_mem_nil, or_false]
    rintro m rfl
    rcases hs with h | h
    · exact .inl h
    · exact .inr (.inl h)

/-- a run from the start of the expression -/
theorem Compiled.run_start {r : Re} {P : Prog} (h : Compiled r P) {t : List UCS4} {n i c0 c e : Nat} (hr : Run P t n i P.startStation [] c0 c e) :
    c = i ∧ Matches t r i e ∧ e ≤ t.length := by
  obtain ⟨bs, a, j, _, hc, hat, hS, d1, d2, d3, ga, gj⟩ := h.parts
  have hb : At P (P.startStation + 2) bs := hat.left.right
  have hacc : At P (P.startStation + 2 + bs.length) [opAccept] := by
    have := hat.right
    rwa [List.length_append, ← Nat.add_assoc] at this
  obtain ⟨m, -, hr⟩ := hr.atStart (decode_capStart hat.left.left)
  obtain ⟨k, m, -, hm, hr⟩ := code_soundK h.len hc m _ i [] i c e hb hr
  obtain ⟨rfl, rfl, hk⟩ := hr.atAccept (decode_accept hacc)
  exact ⟨rfl, hm, hk⟩

theorem Compiled.run_search {r : Re} {P : Prog} (h : Compiled r P) {t : List UCS4} :
    ∀ {n i c0 c e : Nat}, Run P t n i P.searchStation [] c0 c e → i ≤ c ∧ NoNul t i c ∧ Matches t r c e ∧ e ≤ t.length := by
  obtain ⟨bs, a, j, q, hc, hat, hS, d1, d2, d3, ga, gj⟩ := h.parts
  intro n
  induction n using Nat.strongRecOn with
  | _ n ih =>
    intro i c0 c e hr
    obtain ⟨m, hm, hr | hr⟩ := hr.split d1
    · obtain ⟨rfl, h1, h2⟩ := h.run_start hr
      exact ⟨Nat.le_refl _, fun m h1 h2 => by omega, h1, h2⟩
    · rcases hr.inv d2 rfl (by simp) with ⟨m', hm', s', hs, -⟩ | ⟨m', hm', s', hcs, hi, hr⟩
      · cases hs
      · obtain ⟨h0, rfl⟩ := consume_any.1 hcs
        obtain ⟨m2, hm2, hr⟩ := hr.jump d3
        obtain ⟨g1, g2, g3⟩ := ih m2 (by omega) hr
        refine ⟨by omega, fun k hk1 hk2 => ?_, g3⟩
        by_cases hk : k = i
        · rw [hk]; exact h0
        · exact g2 k (by omega) hk2

theorem Compiled.matchAt_real {r : Re} {P : Prog} (h : Compiled r P) {t : List UCS4} {junk fuel off : Nat} {res : RVal} {e : Nat}
    (hm : P.matchAt junk fuel t off = .ok res) (he : res.cap1 = some e) : res.cap0 = off ∧ Matches t r off e ∧ e ≤ t.length := by
  unfold Prog.matchAt at hm
  obtain ⟨x, hrun, hx⟩ := hbind hm
  cases hx
  obtain ⟨R, hR, -, hs⟩ := h.closedK
  obtain ⟨m, hr⟩ := matchRun_good hR hs (by have := h.counters; omega) (by rw [h.captures]; omega) x hrun e he
  exact h.run_start hr

theorem Compiled.matchAfter_real {r : Re} {P : Prog} (h : Compiled r P) {t : List UCS4} {junk fuel off : Nat} {res : RVal} {e : Nat}
    (hm : P.matchAfter junk fuel t off = .ok res) (he : res.cap1 = some e) :
    off ≤ res.cap0 ∧ NoNul t off res.cap0 ∧ Matches t r res.cap0 e ∧ e ≤ t.length := by
  unfold Prog.matchAfter at hm
  obtain ⟨x, hrun, hx⟩ := hbind hm
  cases hx
  obtain ⟨R, hR, hs, -⟩ := h.closedK
  obtain ⟨m, hr⟩ := matchRun_good hR hs (by have := h.counters; omega) (by rw [h.captures]; omega) x hrun e he
  exact h.run_search hr

end Strpp.Rx
