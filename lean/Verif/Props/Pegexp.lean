import Verif.Proof.PegTop
/-!
C36-C41: Pegexp. Vocabulary: Verif/Spec/Pegexp.lean (positions, tidy patterns), Verif/Spec/PegSem.lean (parsing expressions and
their meaning). A pattern is `s ++ [0]`, a text `t ++ [0]`, with no other NUL in them. `atChar t k` is a source that has read the
first `k` characters of `t`; `(decodeAll t).length` is the number of characters. `Fault.fuel` is what a loop of the model that
does not end gives; the numbers of steps it has are those that the theorems below show to be enough.
-/
namespace Strpp.Pex
open Spec

/-! ### C36 -/

/-- Matching any pattern anywhere ends. -/
theorem C36_match_here_terminates (s t : List Byte) (hs : 0#8 ∉ s) (ht : 0#8 ∉ t) (k : Nat) (hk : k ≤ (decodeAll t).length) :
    Pegexp.matchHere (s ++ [0#8]) (t ++ [0#8]) (atChar t k) ≠ .error .fuel := by
  have h := here_ok s t hs ht (fun e => e ≠ .fuel) true (fun _ => Or.inr (by simp)) (Or.inr (by simp)) k hk
  rw [← srcAt_eq t k hk]
  intro hh
  rw [hh] at h
  exact h rfl

/-- So does searching for it. -/
theorem C36_match_terminates (s t : List Byte) (hs : 0#8 ∉ s) (ht : 0#8 ∉ t) (k : Nat) (hk : k ≤ (decodeAll t).length) :
    Pegexp.match (s ++ [0#8]) (t ++ [0#8]) (atChar t k) ≠ .error .fuel := by
  have hl := text_le t
  have h := match_ok s t hs ht (fun e => e ≠ .fuel) true (fun _ => Or.inr (by simp)) (Or.inr (by simp)) ((t ++ [0#8]).length + 1) k hk (by simp; omega)
  rw [← srcAt_eq t k hk]
  intro hh
  unfold Pegexp.match at hh
  rw [hh] at h
  exact h rfl

/-- So does skipping over an atom. -/
theorem C36_skip_terminates (s : List Byte) (hs : 0#8 ∉ s) (p : Nat) (hp : p < s.length) :
    skipAtom (s ++ [0#8]) (fun p => .ok (p + 1)) ((s ++ [0#8]).length + 1) p ≠ .error .fuel := by
  have h := skipAtom_good (F := fun e => e ≠ .fuel) (pr := true) hs (fun p => .ok (p + 1)) (fun q b hb hx hi => ⟨Nat.le_refl _, Or.inr (by simp)⟩) ((s ++ [0#8]).length + 1) p
    (Or.inr (by simp)) (Or.inl hp) (by simp) (by omega)
  intro hh
  rw [hh] at h
  exact h rfl

/-- `*(*())` on "a", `(*a)` repeated: operands that match nothing -/
example : (Pegexp.matchHere ([0x2A#8, 0x28#8, 0x2A#8, 0x28#8, 0x29#8, 0x29#8] ++ [0#8]) ([0x61#8] ++ [0#8]) (atChar [0x61#8] 0)).isOk = true := by decide +kernel
example : (Pegexp.match ([0x2A#8, 0x28#8, 0x2A#8, 0x62#8, 0x29#8, 0x63#8] ++ [0#8]) ([0x61#8, 0x63#8] ++ [0#8]) (atChar [0x61#8, 0x63#8] 0)).isOk = true := by decide +kernel

/-! ### C37 -/

/-- Matching at a position fails, leaving the source where it was, or succeeds and moves it forward to the end of the match. -/
theorem C37_match_here (s t : List Byte) (hs : 0#8 ∉ s) (ht : 0#8 ∉ t) (k : Nat) (hk : k ≤ (decodeAll t).length) (m : Match) (src : Src)
    (h : Pegexp.matchHere (s ++ [0#8]) (t ++ [0#8]) (atChar t k) = .ok (m, src)) :
    (m.isFailure (s ++ [0#8]) = .ok true ∧ src = atChar t k) ∨
    (m.isFailure (s ++ [0#8]) = .ok false ∧ m.frm.src = atChar t k ∧ m.to.src = src ∧ ∃ k', k ≤ k' ∧ k' ≤ (decodeAll t).length ∧ src = atChar t k') := by
  have h' := here_ok s t hs ht (fun _ => True) true (fun _ => Or.inr trivial) (Or.inr trivial) k hk
  rw [← srcAt_eq t k hk] at h ⊢
  rw [h] at h'
  rcases h'.cases with ⟨h1, h2, k', h3, h4, h5, h6⟩ | ⟨h1, h2, -⟩
  · right
    rw [h5, h6, h2]
    exact ⟨h1, rfl, rfl, k', h3, h4, srcAt_eq t k' h4⟩
  · exact Or.inl ⟨h1, h2⟩

/-- Inside of a pattern: when matching one item of it fails, what follows starts from the same source; when it succeeds, the source
is the same or further on. -/
theorem C37_atom (s t : List Byte) (hs : 0#8 ∉ s) (ht : 0#8 ∉ t) (k : Nat) (hk : k ≤ (decodeAll t).length) (p n : Nat) (hn : s.length + 2 ≤ p + n) (h1 : 1 ≤ n)
    (cx cx' : Cx Unit) (b : Bool) (st : St)
    (h : matchAtom (s ++ [0#8]) (t ++ [0#8]) (defaultHooks (s ++ [0#8]) (t ++ [0#8])) n ⟨p, atChar t k⟩ cx = .ok (b, st, cx')) :
    if b then ∃ k', k ≤ k' ∧ k' ≤ (decodeAll t).length ∧ st.src = atChar t k' else st.src = atChar t k := by
  have h' := matchAtom_ok hs ht (default_hok s t ht (fun _ => True) true) (fun _ => Or.inr trivial) n ⟨p, srcAt t k⟩ cx hn h1 (Or.inr trivial) ⟨k, Nat.zero_le _, hk, rfl⟩ trivial
  rw [← srcAt_eq t k hk] at h ⊢
  rw [h] at h'
  obtain ⟨-, h'⟩ := h'
  cases b with
  | true =>
    obtain ⟨i, j, -, h2, h3, h4, h5⟩ := h'.src
    have hik : i = k := (srcAt_inj t ht (by omega) hk).mp (by rw [← h4])
    subst hik
    exact ⟨j, h2, h3, h5.trans (srcAt_eq t j h3)⟩
  | false => exact h'.src

/-- `&` and `!` never consume anything. -/
theorem C37_lookahead {σ : Type} (H : Hooks σ) (s t : List Byte) (p n : Nat) (src : Src) (cx cx' : Cx σ) (b : Bool) (st : St)
    (hp : s[p]? = some 0x26#8 ∨ s[p]? = some 0x21#8)
    (h : matchAtom (s ++ [0#8]) (t ++ [0#8]) H n ⟨p, src⟩ cx = .ok (b, st, cx')) : st.src = src := by
  have hlt : p < s.length := by rcases hp with h | h <;> exact (List.getElem?_eq_some_iff.mp h).1
  cases n with
  | zero => cases h
  | succ n =>
    unfold matchAtom atomStep at h
    obtain ⟨rc, h1, h2⟩ := hbind h
    have hrc : rc = 0x26#8 ∨ rc = 0x21#8 := by
      have hg := rd_eq_ok.mp h1
      rw [List.getElem?_append_left hlt] at hg
      rcases hp with h | h
      · rw [h] at hg; exact Or.inl (Option.some.inj hg).symm
      · rw [h] at hg; exact Or.inr (Option.some.inj hg).symm
    obtain ⟨r, h3, h4⟩ := hbind h2
    have hr : r.2.1.src = src ∧ r.2.2.1.src = src := by
      have hb : atomBody (s ++ [0#8]) (t ++ [0#8]) H (matchAtom (s ++ [0#8]) (t ++ [0#8]) H n) (skipAtom (s ++ [0#8]) H.skipExt ((s ++ [0#8]).length + 1)) rc ⟨p, src⟩ cx = (do
          let r ← matchAtom (s ++ [0#8]) (t ++ [0#8]) H n ⟨p + 1, src⟩ { cx with disabled := cx.disabled + 1 }
          let matched := if rc == 0x21#8 then !r.1 else r.1
          let cx := { r.2.2 with disabled := r.2.2.disabled - 1 }
          if matched then do
            let q ← skipAtom (s ++ [0#8]) H.skipExt ((s ++ [0#8]).length + 1) p
            .ok (true, ⟨q, src⟩, ⟨p, src⟩, cx)
          else .ok (false, ⟨p, src⟩, ⟨p, src⟩, cx)) := by
        rcases hrc with rfl | rfl
        · unfold atomBody
          iterate 10 rw [if_neg (by decide)]
          rw [if_pos (by decide)]
        · unfold atomBody
          iterate 10 rw [if_neg (by decide)]
          rw [if_pos (by decide)]
      rw [hb] at h3
      obtain ⟨q, -, h5⟩ := hbind h3
      simp only at h5
      generalize (if rc == 0x21#8 then !q.1 else q.1) = m at h5
      cases m with
      | true =>
        obtain ⟨q', -, h6⟩ := hbind h5
        cases h6
        exact ⟨rfl, rfl⟩
      | false => cases h5; exact ⟨rfl, rfl⟩
    cases hm : r.1 with
    | true =>
      rw [hm, if_pos rfl] at h4
      unfold passAtom at h4
      obtain ⟨l, -, h5⟩ := hbind h4
      simp only at h5
      split at h5
      · split at h5
        · obtain ⟨d, -, h6⟩ := hbind h5
          cases h6
          exact hr.1
        · cases h5; exact hr.1
      · cases h5; exact hr.1
    | false =>
      rw [hm, if_neg (by decide)] at h4
      unfold failAtom at h4
      simp only at h4
      split at h4
      · cases h4; exact hr.2
      · obtain ⟨d, -, h6⟩ := hbind h4
        cases h6
        exact hr.2

/-- Searching is different: when it fails, the source is left at the end. -/
theorem C37_search (s t : List Byte) (hs : 0#8 ∉ s) (ht : 0#8 ∉ t) (k : Nat) (hk : k ≤ (decodeAll t).length) (m : Match) (src : Src)
    (h : Pegexp.match (s ++ [0#8]) (t ++ [0#8]) (atChar t k) = .ok (m, src)) :
    (m.isFailure (s ++ [0#8]) = .ok true ∧ src = atChar t (decodeAll t).length) ∨
    (m.isFailure (s ++ [0#8]) = .ok false ∧ src = m.frm.src ∧ ∃ j k', k ≤ j ∧ j ≤ k' ∧ k' ≤ (decodeAll t).length ∧ src = atChar t j ∧ m.to.src = atChar t k') := by
  have hl := text_le t
  have h' := match_ok s t hs ht (fun _ => True) true (fun _ => Or.inr trivial) (Or.inr trivial) ((t ++ [0#8]).length + 1) k hk (by simp; omega)
  rw [← srcAt_eq t k hk] at h
  unfold Pegexp.match at h
  rw [h] at h'
  obtain ⟨j, j1, j2, j3, j4, j5⟩ := h'
  rcases j5 with ⟨h1, sj, h2⟩ | ⟨h1, h2, -⟩
  · right
    have hh := here_ok s t hs ht (fun _ => True) true (fun _ => Or.inr trivial) (Or.inr trivial) j j2
    rw [h2] at hh
    rcases hh.cases with ⟨g1, g2, k', g3, g4, g5, g6⟩ | ⟨g1, -⟩
    · exact ⟨h1, by rw [j3, g2], j, k', j1, g3, g4, j3.trans (srcAt_eq t j j2), by rw [g5, ← srcAt_eq t k' g4]⟩
    · rw [h1] at g1; cases g1
  · left
    subst h2
    exact ⟨h1, j3.trans (srcAt_eq t _ j2)⟩

example : Pegexp.match ([0x7A#8] ++ [0#8]) ([0x61#8, 0x62#8] ++ [0#8]) (atChar [0x61#8, 0x62#8] 0) = .ok (⟨⟨0, atChar [0x61#8, 0x62#8] 2⟩, ⟨0, atChar [0x61#8, 0x62#8] 2⟩⟩, atChar [0x61#8, 0x62#8] 2) := by
  decide +kernel

/-! ### C38 -/

/-- Pegexp itself has no calls of rules. -/
abbrev NoCalls : List Byte → Nat → Option Nat → Prop := fun _ _ _ => False

theorem atChar_inj {t : List Byte} (ht : 0#8 ∉ t) {i j : Nat} (hi : i ≤ (decodeAll t).length) (hj : j ≤ (decodeAll t).length) (h : atChar t i = atChar t j) : i = j := by
  rw [← srcAt_eq t i hi, ← srcAt_eq t j hj] at h
  exact (srcAt_inj t ht hi hj).mp (by rw [h])

section
variable (e : Expr) (hw : e.wf (fun _ => false) false .body) (t : List Byte) (ht : 0#8 ∉ t) (hp : e.noProps = true ∨ ∀ c ∈ decodeAll t, InCtype c)
include hw

/-- An expression has exactly one result at each position. -/
theorem C38_one_result_partial (k : Nat) (hk : k ≤ (decodeAll t).length) : ∃ r, Sem NoCalls (decodeAll t) e k r ∧ ∀ r', Sem NoCalls (decodeAll t) e k r' → r' = r := by
  obtain ⟨r, hr⟩ := sem_total (C := NoCalls) (t := t) (fun _ _ _ h => by cases h) e (Or.inl (wf_callFree e .body hw)) k hk
  exact ⟨r, hr, fun r' h' => (sem_det (fun _ _ _ _ h => by cases h) hr r' h').symm⟩

include ht hp

/-- An expression that is written as the syntax wants matches from `k` to `k'` just when its meaning says so. -/
theorem C38_matches_partial (k : Nat) (hk : k ≤ (decodeAll t).length) (k' : Nat) (hk' : k' ≤ (decodeAll t).length) :
    Sem NoCalls (decodeAll t) e k (some k') ↔
      ∃ m, Pegexp.matchHere (e.bytes ++ [0#8]) (t ++ [0#8]) (atChar t k) = .ok (m, atChar t k') ∧ m.isFailure (e.bytes ++ [0#8]) = .ok false ∧ m.frm.src = atChar t k ∧ m.to.src = atChar t k' := by
  have hC : ∀ n k k', NoCalls n k (some k') → k ≤ (decodeAll t).length → k ≤ k' ∧ k' ≤ (decodeAll t).length := fun _ _ _ h => by cases h
  rw [← srcAt_eq t k hk, ← srcAt_eq t k' hk']
  have hs := wf_nul e .body hw
  constructor
  · intro h
    obtain ⟨m, src', h1, h2, h3, h4, h5⟩ := here_eval e t NoCalls hC hs ht hw hp k _ h hk
    subst h5
    exact ⟨m, h1, h2, by rw [h3], by rw [h4]⟩
  · rintro ⟨m, h1, h2, -, h4⟩
    obtain ⟨r, hr⟩ := sem_total hC e (Or.inl (wf_callFree e .body hw)) k hk
    obtain ⟨m', src', g1, g2⟩ := here_eval e t NoCalls hC hs ht hw hp k _ hr hk
    rw [g1] at h1
    cases h1
    cases r with
    | none => rw [g2.1] at h2; cases h2
    | some k1 =>
      have hle := sem_le hC hr hk _ rfl
      have := g2.2.2.2
      rw [(srcAt_inj t ht hk' hle.2).mp (by rw [this])]
      exact hr

/-- It fails at `k` just when its meaning says so. -/
theorem C38_fails_partial (k : Nat) (hk : k ≤ (decodeAll t).length) :
    Sem NoCalls (decodeAll t) e k none ↔
      ∃ m, Pegexp.matchHere (e.bytes ++ [0#8]) (t ++ [0#8]) (atChar t k) = .ok (m, atChar t k) ∧ m.isFailure (e.bytes ++ [0#8]) = .ok true := by
  have hC : ∀ n k k', NoCalls n k (some k') → k ≤ (decodeAll t).length → k ≤ k' ∧ k' ≤ (decodeAll t).length := fun _ _ _ h => by cases h
  rw [← srcAt_eq t k hk]
  have hs := wf_nul e .body hw
  constructor
  · intro h
    obtain ⟨m, src', h1, h2, h3⟩ := here_eval e t NoCalls hC hs ht hw hp k _ h hk
    subst h3
    exact ⟨m, h1, h2⟩
  · rintro ⟨m, h1, h2⟩
    obtain ⟨r, hr⟩ := sem_total hC e (Or.inl (wf_callFree e .body hw)) k hk
    obtain ⟨m', src', g1, g2⟩ := here_eval e t NoCalls hC hs ht hw hp k _ hr hk
    rw [g1] at h1
    cases h1
    cases r with
    | none => exact hr
    | some k1 => rw [g2.1] at h2; cases h2

end

/-! What is needed is more than being a parsing expression: -/

/-- `?+ab` should match "b", as `+a` may be left out. It fails: only the `+` is skipped, and not its operand. -/
theorem C38_refuted_opt_plus :
    Sem NoCalls (decodeAll [0x62#8]) (.seq (.opt (.plus (.one (.lit (.plain 0x61#8))))) (.seq (.one (.lit (.plain 0x62#8))) .empty)) 0 (some 1) ∧
    (Expr.bytes (.seq (.opt (.plus (.one (.lit (.plain 0x61#8))))) (.seq (.one (.lit (.plain 0x62#8))) .empty))) = [0x3F#8, 0x2B#8, 0x61#8, 0x62#8] ∧
    (do let r ← Pegexp.matchHere ([0x3F#8, 0x2B#8, 0x61#8, 0x62#8] ++ [0#8]) ([0x62#8] ++ [0#8]) (atChar [0x62#8] 0); r.1.isFailure ([0x3F#8, 0x2B#8, 0x61#8, 0x62#8] ++ [0#8])) = .ok true := by
  refine ⟨?_, by decide, by decide +kernel⟩
  have hd : decodeAll [0x62#8] = [0x62#32] := by decide +kernel
  rw [hd]
  refine .seq_yes (k' := 0) (.opt_no (.plus_no (.one_no ?_))) (.seq_yes (k' := 1) (.one_yes rfl (by decide)) .empty)
  intro c hc
  cases hc
  decide

/-- `&*ab` should match "b". It fails: `&` skips only the `*`. -/
theorem C38_refuted_and_star :
    Sem NoCalls (decodeAll [0x62#8]) (.seq (.and (.star (.one (.lit (.plain 0x61#8))))) (.seq (.one (.lit (.plain 0x62#8))) .empty)) 0 (some 1) ∧
    (Expr.bytes (.seq (.and (.star (.one (.lit (.plain 0x61#8))))) (.seq (.one (.lit (.plain 0x62#8))) .empty))) = [0x26#8, 0x2A#8, 0x61#8, 0x62#8] ∧
    (do let r ← Pegexp.matchHere ([0x26#8, 0x2A#8, 0x61#8, 0x62#8] ++ [0#8]) ([0x62#8] ++ [0#8]) (atChar [0x62#8] 0); r.1.isFailure ([0x26#8, 0x2A#8, 0x61#8, 0x62#8] ++ [0#8])) = .ok true := by
  refine ⟨?_, by decide, by decide +kernel⟩
  have hd : decodeAll [0x62#8] = [0x62#32] := by decide +kernel
  rw [hd]
  refine .seq_yes (k' := 0) (.and_yes (k' := 0) (.star_end (.one_no ?_))) (.seq_yes (k' := 1) (.one_yes rfl (by decide)) .empty)
  intro c hc
  cases hc
  decide

/-- `*(|a|)b` should match "b". It fails: an empty alternate takes the closing parenthesis, and what follows it, for its own. -/
theorem C38_refuted_empty_alternate :
    Sem NoCalls (decodeAll [0x62#8]) (.seq (.star (.grp (.alt (.seq (.one (.lit (.plain 0x61#8))) .empty) (.bar .empty)))) (.seq (.one (.lit (.plain 0x62#8))) .empty)) 0 (some 1) ∧
    (Expr.bytes (.seq (.star (.grp (.alt (.seq (.one (.lit (.plain 0x61#8))) .empty) (.bar .empty)))) (.seq (.one (.lit (.plain 0x62#8))) .empty))) = [0x2A#8, 0x28#8, 0x7C#8, 0x61#8, 0x7C#8, 0x29#8, 0x62#8] ∧
    (do let r ← Pegexp.matchHere ([0x2A#8, 0x28#8, 0x7C#8, 0x61#8, 0x7C#8, 0x29#8, 0x62#8] ++ [0#8]) ([0x62#8] ++ [0#8]) (atChar [0x62#8] 0); r.1.isFailure ([0x2A#8, 0x28#8, 0x7C#8, 0x61#8, 0x7C#8, 0x29#8, 0x62#8] ++ [0#8])) = .ok true := by
  refine ⟨?_, by decide, by decide +kernel⟩
  have hd : decodeAll [0x62#8] = [0x62#32] := by decide +kernel
  rw [hd]
  refine .seq_yes (k' := 0) (.star_stay (.grp (.alt_next (.seq_no (.one_no ?_)) (.bar .empty)))) (.seq_yes (k' := 1) (.one_yes rfl (by decide)) .empty)
  intro c hc
  cases hc
  decide

/-- `?|a|bc` should match anywhere, being optional. At the end of the text it fails: skipping starts at the last alternate. -/
theorem C38_refuted_optional_alternates :
    Sem NoCalls (decodeAll [0x64#8]) (.opt (.alt (.seq (.one (.lit (.plain 0x61#8))) .empty) (.bar (.seq (.one (.lit (.plain 0x62#8))) (.seq (.one (.lit (.plain 0x63#8))) .empty))))) 1 (some 1) ∧
    (Expr.bytes (.opt (.alt (.seq (.one (.lit (.plain 0x61#8))) .empty) (.bar (.seq (.one (.lit (.plain 0x62#8))) (.seq (.one (.lit (.plain 0x63#8))) .empty)))))) = [0x3F#8, 0x7C#8, 0x61#8, 0x7C#8, 0x62#8, 0x63#8] ∧
    (do let r ← Pegexp.matchHere ([0x3F#8, 0x7C#8, 0x61#8, 0x7C#8, 0x62#8, 0x63#8] ++ [0#8]) ([0x64#8] ++ [0#8]) (atChar [0x64#8] 1); r.1.isFailure ([0x3F#8, 0x7C#8, 0x61#8, 0x7C#8, 0x62#8, 0x63#8] ++ [0#8])) = .ok true := by
  refine ⟨?_, by decide, by decide +kernel⟩
  have hd : decodeAll [0x64#8] = [0x64#32] := by decide +kernel
  rw [hd]
  refine .opt_no (.alt_next (.seq_no (.one_no ?_)) (.bar (.seq_no (.one_no ?_))))
  · intro c hc; cases hc
  · intro c hc; cases hc

/-- The pattern's bytes are taken one by one, and as signed: none from 0x80 up ever matches. `é` (in UTF-8) does not match itself. -/
theorem C38_refuted_high_byte :
    (do let r ← Pegexp.matchHere ([0xC3#8, 0xA9#8] ++ [0#8]) ([0xC3#8, 0xA9#8] ++ [0#8]) (atChar [0xC3#8, 0xA9#8] 0); r.1.isFailure ([0xC3#8, 0xA9#8] ++ [0#8])) = .ok true := by
  decide +kernel

/-- `[\n-\r]` is not a range: it does not match a vertical tab. -/
theorem C38_refuted_escaped_range :
    (do let r ← Pegexp.matchHere ([0x5B#8, 0x5C#8, 0x6E#8, 0x2D#8, 0x5C#8, 0x72#8, 0x5D#8] ++ [0#8]) ([0x0B#8] ++ [0#8]) (atChar [0x0B#8] 0)
        r.1.isFailure ([0x5B#8, 0x5C#8, 0x6E#8, 0x2D#8, 0x5C#8, 0x72#8, 0x5D#8] ++ [0#8])) = .ok true := by
  decide +kernel

/-- A property escape hands any character to <cctype>, whose functions accept only those up to 255: `\a` on U+0100. -/
theorem C38_refuted_wide_property : Pegexp.matchHere ([0x5C#8, 0x61#8] ++ [0#8]) ([0xC4#8, 0x80#8] ++ [0#8]) (atChar [0xC4#8, 0x80#8] 0) = .error .ub := by
  decide +kernel

/-- `*(|[^x-z\d]|\x41?b:n:)` -/
def exampleExpr : Expr :=
  .seq (.star (.grp (.alt (.seq (.one (.cls true [.range (.plain 0x78#8) (.plain 0x7A#8), .prop 0x64#8])) .empty)
    (.bar (.seq (.one (.lit (.hex false 0x34#8 0x31#8))) (.seq (.opt (.label (.one (.lit (.plain 0x62#8))) [0x6E#8])) .empty)))))) .empty

/-- it is written as the syntax wants, and so satisfies what the theorems above ask for -/
example : exampleExpr.wf (fun _ => false) false .body := by
  refine ⟨⟨⟨by simp, ⟨?_, trivial⟩, rfl, by simp, ?_, ⟨⟨⟨by decide, by decide⟩, rfl, by decide⟩, rfl⟩, trivial⟩, rfl⟩, trivial⟩
  · intro i hi
    simp only [List.mem_cons, List.not_mem_nil, or_false] at hi
    rcases hi with rfl | rfl
    · exact ⟨⟨by decide, by decide⟩, ⟨by decide, by decide⟩, trivial⟩
    · exact (by decide : isPropLetter 0x64#8 = true)
  · exact ⟨by decide, by decide⟩

example : exampleExpr.bytes = [0x2A#8, 0x28#8, 0x7C#8, 0x5B#8, 0x5E#8, 0x78#8, 0x2D#8, 0x7A#8, 0x5C#8, 0x64#8, 0x5D#8, 0x7C#8, 0x5C#8, 0x78#8, 0x34#8, 0x31#8, 0x3F#8, 0x62#8, 0x3A#8, 0x6E#8, 0x3A#8, 0x29#8] := by
  decide

/-! ### C39 -/

/-- Searching finds the first position where the pattern matches, and fails if there is none; the Match says which. For every
pattern. -/
theorem C39_first (s t : List Byte) (hs : 0#8 ∉ s) (ht : 0#8 ∉ t) (k : Nat) (hk : k ≤ (decodeAll t).length) (m : Match) (src : Src)
    (h : Pegexp.match (s ++ [0#8]) (t ++ [0#8]) (atChar t k) = .ok (m, src)) :
    (m.isFailure (s ++ [0#8]) = .ok false ∧ ∃ j, k ≤ j ∧ j ≤ (decodeAll t).length ∧ (∃ src', Pegexp.matchHere (s ++ [0#8]) (t ++ [0#8]) (atChar t j) = .ok (m, src')) ∧
      ∀ i, k ≤ i → i < j → ∃ mi si, Pegexp.matchHere (s ++ [0#8]) (t ++ [0#8]) (atChar t i) = .ok (mi, si) ∧ mi.isFailure (s ++ [0#8]) = .ok true) ∨
    (m.isFailure (s ++ [0#8]) = .ok true ∧
      ∀ i, k ≤ i → i ≤ (decodeAll t).length → ∃ mi si, Pegexp.matchHere (s ++ [0#8]) (t ++ [0#8]) (atChar t i) = .ok (mi, si) ∧ mi.isFailure (s ++ [0#8]) = .ok true) := by
  have hl := text_le t
  have h' := match_ok s t hs ht (fun _ => True) true (fun _ => Or.inr trivial) (Or.inr trivial) ((t ++ [0#8]).length + 1) k hk (by simp; omega)
  rw [← srcAt_eq t k hk] at h
  unfold Pegexp.match at h
  rw [h] at h'
  obtain ⟨j, j1, j2, j3, j4, j5⟩ := h'
  rcases j5 with ⟨h1, sj, h2⟩ | ⟨h1, h2, h3⟩
  · left
    rw [srcAt_eq t j j2] at h2
    refine ⟨h1, j, j1, j2, ⟨sj, h2⟩, ?_⟩
    intro i i1 i2
    rw [← srcAt_eq t i (by omega)]
    exact j4 i i1 i2
  · right
    refine ⟨h1, ?_⟩
    intro i i1 i2
    rw [← srcAt_eq t i i2]
    by_cases hij : i = j
    · rw [hij]; exact h3
    · exact j4 i i1 (by omega)

/-- For a pattern that does not over-run (C40), it always says so. -/
theorem C39_total (s t : List Byte) (hs : 0#8 ∉ s) (ht : 0#8 ∉ t) (htidy : tidy false s = true) (k : Nat) (hk : k ≤ (decodeAll t).length) :
    ∃ m src, Pegexp.match (s ++ [0#8]) (t ++ [0#8]) (atChar t k) = .ok (m, src) := by
  have hl := text_le t
  have h := match_ok s t hs ht (fun _ => False) false (fun h => by cases h) (Or.inl ⟨Nat.zero_le _, by simpa using htidy⟩) ((t ++ [0#8]).length + 1) k hk (by simp; omega)
  rw [← srcAt_eq t k hk]
  revert h
  unfold Pegexp.match
  cases Pegexp.matchLoop (s ++ [0#8]) (t ++ [0#8]) ((t ++ [0#8]).length + 1) (srcAt t k) with
  | error e => exact fun h => h.elim
  | ok r => exact fun _ => ⟨r.1, r.2, rfl⟩

/-- In terms of the meaning of expressions: the Match is from the first place where `e` matches, to where it then ends. -/
theorem C39_expressions (e : Expr) (hw : e.wf (fun _ => false) false .body) (t : List Byte) (ht : 0#8 ∉ t) (hp : e.noProps = true ∨ ∀ c ∈ decodeAll t, InCtype c)
    (k : Nat) (hk : k ≤ (decodeAll t).length) (m : Match) (src : Src) (h : Pegexp.match (e.bytes ++ [0#8]) (t ++ [0#8]) (atChar t k) = .ok (m, src)) :
    (∃ j k', k ≤ j ∧ j ≤ k' ∧ k' ≤ (decodeAll t).length ∧ m.isFailure (e.bytes ++ [0#8]) = .ok false ∧ m.frm.src = atChar t j ∧ m.to.src = atChar t k' ∧
      Sem NoCalls (decodeAll t) e j (some k') ∧ ∀ i, k ≤ i → i < j → Sem NoCalls (decodeAll t) e i none) ∨
    (m.isFailure (e.bytes ++ [0#8]) = .ok true ∧ ∀ i, k ≤ i → i ≤ (decodeAll t).length → Sem NoCalls (decodeAll t) e i none) := by
  have hs := wf_nul e .body hw
  have hfail : ∀ i, i ≤ (decodeAll t).length → (∃ mi si, Pegexp.matchHere (e.bytes ++ [0#8]) (t ++ [0#8]) (atChar t i) = .ok (mi, si) ∧ mi.isFailure (e.bytes ++ [0#8]) = .ok true) →
      Sem NoCalls (decodeAll t) e i none := by
    rintro i hi ⟨mi, si, h1, h2⟩
    refine (C38_fails_partial e hw t ht hp i hi).mpr ⟨mi, ?_, h2⟩
    rcases C37_match_here e.bytes t hs ht i hi mi si h1 with ⟨-, h3⟩ | ⟨h3, -⟩
    · rw [h1, h3]
    · rw [h2] at h3; cases h3
  rcases C39_first e.bytes t hs ht k hk m src h with ⟨h1, j, j1, j2, ⟨src', j3⟩, j4⟩ | ⟨h1, h2⟩
  · left
    rcases C37_match_here e.bytes t hs ht j j2 m src' j3 with ⟨h3, -⟩ | ⟨-, h4, h5, k', h6, h7, h8⟩
    · rw [h1] at h3; cases h3
    · subst h8
      exact ⟨j, k', j1, h6, h7, h1, h4, h5, (C38_matches_partial e hw t ht hp j j2 k' h7).mpr ⟨m, j3, h1, h4, h5⟩, fun i i1 i2 => hfail i (by omega) (j4 i i1 i2)⟩
  · exact Or.inr ⟨h1, fun i i1 i2 => hfail i i2 (h2 i i1 i2)⟩

/-- "b+" in "aabba" -/
example : (do let r ← Pegexp.match ([0x2B#8, 0x62#8] ++ [0#8]) ([0x61#8, 0x61#8, 0x62#8, 0x62#8, 0x61#8] ++ [0#8]) Src.start; .ok (r.1.frm.src.pos, r.1.to.src.pos)) = (.ok (2, 4) : Res (Nat × Nat)) := by
  decide +kernel

/-! ### C40 -/

/-- A tidy pattern (Verif/Spec/Pegexp.lean) is never over-run; nothing else goes wrong either. -/
theorem C40_tidy_partial (s t : List Byte) (hs : 0#8 ∉ s) (ht : 0#8 ∉ t) (htidy : tidy false s = true) (k : Nat) (hk : k ≤ (decodeAll t).length) :
    (∃ r, Pegexp.matchHere (s ++ [0#8]) (t ++ [0#8]) (atChar t k) = .ok r) ∧ ∃ r, Pegexp.match (s ++ [0#8]) (t ++ [0#8]) (atChar t k) = .ok r := by
  constructor
  · have h := here_ok s t hs ht (fun _ => False) false (fun h => by cases h) (Or.inl ⟨Nat.zero_le _, by simpa using htidy⟩) k hk
    rw [← srcAt_eq t k hk]
    revert h
    cases Pegexp.matchHere (s ++ [0#8]) (t ++ [0#8]) (srcAt t k) with
    | error e => exact fun h => h.elim
    | ok r => exact fun _ => ⟨r, rfl⟩
  · obtain ⟨m, src, h⟩ := C39_total s t hs ht htidy k hk
    exact ⟨_, h⟩

/-- With character properties in the pattern, provided that the characters of the text are in the range of <cctype>. -/
theorem C40_properties_partial (s t : List Byte) (hs : 0#8 ∉ s) (ht : 0#8 ∉ t) (htidy : tidy true s = true) (hc : ∀ c ∈ decodeAll t, InCtype c) (k : Nat)
    (hk : k ≤ (decodeAll t).length) :
    (∃ r, Pegexp.matchHere (s ++ [0#8]) (t ++ [0#8]) (atChar t k) = .ok r) ∧ ∃ r, Pegexp.match (s ++ [0#8]) (t ++ [0#8]) (atChar t k) = .ok r := by
  have hl := text_le t
  rw [← srcAt_eq t k hk]
  constructor
  · have h := here_ok s t hs ht (fun _ => False) true (fun _ => Or.inl hc) (Or.inl ⟨Nat.zero_le _, by simpa using htidy⟩) k hk
    revert h
    cases Pegexp.matchHere (s ++ [0#8]) (t ++ [0#8]) (srcAt t k) with
    | error e => exact fun h => h.elim
    | ok r => exact fun _ => ⟨r, rfl⟩
  · have h := match_ok s t hs ht (fun _ => False) true (fun _ => Or.inl hc) (Or.inl ⟨Nat.zero_le _, by simpa using htidy⟩) ((t ++ [0#8]).length + 1) k hk (by simp; omega)
    revert h
    unfold Pegexp.match
    cases Pegexp.matchLoop (s ++ [0#8]) (t ++ [0#8]) ((t ++ [0#8]).length + 1) (srcAt t k) with
    | error e => exact fun h => h.elim
    | ok r => exact fun _ => ⟨r, rfl⟩

/-- Any text at all in braces, classes and so on, with or without their closing brackets, is tidy. -/
example : tidy false [0x5B#8, 0x61#8, 0x28#8, 0x7C#8, 0x2A#8, 0x2A#8, 0x3A#8, 0x5C#8, 0x75#8, 0x7B#8] = true := by decide

/-- `|a|\` on "a": the terminator is taken for the escaped character, and reading goes on after it. -/
theorem C40_refuted_backslash :
    Pegexp.matchHere ([0x7C#8, 0x61#8, 0x7C#8, 0x5C#8] ++ [0#8]) ([0x61#8] ++ [0#8]) (atChar [0x61#8] 0) = .error .ub := by decide +kernel

/-- `&` at the end -/
theorem C40_refuted_and : Pegexp.matchHere ([0x26#8] ++ [0#8]) ([0x61#8] ++ [0#8]) (atChar [0x61#8] 0) = .error .ub := by decide +kernel

/-- `\x{` at the end -/
theorem C40_refuted_hex : Pegexp.matchHere ([0x5C#8, 0x78#8, 0x7B#8] ++ [0#8]) ([0x61#8] ++ [0#8]) (atChar [0x61#8] 0) = .error .ub := by decide +kernel

/-! ### C41 -/

/-- reading `n` characters -/
def getChars (text : List Byte) : Nat → Src → Res Src
  | 0, s => .ok s
  | n + 1, s => do
    let s ← getChars text n s
    let r ← getChar text s
    .ok r.2

/-- reading `n` bytes -/
def getBytes (text : List Byte) : Nat → Src → Res Src
  | 0, s => .ok s
  | n + 1, s => do
    let s ← getBytes text n s
    let r ← getByte text s
    .ok r.2

/-- After reading any number of characters of any text (up to its end; there it stays) the counts are those of the characters read. -/
theorem C41_get_char (t : List Byte) (ht : 0#8 ∉ t) (n : Nat) : getChars (t ++ [0#8]) n Src.start = .ok (atChar t (min n (decodeAll t).length)) := by
  induction n with
  | zero => rw [Nat.zero_min, ← srcAt_eq t 0 (Nat.zero_le _)]; rfl
  | succ n ih =>
    rw [getChars, ih, res_bind_ok]
    rcases Nat.lt_or_ge n (decodeAll t).length with h | h
    · rw [Nat.min_eq_left (by omega), Nat.min_eq_left (by omega), ← srcAt_eq t n (by omega), (srcAt_get t ht n h).1, res_bind_ok, srcAt_eq t (n + 1) h]
    · rw [Nat.min_eq_right h, Nat.min_eq_right (by omega), ← srcAt_eq t _ (Nat.le_refl _)]
      unfold getChar
      rw [srcAt_eof t ht _ (Nat.le_refl _), res_bind_ok, if_pos (by simp)]
      rfl

/-- So they are wherever matching reads to (C37), and reading one character gives that character. -/
theorem C41_reads (t : List Byte) (ht : 0#8 ∉ t) (k : Nat) (hk : k < (decodeAll t).length) :
    getChar (t ++ [0#8]) (atChar t k) = .ok ((decodeAll t)[k], atChar t (k + 1)) := by
  rw [← srcAt_eq t k (by omega), ← srcAt_eq t (k + 1) (by omega)]
  exact (srcAt_get t ht k hk).1

/-- With get_byte, the counts are those of the bytes read. -/
theorem C41_get_byte (t : List Byte) (ht : 0#8 ∉ t) (n : Nat) (hn : n ≤ t.length) :
    getBytes (t ++ [0#8]) n Src.start =
      .ok ⟨n, n, 1 + (t.take n).count 0x0A#8, 1 + ((t.take n).reverse.takeWhile (· ≠ 0x0A#8)).length⟩ := by
  induction n with
  | zero => simp [getBytes, Src.start]
  | succ n ih =>
    have hb : t[n]? = some t[n] := List.getElem?_eq_getElem (by omega)
    have hrd : rd (t ++ [0#8]) n = .ok t[n] := rd_eq_ok.mpr (by rw [List.getElem?_append_left (by omega)]; exact hb)
    have hne : t[n] ≠ 0#8 := fun h => ht (h ▸ List.getElem_mem (by omega))
    rw [getBytes, ih (by omega), res_bind_ok]
    unfold getByte atEof
    simp only
    rw [hrd, res_bind_ok, res_bind_ok, if_neg (by simpa using hne), res_bind_ok, res_bind_ok]
    have htake : t.take (n + 1) = t.take n ++ [t[n]] := by rw [List.take_add_one, hb]; rfl
    rw [htake]
    have hsx : ∀ b : Byte, (sx b == 0x0A#32) = (b == 0x0A#8) := by decide +kernel
    unfold bump
    rw [hsx]
    generalize t[n] = b
    generalize t.take n = u
    by_cases h : b = 0x0A#8
    · subst h
      rw [if_pos (by decide)]
      simp [List.count_append]
      omega
    · rw [if_neg (by simpa using h)]
      simp [List.count_append, h]
      omega

/-- and at the end it gives NUL and stays: get_byte does not move past the end, however often it is called -/
theorem C41_get_byte_end (t : List Byte) (ht : 0#8 ∉ t) (n : Nat) :
    getBytes (t ++ [0#8]) (t.length + n) Src.start = getBytes (t ++ [0#8]) t.length Src.start ∧
    ∀ s, getBytes (t ++ [0#8]) t.length Src.start = .ok s → getByte (t ++ [0#8]) s = .ok (0#8, s) := by
  have hb := C41_get_byte t ht t.length (Nat.le_refl _)
  have hend : ∀ s, getBytes (t ++ [0#8]) t.length Src.start = .ok s → getByte (t ++ [0#8]) s = .ok (0#8, s) := by
    intro s hs
    rw [hb] at hs
    cases hs
    have hrd : rd (t ++ [0#8]) t.length = .ok 0#8 := rd_eq_ok.mpr (by simp)
    unfold getByte atEof
    simp only
    rw [hrd, res_bind_ok, res_bind_ok, if_pos (by simp)]
  refine ⟨?_, hend⟩
  induction n with
  | zero => rfl
  | succ n ih =>
    rw [← Nat.add_assoc, getBytes, ih, hb, res_bind_ok, hend _ hb, res_bind_ok]

/-- "a\nbc": after three characters, line 2 column 2 -/
example : getChars ([0x61#8, 0x0A#8, 0x62#8, 0x63#8] ++ [0#8]) 3 Src.start = .ok ⟨3, 3, 2, 2⟩ := by decide +kernel

end Strpp.Pex
