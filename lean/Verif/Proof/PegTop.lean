import Verif.Proof.PegMain
/-! Pegexp with its own Context: match_here and match. -/
namespace Strpp.Pex
open Spec

/-! ### Positions -/

theorem bump_list (cs : List UCS4) (c : UCS4) (l l' : Nat) (col : Nat) (hl : l = 1 + cs.count 0x0A#32) (hc : col = 1 + (cs.reverse.takeWhile (· ≠ 0x0A#32)).length) (s : Src)
    (h1 : s.line = l) (h2 : s.col = col) :
    (bump s c).line = 1 + (cs ++ [c]).count 0x0A#32 ∧ (bump s c).col = 1 + ((cs ++ [c]).reverse.takeWhile (· ≠ 0x0A#32)).length := by
  unfold bump
  by_cases h : c = 0x0A#32
  · subst h
    rw [if_pos (by decide)]
    simp [List.count_append, h1, hl]
    omega
  · rw [if_neg (by simpa using h)]
    simp [List.count_append, h1, h2, hl, hc, h]
    omega

/-- a source at the `k`th character, as the specification has it -/
def atChar (t : List Byte) (k : Nat) : Src := ⟨(whereIs t k).bytes, (whereIs t k).bytes, (whereIs t k).line, (whereIs t k).col⟩

theorem bytesOf_succ (k : Nat) : ∀ t : List Byte, bytesOf (k + 1) t = bytesOf k t + (match decode1 (t.drop (bytesOf k t)) with | some (_, n) => n | none => 0) := by
  induction k with
  | zero =>
    intro t
    simp only [bytesOf, List.drop_zero]
    cases decode1 t <;> simp
  | succ k ih =>
    intro t
    rw [bytesOf]
    cases hd : decode1 t with
    | none =>
      have : bytesOf (k + 1) t = 0 := by rw [bytesOf, hd]
      rw [this]
      simp [hd]
    | some r =>
      obtain ⟨c, n⟩ := r
      have : bytesOf (k + 1) t = n + bytesOf k (t.drop n) := by rw [bytesOf, hd]
      rw [this]
      simp only
      rw [ih, List.drop_drop]
      omega

theorem srcAt_eq (t : List Byte) (k : Nat) (hk : k ≤ (decodeAll t).length) : srcAt t k = atChar t k := by
  induction k with
  | zero => simp [srcAt, Src.start, atChar, whereIs, bytesOf]
  | succ k ih =>
    have ih := ih (by omega)
    obtain ⟨h1, h2, h3⟩ := srcAt_facts t k (by omega)
    have hlt := srcAt_pos_lt t k (by omega)
    have hne : t.drop (srcAt t k).pos ≠ [] := by
      intro h'
      have := congrArg List.length h'
      simp at this
      omega
    obtain ⟨c, n, hd⟩ := decode1_some _ hne
    have hc : (decodeAll t)[k]? = some c := by
      have hst := decodeAll_step _ _ _ hd
      rw [h2] at hst
      have : ((decodeAll t).drop k)[0]? = some c := by rw [hst]; rfl
      simpa using this
    have htake : (decodeAll t).take (k + 1) = (decodeAll t).take k ++ [c] := by
      rw [List.take_add_one, hc]; rfl
    have hb := bytesOf_succ k t
    have hpos : (srcAt t k).pos = bytesOf k t := by rw [ih]; rfl
    have hline : (srcAt t k).line = 1 + ((decodeAll t).take k).count 0x0A#32 := by rw [ih]; rfl
    have hcol : (srcAt t k).col = 1 + (((decodeAll t).take k).reverse.takeWhile (· ≠ 0x0A#32)).length := by rw [ih]; rfl
    rw [← hpos, hd] at hb
    simp only at hb
    rw [srcAt, hd]
    simp only
    have hbl := bump_list ((decodeAll t).take k) c _ 0 _ hline hcol { srcAt t k with pos := (srcAt t k).pos + n, byteCount := (srcAt t k).byteCount + n } rfl rfl
    have hbp := bump_pos { srcAt t k with pos := (srcAt t k).pos + n, byteCount := (srcAt t k).byteCount + n } c
    rw [← htake] at hbl
    generalize bump { srcAt t k with pos := (srcAt t k).pos + n, byteCount := (srcAt t k).byteCount + n } c = x at hbl hbp
    obtain ⟨x1, x2, x3, x4⟩ := x
    simp only at hbl hbp
    unfold atChar whereIs
    rw [hb, hbl.1, hbl.2, hbp.1, hbp.2, h3]

/-! ### The default Context and no subclass -/

theorem matchLiteral_ok {σ : Type} {s t : List Byte} {k0 : Nat} {F : Fault → Prop} {pr : Bool} {I : σ → Prop} (hn : 0#8 ∉ t) {b : Byte} {st : St} {cx : Cx σ} (hb : s[st.pat]? = some b)
    (hx : isExtended b = true) (hi : In s F pr st.pat) (hsrc : SrcOk t k0 st.src) (hI : I cx.data) : ExtOk s t k0 F pr I st cx (matchLiteral (s ++ [0#8]) (t ++ [0#8]) st cx) := by
  obtain ⟨k, hk0, hk, hk2⟩ := hsrc
  have hlt := (List.getElem?_eq_some_iff.mp hb).1
  have hb5 : b ≠ 0x5C#8 := by rintro rfl; revert hx; decide
  have hin := in_step hi hb hb5
  have hrd : rd (s ++ [0#8]) st.pat = .ok b := by
    rcases rd_pat s st.pat with ⟨-, b', h1, h2⟩ | ⟨h, -⟩ | ⟨h, -⟩
    · rw [hb] at h1; cases h1; exact h2
    · omega
    · omega
  unfold matchLiteral
  rw [hk2, srcAt_eof t hn k hk, res_bind_ok]
  by_cases h : k = (decodeAll t).length
  · rw [if_pos (by simpa using h)]
    exact ⟨⟨rfl, rfl, hI⟩, Or.inl (by omega), Nat.le_refl _⟩
  · rw [if_neg (by simpa using h), hrd, res_bind_ok, (srcAt_get t hn k (by omega)).1, res_bind_ok]
    split
    · exact ⟨⟨rfl, rfl, hI⟩, ⟨hin, Or.inl (Nat.lt_succ_self _), ⟨k, k + 1, hk0, by omega, by omega, hk2, rfl⟩⟩⟩
    · exact ⟨⟨rfl, rfl, hI⟩, Or.inl (by simp only; omega), Nat.le_refl _⟩

theorem default_hok (s t : List Byte) (hn : 0#8 ∉ t) (F : Fault → Prop) (pr : Bool) :
    HOk s t 0 F pr (fun _ => True) (defaultHooks (s ++ [0#8]) (t ++ [0#8])) where
  rollback := fun _ _ _ => trivial
  capture := fun _ _ _ _ _ _ _ _ _ _ _ => trivial
  record := fun _ _ _ _ _ _ _ _ _ _ => trivial
  ext := fun _ _ _ hb hx hi hsrc _ => matchLiteral_ok hn hb hx hi hsrc trivial
  skipExt := by
    intro q b hb hx hi
    have hb5 : b ≠ 0x5C#8 := by rintro rfl; revert hx; decide
    exact ⟨Nat.le_refl _, in_step hi hb hb5⟩

/-- what match_here says at a position -/
structure HereOk (s t : List Byte) (k : Nat) (m : Match) (src' : Src) : Prop where
  cases : (m.isFailure (s ++ [0#8]) = .ok false ∧ m.frm = ⟨0, srcAt t k⟩ ∧ ∃ k', k ≤ k' ∧ k' ≤ (decodeAll t).length ∧ m.to = ⟨s.length, srcAt t k'⟩ ∧ src' = srcAt t k') ∨
    (m.isFailure (s ++ [0#8]) = .ok true ∧ src' = srcAt t k ∧ m.frm = m.to ∧ m.to.pat < s.length ∧ ∃ k', k ≤ k' ∧ k' ≤ (decodeAll t).length ∧ m.to.src = srcAt t k')

def TopOk (s t : List Byte) (k : Nat) (F : Fault → Prop) : Res (Match × Src) → Prop
  | .error e => F e
  | .ok (m, src') => HereOk s t k m src'

theorem rd_in (s : List Byte) (q : Nat) (h : q ≤ s.length) : ∃ b, rd (s ++ [0#8]) q = .ok b := by
  rcases rd_pat s q with ⟨-, b', h1, h2⟩ | ⟨h, h2⟩ | ⟨h, -⟩
  · exact ⟨b', h2⟩
  · exact ⟨_, h2⟩
  · omega

theorem isFailure_pass (s : List Byte) (src src' : Src) : Match.isFailure (s ++ [0#8]) ⟨⟨0, src⟩, ⟨s.length, src'⟩⟩ = .ok false := by
  unfold Match.isFailure
  cases s with
  | nil => rfl
  | cons b s =>
    obtain ⟨c, hc⟩ := rd_in (b :: s) 0 (by simp)
    simp only
    rw [hc, res_bind_ok]
    split
    · rfl
    · simp

theorem isFailure_fail (s : List Byte) (hs : 0#8 ∉ s) (st : St) (h : st.pat < s.length) : Match.isFailure (s ++ [0#8]) ⟨st, st⟩ = .ok true := by
  unfold Match.isFailure
  obtain ⟨c, hc⟩ := rd_in s st.pat (by omega)
  simp only
  rw [hc, res_bind_ok, if_neg]
  · simp
  · intro hh
    have : c = 0#8 := by simpa using hh
    subst this
    have := rd_zero hs hc
    omega

theorem here_ok (s t : List Byte) (hs : 0#8 ∉ s) (hn : 0#8 ∉ t) (F : Fault → Prop) (pr : Bool) (hct : pr = true → (∀ c ∈ decodeAll t, InCtype c) ∨ F .ub) (hi : In s F pr 0)
    (k : Nat) (hk : k ≤ (decodeAll t).length) : TopOk s t k F (Pegexp.matchHere (s ++ [0#8]) (t ++ [0#8]) (srcAt t k)) := by
  have h := matchHere_ok hs hn (default_hok s t hn F pr) hct hi (srcAt t k) ⟨k, Nat.zero_le _, hk, rfl⟩ Cx.default trivial
  unfold Pegexp.matchHere
  revert h
  cases Pex.matchHere (s ++ [0#8]) (t ++ [0#8]) (defaultHooks (s ++ [0#8]) (t ++ [0#8])) (srcAt t k) Cx.default with
  | error e => exact fun h => h
  | ok r =>
    obtain ⟨b, st', cx'⟩ := r
    rintro ⟨-, ⟨i, j, -, h2, h3, h4, h5⟩, h6⟩
    have hik : i = k := (srcAt_inj t hn (by omega) hk).mp (by rw [← h4])
    subst hik
    rw [res_bind_ok]
    cases b with
    | true =>
      simp only [if_true] at h6 ⊢
      obtain ⟨p', src'⟩ := st'
      simp only at h6 h5
      subst h6 h5
      exact ⟨Or.inl ⟨isFailure_pass _ _ _, rfl, j, h2, h3, rfl, rfl⟩⟩
    | false =>
      simp only [Bool.false_eq_true, if_false] at h6 ⊢
      exact ⟨Or.inr ⟨isFailure_fail s hs _ h6.1, rfl, rfl, h6.1, j, h2, h3, h5⟩⟩

/-- what match says -/
def LoopOk (s t : List Byte) (k : Nat) (F : Fault → Prop) : Res (Match × Src) → Prop
  | .error e => F e
  | .ok (m, src') => ∃ j, k ≤ j ∧ j ≤ (decodeAll t).length ∧ src' = srcAt t j ∧
      (∀ i, k ≤ i → i < j → ∃ mi si, Pegexp.matchHere (s ++ [0#8]) (t ++ [0#8]) (srcAt t i) = .ok (mi, si) ∧ mi.isFailure (s ++ [0#8]) = .ok true) ∧
      ((m.isFailure (s ++ [0#8]) = .ok false ∧ ∃ sj, Pegexp.matchHere (s ++ [0#8]) (t ++ [0#8]) (srcAt t j) = .ok (m, sj)) ∨
       (m.isFailure (s ++ [0#8]) = .ok true ∧ j = (decodeAll t).length ∧
          ∃ mj sj, Pegexp.matchHere (s ++ [0#8]) (t ++ [0#8]) (srcAt t j) = .ok (mj, sj) ∧ mj.isFailure (s ++ [0#8]) = .ok true))

theorem match_ok (s t : List Byte) (hs : 0#8 ∉ s) (hn : 0#8 ∉ t) (F : Fault → Prop) (pr : Bool) (hct : pr = true → (∀ c ∈ decodeAll t, InCtype c) ∨ F .ub) (hi : In s F pr 0) :
    ∀ (n k : Nat), k ≤ (decodeAll t).length → (decodeAll t).length < k + n → LoopOk s t k F (Pegexp.matchLoop (s ++ [0#8]) (t ++ [0#8]) n (srcAt t k)) := by
  intro n
  induction n with
  | zero => intro k _ _; omega
  | succ n ih =>
    intro k hk hkn
    have h := here_ok s t hs hn F pr hct hi k hk
    unfold Pegexp.matchLoop
    revert h
    cases hm : Pegexp.matchHere (s ++ [0#8]) (t ++ [0#8]) (srcAt t k) with
    | error e => exact fun h => h
    | ok r =>
      obtain ⟨m, src'⟩ := r
      rintro ⟨⟨h1, h2, -⟩ | ⟨h1, h2, h3, h4, -⟩⟩
      · rw [res_bind_ok, h1, res_bind_ok, if_neg (by decide)]
        exact ⟨k, Nat.le_refl _, hk, rfl, fun i h1 h2 => by omega, Or.inl ⟨h1, _, hm⟩⟩
      · rw [res_bind_ok, h1, res_bind_ok, if_pos rfl, srcAt_eof t hn k hk, res_bind_ok]
        by_cases hkl : k = (decodeAll t).length
        · rw [if_pos (by simpa using hkl)]
          exact ⟨k, Nat.le_refl _, hk, rfl, fun i h1 h2 => by omega, Or.inr ⟨isFailure_fail s hs _ (by simp only; omega), hkl, m, _, hm, h1⟩⟩
        · rw [if_neg (by simpa using hkl), (srcAt_get t hn k (by omega)).1, res_bind_ok]
          have ih := ih (k + 1) (by omega) (by omega)
          revert ih
          simp only
          cases Pegexp.matchLoop (s ++ [0#8]) (t ++ [0#8]) n (srcAt t (k + 1)) with
          | error e => exact fun h => h
          | ok r =>
            obtain ⟨m', s'⟩ := r
            rintro ⟨j, j1, j2, j3, j4, j5⟩
            refine ⟨j, by omega, j2, j3, ?_, j5⟩
            intro i i1 i2
            by_cases hik : i = k
            · subst hik
              exact ⟨m, _, hm, h1⟩
            · exact j4 i (by omega) i2

/-! ### Well-formed expressions -/

theorem default_eok (s t : List Byte) (k0 : Nat) (C : CallC) :
    EOk s t k0 (fun _ => false) false false C (fun _ _ => True) (defaultHooks (s ++ [0#8]) (t ++ [0#8])) where
  rollback := fun _ _ _ _ _ _ => trivial
  capture := fun _ _ _ _ _ _ _ _ _ d _ _ _ _ _ _ _ _ _ _ => ⟨d, rfl, trivial⟩
  record := fun _ _ _ _ _ d _ _ _ _ _ => ⟨d, rfl, trivial⟩
  lit := fun _ _ _ _ _ _ => rfl
  skip := ⟨fun _ _ _ _ _ => rfl, fun h => by cases h⟩
  call := fun h => by cases h

/-- the whole pattern, for any Context -/
theorem matchHere_eval {σ : Type} {t : List Byte} {special : Byte → Bool} {calls top : Bool} {C : CallC} {R : List CapEvent → σ → Prop} {H : Hooks σ} (e : Expr) (k : Nat)
    (hE : EOk e.bytes t k special calls top C R H) (hn : 0#8 ∉ t) (hO : CallOkC C) (hC : ∀ n k k', plainC C n k (some k') → k ≤ (decodeAll t).length → k ≤ k' ∧ k' ≤ (decodeAll t).length)
    (hw : e.wf special calls .body) (hp : e.noProps = true ∨ ∀ c ∈ decodeAll t, InCtype c) {on rep : Bool} {g : List CapEvent} (r : Option Nat) {g' : List CapEvent}
    (hsem : SemC (decodeAll t) top C on rep e k g r g') (hk : k ≤ (decodeAll t).length) (cx : Cx σ) (hI : Pre R on rep g cx) :
    ∃ cx' st', CxOk (R g') cx cx' ∧ (r = none → st'.pat < e.bytes.length) ∧
      matchHere (e.bytes ++ [0#8]) (t ++ [0#8]) H (srcAt t k) cx = .ok (match r with | some k' => (true, ⟨e.bytes.length, srcAt t k'⟩, cx') | none => (false, st', cx')) := by
  unfold matchHere matchSequence
  simp only
  by_cases he : e = .empty
  · subst he
    cases hsem
    exact ⟨cx, ⟨0, srcAt t k⟩, ⟨rfl, rfl, hI.inv⟩, fun h => by (cases h), rfl⟩
  · obtain ⟨b, rest, hb, hb1, hb2, -⟩ := body_head e hw he
    have hh : Here e.bytes 0 e.bytes [] := ⟨Nat.zero_le _, by simp⟩
    have hhb : Here e.bytes 0 (b :: rest) [] := by have := hh; rwa [hb] at this ⊢
    obtain ⟨cx', st', a1, a2, a3, a4⟩ := (ev_all hE hn hO hC e hp on rep k g r g' hsem (Nat.le_refl _) hk).body hw he 0 [] ((e.bytes ++ [0#8]).length + 1) ((e.bytes ++ [0#8]).length + 1) cx hh (fun _ => rfl) (Or.inl rfl)
      (by simp) (by simp; omega) hI
    rw [hhb.cons.1, res_bind_ok, if_neg (by simp [exprEnd, hb1, hb2]), a4, res_bind_ok]
    cases r with
    | some k' =>
      refine ⟨cx', st', a1, fun h => by (cases h), ?_⟩
      rw [if_pos (show (outq t 0 e.bytes.length (some k') st' cx').1 = true from rfl), res_bind_ok, if_pos (show (outq t 0 e.bytes.length (some k') st' cx').1 = true from rfl)]
      simp only [outq]
      rw [hh.over.end]
      simp [nxt]
    | none =>
      obtain ⟨gx, hgx, hRx⟩ := a1.inv
      refine ⟨cx'.rollback H (H.count cx.data), st', ⟨a1.dis, a1.nest, hgx ▸ hE.rollback _ _ _ _ hI.inv hRx⟩, fun _ => a3, ?_⟩
      rw [if_neg (show ¬ (outq t 0 e.bytes.length none st' cx').1 = true by simp [outq]), res_bind_ok]
      rfl

/-- what a result of the meaning says of match_here -/
def Agrees (t : List Byte) (s : List Byte) (k : Nat) (r : Option Nat) (x : Res (Match × Src)) : Prop :=
  ∃ m src', x = .ok (m, src') ∧
    (match r with
     | some k' => m.isFailure (s ++ [0#8]) = .ok false ∧ m.frm = ⟨0, srcAt t k⟩ ∧ m.to = ⟨s.length, srcAt t k'⟩ ∧ src' = srcAt t k'
     | none => m.isFailure (s ++ [0#8]) = .ok true ∧ src' = srcAt t k)

theorem here_eval (e : Expr) (t : List Byte) (C : List Byte → Nat → Option Nat → Prop) (hC : ∀ n k k', C n k (some k') → k ≤ (decodeAll t).length → k ≤ k' ∧ k' ≤ (decodeAll t).length)
    (hs : 0#8 ∉ e.bytes) (hn : 0#8 ∉ t) (hw : e.wf (fun _ => false) false .body) (hp : e.noProps = true ∨ ∀ c ∈ decodeAll t, InCtype c) (k : Nat) (r : Option Nat)
    (hsem : Sem C (decodeAll t) e k r) (hk : k ≤ (decodeAll t).length) :
    Agrees t e.bytes k r (Pegexp.matchHere (e.bytes ++ [0#8]) (t ++ [0#8]) (srcAt t k)) := by
  obtain ⟨g', hsem'⟩ := sem_semC (top := false) (C := fun _ _ n _ k g r g' => C n k r ∧ g' = g) (fun n k r h _ _ _ g => ⟨g, h, rfl⟩) hsem true false []
  obtain ⟨cx', st', -, h2, h3⟩ := matchHere_eval e k (default_eok e.bytes t k (fun _ _ n _ k g r g' => C n k r ∧ g' = g)) hn ⟨fun h => h.2, fun h => h.2, fun h hg => h.2 ▸ hg⟩
    (fun n k k' h => by obtain ⟨_, _, _, _, _, h, -⟩ := h; exact hC n k k' h) hw hp r hsem' hk Cx.default ⟨by decide, by decide, rfl, rfl, trivial⟩
  unfold Pegexp.matchHere
  rw [h3, res_bind_ok]
  cases r with
  | some k' => exact ⟨_, _, rfl, isFailure_pass _ _ _, rfl, rfl, rfl⟩
  | none => exact ⟨_, _, rfl, isFailure_fail _ hs _ (h2 rfl), rfl⟩

/-! ### The meaning gives one result -/

theorem sem_det {C : List Byte → Nat → Option Nat → Prop} (hC : ∀ n k r r', C n k r → C n k r' → r = r') {cs : List UCS4} {e : Expr} {k : Nat} {r : Option Nat} (h : Sem C cs e k r) :
    ∀ r', Sem C cs e k r' → r = r' := by
  induction h with
  | one_yes h1 h2 =>
    intro r' h'
    cases h' with
    | one_yes => rfl
    | one_no h3 => rw [h3 _ h1] at h2; cases h2
  | one_no h1 =>
    intro r' h'
    cases h' with
    | one_yes h3 h4 => rw [h1 _ h3] at h4; cases h4
    | one_no => rfl
  | bol_yes h1 => intro r' h'; cases h' with | bol_yes => rfl | bol_no h2 => exact absurd h1 h2
  | bol_no h1 => intro r' h'; cases h' with | bol_yes h2 => exact absurd h2 h1 | bol_no => rfl
  | eol_yes h1 => intro r' h'; cases h' with | eol_yes => rfl | eol_no h2 => exact absurd h1 h2
  | eol_no h1 => intro r' h'; cases h' with | eol_yes h2 => exact absurd h2 h1 | eol_no => rfl
  | grp _ ih => intro r' h'; cases h' with | grp h => exact ih _ h
  | label _ ih => intro r' h'; cases h' with | label h => exact ih _ h
  | opt_yes _ ih =>
    intro r' h'
    cases h' with
    | opt_yes h => exact ih _ h
    | opt_no h => cases ih _ h
  | opt_no _ ih =>
    intro r' h'
    cases h' with
    | opt_yes h => cases ih _ h
    | opt_no h => rfl
  | star_end _ ih =>
    intro r' h'
    cases h' with
    | star_end => rfl
    | star_stay => rfl
    | star_more h => cases ih _ h
  | star_stay _ ih =>
    intro r' h'
    cases h' with
    | star_end => rfl
    | star_stay => rfl
    | star_more h hlt => cases ih _ h; omega
  | star_more _ hlt _ ih1 ih2 =>
    intro r' h'
    cases h' with
    | star_end h => cases ih1 _ h
    | star_stay h => cases ih1 _ h; omega
    | star_more h hlt h2 => cases ih1 _ h; exact ih2 _ h2
  | plus_no _ ih =>
    intro r' h'
    cases h' with
    | plus_no => rfl
    | plus_yes h => cases ih _ h
  | plus_yes _ _ ih1 ih2 =>
    intro r' h'
    cases h' with
    | plus_no h => cases ih1 _ h
    | plus_yes h h2 => cases ih1 _ h; exact ih2 _ h2
  | and_yes _ ih => intro r' h'; cases h' with | and_yes => rfl | and_no h => cases ih _ h
  | and_no _ ih => intro r' h'; cases h' with | and_yes h => cases ih _ h | and_no => rfl
  | not_yes _ ih => intro r' h'; cases h' with | not_yes => rfl | not_no h => cases ih _ h
  | not_no _ ih => intro r' h'; cases h' with | not_yes h => cases ih _ h | not_no => rfl
  | call h => intro r' h'; cases h' with | call h' => exact hC _ _ _ _ h h'
  | empty => intro r' h'; cases h'; rfl
  | seq_no _ ih => intro r' h'; cases h' with | seq_no => rfl | seq_yes h => cases ih _ h
  | seq_yes _ _ ih1 ih2 =>
    intro r' h'
    cases h' with
    | seq_no h => cases ih1 _ h
    | seq_yes h h2 => cases ih1 _ h; exact ih2 _ h2
  | bar _ ih => intro r' h'; cases h' with | bar h => exact ih _ h
  | alt_first _ ih =>
    intro r' h'
    cases h' with
    | alt_first h => exact ih _ h
    | alt_next h => cases ih _ h
  | alt_next _ _ ih1 ih2 =>
    intro r' h'
    cases h' with
    | alt_first h => cases ih1 _ h
    | alt_next _ h => exact ih2 _ h

def Expr.callFree : Expr → Bool
  | .call _ _ => false
  | .grp e | .opt e | .star e | .plus e | .and e | .not e | .label e _ | .bar e => e.callFree
  | .seq a b | .alt a b => a.callFree && b.callFree
  | _ => true

theorem wf_callFree {special : Byte → Bool} : ∀ (e : Expr) (pl : Place), e.wf special false pl → e.callFree = true := by
  intro e
  induction e with
  | one o => exact fun _ _ => rfl
  | bol => exact fun _ _ => rfl
  | eol => exact fun _ _ => rfl
  | empty => exact fun _ _ => rfl
  | call n l => intro pl h; cases pl <;> simp [Expr.wf] at h
  | grp e ih => intro pl h; cases pl <;> simp only [Expr.wf] at h; exact ih _ h
  | opt e ih => intro pl h; cases pl <;> simp only [Expr.wf] at h; exact ih _ h.1
  | star e ih => intro pl h; cases pl <;> simp only [Expr.wf] at h; exact ih _ h.1
  | plus e ih => intro pl h; cases pl <;> simp only [Expr.wf] at h; exact ih _ h.1
  | and e ih => intro pl h; cases pl <;> simp only [Expr.wf] at h; exact ih _ h.1
  | not e ih => intro pl h; cases pl <;> simp only [Expr.wf] at h; exact ih _ h.1
  | label e n ih => intro pl h; cases pl <;> simp only [Expr.wf] at h; exact ih _ h.1
  | bar e ih => intro pl h; cases pl <;> simp only [Expr.wf] at h; exact ih _ h.2
  | seq a b iha ihb =>
    intro pl h
    cases pl <;> simp only [Expr.wf] at h
    · simp [Expr.callFree, iha _ h.1, ihb _ h.2]
    · simp [Expr.callFree, iha _ h.1, ihb _ h.2]
  | alt a b iha ihb =>
    intro pl h
    cases pl <;> simp only [Expr.wf] at h
    simp [Expr.callFree, iha _ h.2.1, ihb _ h.2.2.2]

theorem sem_total {C : List Byte → Nat → Option Nat → Prop} {t : List Byte} (hC : ∀ n k k', C n k (some k') → k ≤ (decodeAll t).length → k ≤ k' ∧ k' ≤ (decodeAll t).length) :
    ∀ (e : Expr), (e.callFree = true ∨ ∀ n k, k ≤ (decodeAll t).length → ∃ r, C n k r) → ∀ k, k ≤ (decodeAll t).length → ∃ r, Sem C (decodeAll t) e k r := by
  have hstar : ∀ e, (∀ k, k ≤ (decodeAll t).length → ∃ r, Sem C (decodeAll t) e k r) → ∀ d k, k ≤ (decodeAll t).length → (decodeAll t).length < k + d →
      ∃ r, Sem C (decodeAll t) (.star e) k r := by
    intro e he d
    induction d with
    | zero => intro k _ _; omega
    | succ d ih =>
      intro k hk hd
      obtain ⟨r, hr⟩ := he k hk
      cases r with
      | none => exact ⟨_, .star_end hr⟩
      | some k' =>
        have hle := sem_le hC hr hk _ rfl
        by_cases h : k' = k
        · subst h; exact ⟨_, .star_stay hr⟩
        · obtain ⟨r2, h2⟩ := ih k' hle.2 (by omega)
          exact ⟨r2, .star_more hr (by omega) h2⟩
  intro e
  induction e with
  | one o =>
    intro _ k hk
    by_cases h : ∃ c, (decodeAll t)[k]? = some c ∧ o.has c = true
    · obtain ⟨c, h1, h2⟩ := h; exact ⟨_, .one_yes h1 h2⟩
    · exact ⟨_, .one_no (fun c hc => by cases ho : o.has c with | false => rfl | true => exact absurd ⟨c, hc, ho⟩ h)⟩
  | bol =>
    intro _ k hk
    by_cases h : k = 0 ∨ (decodeAll t)[k - 1]? = some 0x0A#32
    · exact ⟨_, .bol_yes h⟩
    · exact ⟨_, .bol_no h⟩
  | eol =>
    intro _ k hk
    by_cases h : (decodeAll t)[k]? = none ∨ (decodeAll t)[k]? = some 0x0A#32
    · exact ⟨_, .eol_yes h⟩
    · exact ⟨_, .eol_no h⟩
  | empty => exact fun _ k hk => ⟨_, .empty⟩
  | call n l =>
    intro h k hk
    rcases h with h | h
    · cases h
    · obtain ⟨r, hr⟩ := h n k hk
      exact ⟨r, .call hr⟩
  | grp e ih => intro h k hk; obtain ⟨r, hr⟩ := ih h k hk; exact ⟨r, .grp hr⟩
  | label e n ih => intro h k hk; obtain ⟨r, hr⟩ := ih h k hk; exact ⟨r, .label hr⟩
  | bar e ih => intro h k hk; obtain ⟨r, hr⟩ := ih h k hk; exact ⟨r, .bar hr⟩
  | opt e ih =>
    intro h k hk
    obtain ⟨r, hr⟩ := ih h k hk
    cases r with
    | none => exact ⟨_, .opt_no hr⟩
    | some k' => exact ⟨_, .opt_yes hr⟩
  | and e ih =>
    intro h k hk
    obtain ⟨r, hr⟩ := ih h k hk
    cases r with
    | none => exact ⟨_, .and_no hr⟩
    | some k' => exact ⟨_, .and_yes hr⟩
  | not e ih =>
    intro h k hk
    obtain ⟨r, hr⟩ := ih h k hk
    cases r with
    | none => exact ⟨_, .not_yes hr⟩
    | some k' => exact ⟨_, .not_no hr⟩
  | star e ih => exact fun h k hk => hstar e (ih h) _ k hk (Nat.lt_add_left k (Nat.lt_succ_self _))
  | plus e ih =>
    intro h k hk
    obtain ⟨r, hr⟩ := ih h k hk
    cases r with
    | none => exact ⟨_, .plus_no hr⟩
    | some k' =>
      have hle := sem_le hC hr hk _ rfl
      obtain ⟨r2, h2⟩ := hstar e (ih h) _ k' hle.2 (Nat.lt_add_left k' (Nat.lt_succ_self _))
      exact ⟨r2, .plus_yes hr h2⟩
  | seq a b iha ihb =>
    intro h k hk
    have h : (a.callFree = true ∨ ∀ n k, k ≤ (decodeAll t).length → ∃ r, C n k r) ∧ (b.callFree = true ∨ ∀ n k, k ≤ (decodeAll t).length → ∃ r, C n k r) := by
      rcases h with h | h
      · have h : a.callFree = true ∧ b.callFree = true := by simpa [Expr.callFree] using h
        exact ⟨Or.inl h.1, Or.inl h.2⟩
      · exact ⟨Or.inr h, Or.inr h⟩
    obtain ⟨r, hr⟩ := iha h.1 k hk
    cases r with
    | none => exact ⟨_, .seq_no hr⟩
    | some k' =>
      have hle := sem_le hC hr hk _ rfl
      obtain ⟨r2, h2⟩ := ihb h.2 k' hle.2
      exact ⟨r2, .seq_yes hr h2⟩
  | alt a b iha ihb =>
    intro h k hk
    have h : (a.callFree = true ∨ ∀ n k, k ≤ (decodeAll t).length → ∃ r, C n k r) ∧ (b.callFree = true ∨ ∀ n k, k ≤ (decodeAll t).length → ∃ r, C n k r) := by
      rcases h with h | h
      · have h : a.callFree = true ∧ b.callFree = true := by simpa [Expr.callFree] using h
        exact ⟨Or.inl h.1, Or.inl h.2⟩
      · exact ⟨Or.inr h, Or.inr h⟩
    obtain ⟨r, hr⟩ := iha h.1 k hk
    cases r with
    | some k' => exact ⟨_, .alt_first hr⟩
    | none =>
      obtain ⟨r2, h2⟩ := ihb h.2 k hk
      exact ⟨r2, .alt_next hr h2⟩

/-! ### Patterns have no NUL -/

theorem written_nul {isPlain : Byte → Bool} (hp : isPlain 0#8 = false) (w : Written) (h : w.ok isPlain) : 0#8 ∉ w.bytes := by
  have hx : hexDigit 0#8 = none := by decide
  have ho : octalDigit 0#8 = false := by decide
  cases w with
  | plain b => simp only [Written.bytes, List.mem_singleton]; rintro rfl; exact absurd (hp.symm.trans h.1) (by decide)
  | back b => simp only [Written.bytes, List.mem_cons, List.not_mem_nil, or_false]; rintro (h' | h'); · cases h'
              exact h.1 h'.symm
  | oct a b c =>
    obtain ⟨h1, h2, h3⟩ := h
    simp only [Written.bytes, List.mem_cons, List.not_mem_nil, or_false]
    rintro (h' | h' | h' | h')
    · cases h'
    · rw [← h', ho] at h1; cases h1
    · rw [← h', ho] at h2; cases h2
    · rw [← h', ho] at h3; cases h3
  | hex br a b =>
    obtain ⟨h1, h2⟩ := h
    have ha : (0#8 : Byte) ≠ a := by rintro rfl; exact h1 hx
    have hb : (0#8 : Byte) ≠ b := by rintro rfl; exact h2 hx
    cases br <;> simp only [Written.bytes, List.mem_cons, List.not_mem_nil, or_false, ha, hb, false_or, or_false] <;> decide
  | uni a b c d =>
    obtain ⟨h1, h2, h3, h4⟩ := h
    have ha : (0#8 : Byte) ≠ a := by rintro rfl; exact h1 hx
    have hb : (0#8 : Byte) ≠ b := by rintro rfl; exact h2 hx
    have hc : (0#8 : Byte) ≠ c := by rintro rfl; exact h3 hx
    have hd : (0#8 : Byte) ≠ d := by rintro rfl; exact h4 hx
    simp only [Written.bytes, List.mem_cons, List.not_mem_nil, or_false, ha, hb, hc, hd]
    decide
  | uniBraces ds =>
    have hd : 0#8 ∉ ds := fun hm => h.2.2 _ hm hx
    simp only [Written.bytes, List.mem_append, List.mem_cons, List.not_mem_nil, or_false, hd]
    decide

theorem item_nul (i : Item) (h : i.ok) : 0#8 ∉ i.bytes := by
  have hp : plainInClass 0#8 = false := by decide
  cases i with
  | single w => exact written_nul hp w h
  | range w w' =>
    have h1 := written_nul hp w h.1
    have h2 := written_nul hp w' h.2.1
    simp only [Item.bytes, List.mem_append, List.mem_cons, h1, h2, or_false, false_or]
    decide
  | prop l =>
    have : isPropLetter 0#8 = false := by decide
    simp only [Item.bytes, List.mem_cons, List.not_mem_nil, or_false]
    rintro (h' | h')
    · cases h'
    · rw [← h'] at h; exact absurd (this.symm.trans h) (by decide)

theorem one_nul {special : Byte → Bool} (o : One) (h : o.ok special) : 0#8 ∉ o.bytes := by
  cases o with
  | lit w => exact written_nul (by simp [plainOutside]) w h
  | prop l => exact item_nul (.prop l) h
  | any => decide
  | cls neg items =>
    have hi : 0#8 ∉ items.flatMap Item.bytes := by
      intro hm
      obtain ⟨i, h1, h2⟩ := List.mem_flatMap.mp hm
      exact item_nul i (h i h1) h2
    simp only [One.bytes, List.mem_append, List.mem_cons, List.not_mem_nil, or_false, hi]
    cases neg <;> decide

theorem wf_nul {special : Byte → Bool} {calls : Bool} : ∀ (e : Expr) (pl : Place), e.wf special calls pl → 0#8 ∉ e.bytes := by
  have hname : ∀ l : List Byte, (∀ b ∈ l, nameByte b = true) → 0#8 ∉ l := fun l h hm => absurd (h _ hm) (by decide)
  intro e
  induction e with
  | one o => intro pl h; cases pl <;> simp only [Expr.wf] at h; exact one_nul o h
  | bol => intro pl h; decide
  | eol => intro pl h; decide
  | empty => intro pl h; decide
  | call n l =>
    intro pl h
    cases pl <;> simp only [Expr.wf] at h
    obtain ⟨-, -, h1, h2⟩ := h
    have := hname n h1
    cases l with
    | none => simp only [Expr.bytes, List.mem_append, List.mem_cons, List.not_mem_nil, or_false, this]; decide
    | some l =>
      have h3 := hname l (h2 l rfl)
      simp only [Expr.bytes, List.mem_append, List.mem_cons, List.not_mem_nil, or_false, this, h3]; decide
  | grp e ih =>
    intro pl h
    cases pl <;> simp only [Expr.wf] at h
    have := ih _ h
    simp only [Expr.bytes, List.mem_append, List.mem_cons, List.not_mem_nil, or_false, this]; decide
  | opt e ih => intro pl h; cases pl <;> simp only [Expr.wf] at h; have := ih _ h.1; simp only [Expr.bytes, List.mem_cons, this, or_false]; decide
  | star e ih => intro pl h; cases pl <;> simp only [Expr.wf] at h; have := ih _ h.1; simp only [Expr.bytes, List.mem_cons, this, or_false]; decide
  | plus e ih => intro pl h; cases pl <;> simp only [Expr.wf] at h; have := ih _ h.1; simp only [Expr.bytes, List.mem_cons, this, or_false]; decide
  | and e ih => intro pl h; cases pl <;> simp only [Expr.wf] at h; have := ih _ h.1; simp only [Expr.bytes, List.mem_cons, this, or_false]; decide
  | not e ih => intro pl h; cases pl <;> simp only [Expr.wf] at h; have := ih _ h.1; simp only [Expr.bytes, List.mem_cons, this, or_false]; decide
  | label e n ih =>
    intro pl h
    cases pl <;> simp only [Expr.wf] at h
    have := ih _ h.1
    have h3 := hname n h.2.2
    simp only [Expr.bytes, List.mem_append, List.mem_cons, List.not_mem_nil, or_false, this, h3]; decide
  | bar e ih => intro pl h; cases pl <;> simp only [Expr.wf] at h; have := ih _ h.2; simp only [Expr.bytes, List.mem_cons, this, or_false]; decide
  | seq a b iha ihb =>
    intro pl h
    cases pl <;> simp only [Expr.wf] at h
    · have h1 := iha _ h.1; have h2 := ihb _ h.2; simp only [Expr.bytes, List.mem_append, h1, h2, or_false, not_false_eq_true]
    · have h1 := iha _ h.1; have h2 := ihb _ h.2; simp only [Expr.bytes, List.mem_append, h1, h2, or_false, not_false_eq_true]
  | alt a b iha ihb =>
    intro pl h
    cases pl <;> simp only [Expr.wf] at h
    have h1 := iha _ h.2.1; have h2 := ihb _ h.2.2.2; simp only [Expr.bytes, List.mem_append, List.mem_cons, h1, h2, or_false]; decide

end Strpp.Pex
