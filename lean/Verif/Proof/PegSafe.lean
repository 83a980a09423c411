import Verif.Proof.PegLeaf
/-! One induction over match_atom: faults, progress in the pattern, positions of the source, the counters of the Context. -/
namespace Strpp.Pex
open Spec

section
variable {σ : Type} (s t : List Byte) (k0 : Nat) (F : Fault → Prop) (pr : Bool) (I : σ → Prop)

/-- the counters are as before, the rest of the context is in order -/
structure CxOk (cx cx' : Cx σ) : Prop where
  dis : cx'.disabled = cx.disabled
  nest : cx'.nesting = cx.nesting
  inv : I cx'.data

/-- the source is at the `k`th character and later at the `k'`th -/
def Later (src src' : Src) : Prop := ∃ k k', k0 ≤ k ∧ k ≤ k' ∧ k' ≤ (decodeAll t).length ∧ src = srcAt t k ∧ src' = srcAt t k'

/-- after a success -/
structure Fwd (st st' : St) : Prop where
  here : In s F pr st'.pat
  adv : st.pat < st'.pat ∨ (st.pat = s.length ∧ st'.pat = s.length)
  src : Later t k0 st.src st'.src

/-- after a failure -/
structure Back (st st' : St) : Prop where
  here : In s F pr st'.pat
  adv : st.pat ≤ st'.pat
  lt : st'.pat < s.length
  src : st'.src = st.src

def AtomOk (st : St) (cx : Cx σ) : Res (Out σ) → Prop
  | .error e => F e
  | .ok (b, st', cx') => CxOk I cx cx' ∧ (if b then Fwd s t k0 F pr st st' else Back s F pr st st')

/-- after a sequence: on success, at an end of it; on failure, at the atom that failed -/
structure SeqPos (st st' : St) : Prop where
  here : In s F pr st'.pat
  adv : st.pat ≤ st'.pat
  src : Later t k0 st.src st'.src

def SeqOk (stop : Byte → Bool) (st : St) (cx : Cx σ) : Res (Out σ) → Prop
  | .error e => F e
  | .ok (b, st', cx') => CxOk I cx cx' ∧ SeqPos s t k0 F pr st st' ∧
      (if b then (∃ c, rd (s ++ [0#8]) st'.pat = .ok c ∧ stop c = true) else st'.pat < s.length ∧ st.pat < s.length)

/-- inside the pattern, or reading outside is tolerated -/
def Bd (q : Nat) : Prop := q ≤ s.length ∨ F .ub

def BodyOk (start : St) (cx : Cx σ) : Res (Bool × St × St × Cx σ) → Prop
  | .error e => F e
  | .ok (b, st', start', cx') => CxOk I cx cx' ∧ start'.src = start.src ∧ start.pat ≤ start'.pat ∧ start'.pat ≤ s.length ∧
      (if b then Fwd s t k0 F pr start st' else Back s F pr start start' ∧ start'.pat ≤ st'.pat ∧ Bd s F st'.pat)

def RepOk (rep : Nat) (src : Src) (cx : Cx σ) : Res (St × Cx σ) → Prop
  | .error e => F e
  | .ok (st', cx') => CxOk I cx cx' ∧ In s F pr st'.pat ∧ rep ≤ st'.pat ∧ Later t k0 src st'.src

def RepAOk (st : St) (cx : Cx σ) : Res (Out σ) → Prop
  | .error e => F e
  | .ok (b, st', cx') => CxOk I cx cx' ∧ (b = true → In s F pr st'.pat ∧ st.pat ≤ st'.pat ∧ Later t k0 st.src st'.src) ∧
        (b = false → st.pat < s.length ∧ st.pat ≤ st'.pat ∧ In s F pr st'.pat)

def AltOk (lo : Nat) (start : St) (cx : Cx σ) : Res (Bool × St × St × Cx σ) → Prop
  | .error e => F e
  | .ok (b, st', start', cx') => CxOk I cx cx' ∧ start'.src = start.src ∧ lo ≤ start'.pat ∧ start'.pat ≤ s.length ∧
          (if b then In s F pr st'.pat ∧ lo ≤ st'.pat ∧ Later t k0 start.src st'.src
           else start'.pat < s.length ∧ In s F pr start'.pat ∧ start'.pat ≤ st'.pat ∧ In s F pr st'.pat)

def ExtOk (st : St) (cx : Cx σ) : Res (Out σ) → Prop
  | .error e => F e
  | .ok (b, st', cx') => CxOk I cx cx' ∧ (if b then Fwd s t k0 F pr st st' else Bd s F st'.pat ∧ st.pat ≤ st'.pat)

/-- a position of the source -/
def SrcOk (src : Src) : Prop := ∃ k, k0 ≤ k ∧ k ≤ (decodeAll t).length ∧ src = srcAt t k

def MOk (lo : Nat) (m : St → Cx σ → Res (Out σ)) : Prop :=
  ∀ st cx, lo ≤ st.pat → In s F pr st.pat → SrcOk t k0 st.src → I cx.data → AtomOk s t k0 F pr I st cx (m st cx)

def SOk (lo : Nat) (skip : Nat → Res Nat) : Prop :=
  ∀ q, lo ≤ q → In s F pr q → Hd s F q → GoodN s F pr (q + 1) (skip q)

/-- the result is an allowed fault, or in order -/
def DOk (r : Res σ) : Prop :=
  match r with
  | .error e => F e
  | .ok d => I d

/-- What is required of a Context and a subclass -/
structure HOk (H : Hooks σ) : Prop where
  rollback : ∀ c d, I d → I (H.rollback c d)
  capture : ∀ a e st st' rep d, a ≤ e → e ≤ s.length → st.pat ≤ s.length → Later t k0 st.src st'.src → I d → DOk F I (H.capture (a, e) st st' rep d)
  record : ∀ dis op oe src d, op < s.length → op ≤ oe → Bd s F oe → SrcOk t k0 src → I d → DOk F I (H.record dis op oe src d)
  ext : ∀ b st cx, s[st.pat]? = some b → isExtended b = true → In s F pr st.pat → SrcOk t k0 st.src → I cx.data →
    ExtOk s t k0 F pr I st cx (H.ext st cx)
  skipExt : SkipExt s F pr H.skipExt

variable {s t : List Byte} {k0 : Nat} {F : Fault → Prop} {pr : Bool} {I : σ → Prop}

theorem In.bd {q : Nat} (h : In s F pr q) : Bd s F q := h.imp And.left id

theorem Later.refl {src : Src} (h : SrcOk t k0 src) : Later t k0 src src := by
  obtain ⟨k, h0, h1, h2⟩ := h
  exact ⟨k, k, h0, Nat.le_refl _, h1, h2, h2⟩

theorem Later.right {a b : Src} (h : Later t k0 a b) : SrcOk t k0 b := by
  obtain ⟨k, k', h0, h1, h2, h3, h4⟩ := h
  exact ⟨k', by omega, h2, h4⟩

theorem Later.left {a b : Src} (h : Later t k0 a b) : SrcOk t k0 a := by
  obtain ⟨k, k', h0, h1, h2, h3, h4⟩ := h
  exact ⟨k, h0, by omega, h3⟩

theorem CxOk.trans {a b c : Cx σ} (h1 : CxOk I a b) (h2 : CxOk I b c) : CxOk I a c :=
  ⟨h2.dis.trans h1.dis, h2.nest.trans h1.nest, h2.inv⟩

theorem CxOk.refl {a : Cx σ} (h : I a.data) : CxOk I a a := ⟨rfl, rfl, h⟩

theorem rd_le {q : Nat} {b : Byte} (h : rd (s ++ [0#8]) q = .ok b) : q ≤ s.length := by
  rcases rd_ok h with ⟨-, h⟩ | ⟨h, -⟩ <;> omega

theorem rd_zero {q : Nat} (hs : 0#8 ∉ s) (h : rd (s ++ [0#8]) q = .ok 0#8) : q = s.length := by
  rcases rd_ok h with ⟨-, h⟩ | ⟨-, h⟩
  · exact h
  · exact absurd (List.mem_of_getElem? h) hs

theorem rd_nz {q : Nat} {b : Byte} (h : rd (s ++ [0#8]) q = .ok b) (hb : b ≠ 0#8) : q < s.length :=
  (List.getElem?_eq_some_iff.mp (not_nul h hb)).1

section
variable (hs : 0#8 ∉ s) (hn : 0#8 ∉ t)
include hn

theorem Later.trans {a b c : Src} (h1 : Later t k0 a b) (h2 : Later t k0 b c) : Later t k0 a c := by
  obtain ⟨k, k', a0, a1, a2, a3, a4⟩ := h1
  obtain ⟨j, j', b0, b1, b2, b3, b4⟩ := h2
  have : k' = j := (srcAt_inj t hn a2 (by omega)).mp (by rw [← a4, ← b3])
  subst this
  exact ⟨k, j', a0, by omega, b2, a3, b4⟩

theorem eof_ok {src : Src} (h : SrcOk t k0 src) : ∃ e, atEof (t ++ [0#8]) src = .ok e ∧ (e = false → ∃ c src', getChar (t ++ [0#8]) src = .ok (c, src') ∧
    Later t k0 src src' ∧ c ∈ decodeAll t) := by
  obtain ⟨k, h0, h1, rfl⟩ := h
  refine ⟨_, srcAt_eof t hn k h1, fun he => ?_⟩
  have hk : k < (decodeAll t).length := by simp at he; omega
  exact ⟨_, _, (srcAt_get t hn k hk).1, ⟨k, k + 1, h0, by omega, by omega, rfl, rfl⟩, List.getElem_mem hk⟩

theorem charIf_ok {src : Src} (f : UCS4 → Bool) (h : SrcOk t k0 src) : ∃ b src', charIf (t ++ [0#8]) src f = .ok (b, src') ∧ Later t k0 src src' := by
  obtain ⟨e, he, hg⟩ := eof_ok hn h
  unfold charIf
  rw [he, res_bind_ok]
  cases e with
  | true => exact ⟨false, src, rfl, Later.refl h⟩
  | false =>
    obtain ⟨c, src', h1, h2, -⟩ := hg rfl
    rw [h1]
    exact ⟨f c, src', rfl, h2⟩

end

theorem seqLoop_ok (hn : 0#8 ∉ t) (stop : Byte → Bool) (loop : (St → Cx σ → Res (Out σ)) → Nat → St → Cx σ → Res (Out σ))
    (hloop : ∀ m k st cx, loop m (k + 1) st cx = (do
      let r ← m st cx
      if r.1 then do
        let b ← rd (s ++ [0#8]) r.2.1.pat
        if stop b then .ok r else loop m k r.2.1 r.2.2
      else .ok r))
    (hstop : stop 0#8 = true) (lo : Nat) (m : St → Cx σ → Res (Out σ)) (hm : MOk s t k0 F pr I lo m) :
    ∀ (k : Nat) (st : St) (cx : Cx σ), lo ≤ st.pat → In s F pr st.pat → SrcOk t k0 st.src → I cx.data → s.length < st.pat + k → 1 ≤ k →
      SeqOk s t k0 F pr I stop st cx (loop m k st cx) := by
  intro k
  induction k with
  | zero => intro st cx _ _ _ _ _ h; omega
  | succ k ih =>
    intro st cx hlo hi hsrc hI hk _
    rw [hloop]
    have h1 := hm st cx hlo hi hsrc hI
    revert h1
    cases m st cx with
    | error e => exact fun h => h
    | ok r =>
      obtain ⟨b, st', cx'⟩ := r
      rintro ⟨hc, hb⟩
      rw [res_bind_ok]
      cases b with
      | false =>
        simp only [Bool.false_eq_true, ↓reduceIte] at hb ⊢
        have := hb.lt
        have := hb.adv
        exact ⟨hc, ⟨hb.here, hb.adv, by rw [hb.src]; exact Later.refl hsrc⟩, hb.lt, by omega⟩
      | true =>
        simp only [↓reduceIte] at hb ⊢
        cases hrd : rd (s ++ [0#8]) st'.pat with
        | error e => exact rd_err hb.here hrd
        | ok c =>
          rw [res_bind_ok]
          have hle := rd_le hrd
          split
          · rename_i hc'
            have := hb.adv
            exact ⟨hc, ⟨hb.here, by omega, hb.src⟩, c, hrd, hc'⟩
          · rename_i hc'
            have hlt : st'.pat < s.length := by
              rcases rd_ok hrd with ⟨h, -⟩ | ⟨h, -⟩
              · subst h; exact absurd hstop hc'
              · exact h
            have hadv : st.pat < st'.pat := by
              rcases hb.adv with h | h <;> omega
            have h2 := ih st' cx' (by omega) hb.here hb.src.right hc.inv (by omega) (by omega)
            revert h2
            cases loop m k st' cx' with
            | error e => exact fun h => h
            | ok r2 =>
              obtain ⟨b2, st2, cx2⟩ := r2
              rintro ⟨g1, g2, g3⟩
              refine ⟨hc.trans g1, ⟨g2.here, Nat.le_trans (Nat.le_of_lt hadv) g2.adv, Later.trans hn hb.src g2.src⟩, ?_⟩
              revert g3
              cases b2 with
              | true => exact id
              | false =>
                simp only [Bool.false_eq_true, ↓reduceIte]
                rintro ⟨g3, g4⟩
                exact ⟨g3, by omega⟩

variable {H : Hooks σ}

theorem rollback_ok (hH : HOk s t k0 F pr I H) {cx cx' : Cx σ} (h : CxOk I cx cx') (c : Int) : CxOk I cx (cx'.rollback H c) :=
  ⟨h.dis, h.nest, hH.rollback _ _ h.inv⟩

theorem matchSequence_ok (hn : 0#8 ∉ t) (hH : HOk s t k0 F pr I H) (m : St → Cx σ → Res (Out σ)) (lo : Nat) (hm : MOk s t k0 F pr I lo m)
    (st : St) (cx : Cx σ) (hlo : lo ≤ st.pat) (hi : In s F pr st.pat) (hsrc : SrcOk t k0 st.src) (hI : I cx.data) :
    SeqOk s t k0 F pr I exprEnd st cx (matchSequence (s ++ [0#8]) H m st cx) := by
  unfold matchSequence
  cases hrd : rd (s ++ [0#8]) st.pat with
  | error e => exact rd_err hi hrd
  | ok b =>
    rw [res_bind_ok]
    split
    · rename_i h
      exact ⟨CxOk.refl hI, ⟨hi, Nat.le_refl _, Later.refl hsrc⟩, b, hrd, h⟩
    · have h := seqLoop_ok hn exprEnd (seqLoop (s ++ [0#8])) (fun _ _ _ _ => rfl) (by decide) lo m hm ((s ++ [0#8]).length + 1) st cx hlo hi hsrc hI
        (by simp; omega) (by omega)
      revert h
      simp only
      cases seqLoop (s ++ [0#8]) m ((s ++ [0#8]).length + 1) st cx with
      | error e => exact fun h => h
      | ok r =>
        obtain ⟨b, st', cx'⟩ := r
        rintro ⟨h1, h2, h3⟩
        rw [res_bind_ok]
        cases b with
        | true => exact ⟨h1, h2, h3⟩
        | false => exact ⟨rollback_ok hH h1 _, h2, h3⟩

theorem repLoop_ok (hn : 0#8 ∉ t) (hH : HOk s t k0 F pr I H) (m : St → Cx σ → Res (Out σ)) (skip : Nat → Res Nat) (rep : Nat) (hir : In s F pr rep)
    (hm : MOk s t k0 F pr I rep m) (hsk : SOk s F pr rep skip) (once : Bool) :
    ∀ (k : Nat) (st : St) (cx : Cx σ) (j : Nat), k0 ≤ j → j ≤ (decodeAll t).length → st.src = srcAt t j → rep ≤ st.pat → I cx.data →
      (decodeAll t).length < j + k → 1 ≤ k →
      RepOk s t k0 F pr I rep st.src cx (repLoop H m skip once rep k st cx) := by
  intro k
  induction k with
  | zero => intro st cx j _ _ _ _ _ _ h; omega
  | succ k ih =>
    intro st cx j hj0 hj hsrc hrep hI hk _
    unfold repLoop
    have hso : SrcOk t k0 st.src := ⟨j, hj0, hj, hsrc⟩
    have h1 := hm ⟨rep, st.src⟩ cx (Nat.le_refl _) hir hso hI
    revert h1
    simp only
    cases m ⟨rep, st.src⟩ cx with
    | error e => exact fun h => h
    | ok r =>
      obtain ⟨b, st', cx'⟩ := r
      rintro ⟨hc, hb⟩
      rw [res_bind_ok]
      cases b with
      | true =>
        simp only [↓reduceIte] at hb ⊢
        have hadv : rep ≤ st'.pat := by
          have := hb.adv
          simp only at this
          omega
        split
        · exact ⟨hc, hb.here, hadv, hb.src⟩
        · rename_i hne
          obtain ⟨a, j', h0, h1, h2, h3, h4⟩ := hb.src
          have haj : a = j := (srcAt_inj t hn (by omega) hj).mp (by rw [← h3, ← hsrc])
          subst haj
          have : a ≠ j' := by
            rintro rfl
            apply hne
            simp [h4, hsrc]
          have h5 := ih st' cx' j' (by omega) h2 h4 hadv hc.inv (by omega) (by omega)
          revert h5
          cases repLoop H m skip once rep k st' cx' with
          | error e => exact fun h => h
          | ok r2 =>
            rintro ⟨g1, g2, g3, g4⟩
            exact ⟨hc.trans g1, g2, g3, Later.trans hn ⟨a, j', h0, h1, h2, hsrc, h4⟩ g4⟩
      | false =>
        simp only [Bool.false_eq_true, ↓reduceIte] at hb ⊢
        have h2 := hsk st'.pat hb.adv hb.here (Or.inl hb.lt)
        revert h2
        cases skip st'.pat with
        | error e => exact fun h => h
        | ok p =>
          rintro ⟨g1, g2⟩
          have := hb.adv
          have hsr := hb.src
          simp only at this hsr
          refine ⟨rollback_ok hH hc _, g2, ?_, ?_⟩
          · simp only; omega
          · rw [hsr]; exact Later.refl hso

theorem CxOk.nested {cx : Cx σ} {n : Int} {cx' : Cx σ} (h : CxOk I { cx with nesting := cx.nesting + n } cx') : CxOk I cx { cx' with nesting := cx'.nesting - n } :=
  ⟨h.dis, by have := h.nest; simp only at this ⊢; omega, h.inv⟩

theorem CxOk.looked {cx : Cx σ} {cx' : Cx σ} (h : CxOk I { cx with disabled := cx.disabled + 1 } cx') : CxOk I cx { cx' with disabled := cx'.disabled - 1 } :=
  ⟨by have := h.dis; simp only at this ⊢; omega, h.nest, h.inv⟩

theorem repeatAtom_ok (hn : 0#8 ∉ t) (hH : HOk s t k0 F pr I H) (m : St → Cx σ → Res (Out σ)) (skip : Nat → Res Nat) (rc : Byte) (st : St) (cx : Cx σ)
    (hm : MOk s t k0 F pr I st.pat m) (hsk : SOk s F pr st.pat skip) (hi : In s F pr st.pat) (hsrc : SrcOk t k0 st.src) (hI : I cx.data) :
    RepAOk s t k0 F pr I st cx (repeatAtom (t ++ [0#8]) H m skip rc st cx) := by
  unfold repeatAtom
  generalize (if rc != 0x3F#8 then (1 : Int) else 0) = n
  simp only
  have hfirst : RepAOk s t k0 F pr I st { cx with nesting := cx.nesting + n } (repFirst m rc st { cx with nesting := cx.nesting + n }) := by
    unfold repFirst
    split
    · have h1 := hm st { cx with nesting := cx.nesting + n } (Nat.le_refl _) hi hsrc hI
      revert h1
      cases m st { cx with nesting := cx.nesting + n } with
      | error e => exact fun h => h
      | ok r =>
        obtain ⟨b, st', cx'⟩ := r
        rintro ⟨hc, hb⟩
        refine ⟨hc, ?_, ?_⟩
        · rintro rfl
          simp only [↓reduceIte] at hb
          have := hb.adv
          exact ⟨hb.here, by omega, hb.src⟩
        · rintro rfl
          simp only [Bool.false_eq_true, ↓reduceIte] at hb
          have h1 := hb.adv
          have h2 := hb.lt
          exact ⟨by omega, hb.adv, hb.here⟩
    · exact ⟨CxOk.refl hI, fun _ => ⟨hi, Nat.le_refl _, Later.refl hsrc⟩, fun h => by cases h⟩
  revert hfirst
  cases repFirst m rc st { cx with nesting := cx.nesting + n } with
  | error e => exact fun h => h
  | ok r =>
    obtain ⟨b, st', cx'⟩ := r
    rintro ⟨hc, ht, hf⟩
    rw [res_bind_ok]
    cases b with
    | false =>
      exact ⟨hc.nested, (fun h => by cases h), fun _ => hf rfl⟩
    | true =>
      simp only [↓reduceIte]
      obtain ⟨g1, g2, g3⟩ := ht rfl
      obtain ⟨j, hj0, hj, hjs⟩ := g3.right
      have hlen := decodeAll_le t.length t (Nat.le_refl _)
      have h2 := repLoop_ok hn hH m skip st.pat hi hm hsk (rc == 0x3F#8) ((t ++ [0#8]).length + 1) st' cx' j hj0 hj hjs g2 hc.inv
        (by simp; omega) (by omega)
      revert h2
      cases repLoop H m skip (rc == 0x3F#8) st.pat ((t ++ [0#8]).length + 1) st' cx' with
      | error e => exact fun h => h
      | ok q =>
        obtain ⟨st2, cx2⟩ := q
        rintro ⟨k1, k2, k3, k4⟩
        exact ⟨(hc.trans k1).nested, fun _ => ⟨k2, k3, Later.trans hn g3 k4⟩, fun h => by cases h⟩

theorem altLoop_ok (hs : 0#8 ∉ s) (hn : 0#8 ∉ t) (hH : HOk s t k0 F pr I H) (m : St → Cx σ → Res (Out σ)) (skip : Nat → Res Nat) (lo : Nat)
    (hm : MOk s t k0 F pr I lo m) (hsk : SOk s F pr (lo - 1) skip) (initial : Int) :
    ∀ (k next : Nat) (st start : St) (cx : Cx σ), lo ≤ next + 1 → In s F pr next → SrcOk t k0 start.src → I cx.data → s.length < next + k → 1 ≤ k →
      (rd (s ++ [0#8]) next = .ok 0x7C#8 ∨ (start.pat < s.length ∧ lo ≤ start.pat ∧ In s F pr start.pat ∧ start.pat ≤ st.pat ∧ In s F pr st.pat)) →
      AltOk s t k0 F pr I lo start cx (altLoop (s ++ [0#8]) H m skip initial k next st start cx) := by
  intro k
  induction k with
  | zero => intro next st start cx _ _ _ _ _ h; omega
  | succ k ih =>
    intro next st start cx hlo hi hsrc hI hk _ hor
    unfold altLoop
    cases hrd : rd (s ++ [0#8]) next with
    | error e => exact rd_err hi hrd
    | ok b =>
      rw [res_bind_ok]
      split
      · rename_i hb
        have hb : b = 0x7C#8 := by simpa using hb
        subst hb
        have hlt := rd_nz hrd (by decide)
        have hi1 := in_step hi (not_nul hrd (by decide)) (by decide)
        simp only
        have h1 := seqLoop_ok hn (fun b => exprEnd b || b == 0x7C#8) (altAtoms (s ++ [0#8])) (fun _ _ _ _ => rfl) (by decide) lo m hm
          ((s ++ [0#8]).length + 1) ⟨next + 1, start.src⟩ cx hlo hi1 hsrc hI (by simp; omega) (by omega)
        revert h1
        cases altAtoms (s ++ [0#8]) m ((s ++ [0#8]).length + 1) ⟨next + 1, start.src⟩ cx with
        | error e => exact fun h => h
        | ok r =>
          obtain ⟨b, st', cx'⟩ := r
          rintro ⟨hc, hp, hb⟩
          rw [res_bind_ok]
          cases b with
          | true =>
            simp only [↓reduceIte] at hb ⊢
            obtain ⟨c, hc1, hc2⟩ := hb
            have hst' := hp.adv
            simp only at hst'
            have h2 : GoodN s F pr st'.pat (skipBars (s ++ [0#8]) skip ((s ++ [0#8]).length + 1) st'.pat) := by
              unfold skipBars
              exact skipTo_good hs skip _ (by decide) st'.pat (fun q hq h1 h2 => hsk q (by omega) h1 h2) _ _ (Nat.le_refl _) hp.here
                (by simp; omega) (by omega)
            revert h2
            cases skipBars (s ++ [0#8]) skip ((s ++ [0#8]).length + 1) st'.pat with
            | error e => exact fun h => h
            | ok p =>
              rintro ⟨h1, h2⟩
              exact ⟨hc, rfl, hlo, hlt, h2, by simp only; omega, hp.src⟩
          | false =>
            simp only [Bool.false_eq_true, ↓reduceIte] at hb ⊢
            have h2 := hsk next (by omega) hi (Or.inl hlt)
            revert h2
            cases skip next with
            | error e => exact fun h => h
            | ok next' =>
              rintro ⟨h1, h2⟩
              rw [res_bind_ok]
              have hrb := rollback_ok hH hc initial
              have h3 := ih next' st' ⟨next + 1, start.src⟩ (cx'.rollback H initial) (by omega) h2 hsrc hrb.inv (by omega) (by omega)
                (Or.inr ⟨hb.2, hlo, hi1, hp.adv, hp.here⟩)
              revert h3
              cases altLoop (s ++ [0#8]) H m skip initial k next' st' ⟨next + 1, start.src⟩ (cx'.rollback H initial) with
              | error e => exact fun h => h
              | ok r2 =>
                obtain ⟨b2, st2, start2, cx2⟩ := r2
                rintro ⟨a1, a2, a3, a4, a5⟩
                exact ⟨hrb.trans a1, a2, a3, a4, a5⟩
      · rename_i hb
        rcases hor with h | ⟨h1, h2, h3, h4, h5⟩
        · rw [hrd] at h; cases h; exact absurd rfl hb
        · exact ⟨CxOk.refl hI, rfl, h2, Nat.le_of_lt h1, h1, h3, h4, h5⟩


theorem fwd_next {start : St} {src' : Src} {p : Nat} (hp : start.pat < p) (hi : In s F pr p) (h : Later t k0 start.src src') : Fwd s t k0 F pr start ⟨p, src'⟩ :=
  ⟨hi, Or.inl hp, h⟩

theorem back_self {st : St} (hi : In s F pr st.pat) (h : st.pat < s.length) : Back s F pr st st := ⟨hi, Nat.le_refl _, h, rfl⟩

/-- a leaf that goes on to `p` or fails -/
theorem leaf_ok {start : St} {cx : Cx σ} {b : Bool} {p : Nat} {src' : Src} (hI : I cx.data) (hi : In s F pr start.pat) (hl : start.pat < s.length)
    (hp : start.pat < p) (hi' : In s F pr p) (h : Later t k0 start.src src') : BodyOk s t k0 F pr I start cx (.ok (b, ⟨p, src'⟩, start, cx)) := by
  refine ⟨CxOk.refl hI, rfl, Nat.le_refl _, Nat.le_of_lt hl, ?_⟩
  cases b with
  | true => exact fwd_next hp hi' h
  | false => exact ⟨back_self hi hl, Nat.le_of_lt hp, hi'.bd⟩

theorem charClass_ok (hs : 0#8 ∉ s) (hn : 0#8 ∉ t) {st : St} (hi : In s F pr st.pat) (hsrc : SrcOk t k0 st.src)
    (hct : pr = true → (∀ c ∈ decodeAll t, InCtype c) ∨ F .ub) :
    match charClass (s ++ [0#8]) (t ++ [0#8]) st with
    | .error e => F e
    | .ok r => st.pat ≤ r.2.pat ∧ In s F pr r.2.pat ∧ Later t k0 st.src r.2.src := by
  obtain ⟨e, he, hg⟩ := eof_ok hn hsrc
  unfold charClass
  rw [he, res_bind_ok]
  cases e with
  | true => exact ⟨Nat.le_refl _, hi, Later.refl hsrc⟩
  | false =>
    obtain ⟨c, src', h1, h2, h3⟩ := hg rfl
    rw [if_neg (by decide), h1]
    have hc := caret_good hi (s := s) (F := F) (pr := pr)
    revert hc
    cases caret (s ++ [0#8]) st.pat with
    | error e => exact fun h => h
    | ok n =>
      rintro ⟨n1, n2⟩
      rw [res_bind_ok, res_bind_ok]
      have hch : pr = true → InCtype c ∨ F .ub := fun h => (hct h).imp (fun h => h c h3) id
      have hl := classLoop_good hs c hch ((s ++ [0#8]).length + 1) n.2 false n2 (by simp; omega) (by omega)
      revert hl
      simp only
      cases classLoop (s ++ [0#8]) c ((s ++ [0#8]).length + 1) n.2 false with
      | error e => exact fun h => h
      | ok r =>
        rintro ⟨r1, r2⟩
        rw [res_bind_ok]
        have hcl := closeClass_good r2
        revert hcl
        cases closeClass (s ++ [0#8]) r.2 with
        | error e => exact fun h => h
        | ok p =>
          rintro ⟨p1, p2⟩
          exact ⟨by simp only; omega, p2, h2⟩

theorem body_ite {start : St} {cx : Cx σ} {c : Bool} {a b : Res (Bool × St × St × Cx σ)} (h1 : c = true → BodyOk s t k0 F pr I start cx a)
    (h2 : c ≠ true → BodyOk s t k0 F pr I start cx b) : BodyOk s t k0 F pr I start cx (if c then a else b) := by
  split
  · rename_i h; exact h1 h
  · rename_i h; exact h2 h

theorem atomBody_ok (hs : 0#8 ∉ s) (hn : 0#8 ∉ t) (hH : HOk s t k0 F pr I H) (hct : pr = true → (∀ c ∈ decodeAll t, InCtype c) ∨ F .ub)
    (m : St → Cx σ → Res (Out σ)) (skip : Nat → Res Nat) (rc : Byte) (start : St) (cx : Cx σ)
    (hm : MOk s t k0 F pr I (start.pat + 1) m) (hsk : SOk s F pr start.pat skip) (hrc : rd (s ++ [0#8]) start.pat = .ok rc)
    (hi : In s F pr start.pat) (hsrc : SrcOk t k0 start.src) (hI : I cx.data) :
    BodyOk s t k0 F pr I start cx (atomBody (s ++ [0#8]) (t ++ [0#8]) H m skip rc start cx) := by
  unfold atomBody
  by_cases h0 : rc = 0#8
  · subst h0
    have := rd_zero hs hrc
    rw [if_pos (by decide)]
    refine ⟨CxOk.refl hI, rfl, Nat.le_refl _, by omega, ?_⟩
    exact ⟨hi, Or.inr ⟨this, this⟩, Later.refl hsrc⟩
  rw [if_neg (by simpa using h0)]
  have hsp := not_nul hrc h0
  have hl : start.pat < s.length := rd_nz hrc h0
  by_cases hbs : rc = 0x5C#8
  · subst hbs
    iterate 4 rw [if_neg (by decide)]
    rw [if_pos (by decide)]
    obtain ⟨e, he, hg⟩ := eof_ok hn hsrc
    simp only
    rw [he, res_bind_ok]
    have hlit := literal_esc hs hi hsp
    cases e with
    | true =>
      rw [if_pos rfl]
      refine ⟨CxOk.refl hI, rfl, Nat.le_refl _, Nat.le_of_lt hl, ?_⟩
      exact ⟨back_self hi hl, Nat.le_succ _, Or.inl hl⟩
    | false =>
      obtain ⟨c, src', h1, h2, h3⟩ := hg rfl
      rw [if_neg (by decide), h1, res_bind_ok]
      have hch : pr = true → InCtype c ∨ F .ub := fun h => (hct h).imp (fun h => h c h3) id
      have h4 := charProperty_good hs hi hsp c hch
      revert h4
      simp only
      cases charProperty (s ++ [0#8]) (start.pat + 1) c with
      | error e => exact fun h => h
      | ok r =>
        rintro ⟨r1, r2⟩
        rw [res_bind_ok]
        exact leaf_ok hI hi hl (by omega) r2 h2
  have hi1 := in_step hi hsp hbs
  refine body_ite (fun hcond => ?_) (fun _ => ?_)
  · exact leaf_ok hI hi hl (Nat.lt_succ_self _) hi1 (Later.refl hsrc)
  refine body_ite (fun hcond => ?_) (fun _ => ?_)
  · exact leaf_ok hI hi hl (Nat.lt_succ_self _) hi1 (Later.refl hsrc)
  refine body_ite (fun hcond => ?_) (fun _ => ?_)
  · obtain ⟨e, he, hg⟩ := eof_ok hn hsrc
    rw [he, res_bind_ok]
    cases e with
    | true => exact leaf_ok hI hi hl (Nat.lt_succ_self _) hi1 (Later.refl hsrc)
    | false =>
      obtain ⟨c, src', h1, h2, h3⟩ := hg rfl
      rw [if_neg (by decide), h1, res_bind_ok]
      exact leaf_ok hI hi hl (Nat.lt_succ_self _) hi1 (Later.refl hsrc)
  refine body_ite (fun hcond => ?_) (fun _ => ?_)
  · obtain ⟨b, src', h1, h2⟩ := charIf_ok hn (fun _ => true) hsrc
    rw [h1, res_bind_ok]
    exact leaf_ok hI hi hl (Nat.lt_succ_self _) hi1 h2
  refine body_ite (fun hcond => ?_) (fun _ => ?_)
  · exact absurd (by simpa using hcond) hbs
  refine body_ite (fun hcond => ?_) (fun _ => ?_)
  · have h := charClass_ok hs hn (st := ⟨start.pat + 1, start.src⟩) hi1 hsrc hct
    revert h
    cases charClass (s ++ [0#8]) (t ++ [0#8]) ⟨start.pat + 1, start.src⟩ with
    | error e => exact fun h => h
    | ok r =>
      rintro ⟨r1, r2, r3⟩
      rw [res_bind_ok]
      exact leaf_ok hI hi hl (Nat.lt_of_lt_of_le (Nat.lt_succ_self _) r1) r2 r3
  refine body_ite (fun hcond => ?_) (fun _ => ?_)
  · have h := repeatAtom_ok hn hH m skip rc ⟨start.pat + 1, start.src⟩ cx hm (fun q hq => hsk q (by simp only at hq; omega)) hi1 hsrc hI
    revert h
    cases repeatAtom (t ++ [0#8]) H m skip rc ⟨start.pat + 1, start.src⟩ cx with
    | error e => exact fun h => h
    | ok r =>
      obtain ⟨b, st', cx'⟩ := r
      rintro ⟨r1, r2, r3⟩
      rw [res_bind_ok]
      refine ⟨r1, rfl, Nat.le_refl _, Nat.le_of_lt hl, ?_⟩
      cases b with
      | true =>
        obtain ⟨a1, a2, a3⟩ := r2 rfl
        exact fwd_next (by simp only at a2; omega) a1 a3
      | false =>
        obtain ⟨a1, a2, a3⟩ := r3 rfl
        exact ⟨back_self hi hl, by simp only at a2 ⊢; omega, a3.bd⟩
  refine body_ite (fun hcond => ?_) (fun _ => ?_)
  · have h := matchSequence_ok hn hH m (start.pat + 1) hm ⟨start.pat + 1, start.src⟩ cx (Nat.le_refl _) hi1 hsrc hI
    revert h
    cases matchSequence (s ++ [0#8]) H m ⟨start.pat + 1, start.src⟩ cx with
    | error e => exact fun h => h
    | ok r =>
      obtain ⟨b, st', cx'⟩ := r
      rintro ⟨r1, r2, r3⟩
      rw [res_bind_ok]
      have hadv := r2.adv
      simp only at hadv
      cases b with
      | true =>
        simp only [↓reduceIte] at r3 ⊢
        obtain ⟨c, c1, c2⟩ := r3
        rw [c1, res_bind_ok]
        refine ⟨r1, rfl, Nat.le_refl _, Nat.le_of_lt hl, ?_⟩
        simp only [↓reduceIte]
        split
        · rename_i hc
          have hc : c ≠ 0#8 := by simpa using hc
          refine fwd_next (by omega) (in_step r2.here (not_nul c1 hc) ?_) r2.src
          rintro rfl
          exact absurd c2 (by decide)
        · exact ⟨r2.here, Or.inl (by omega), r2.src⟩
      | false =>
        refine ⟨r1, rfl, Nat.le_refl _, Nat.le_of_lt hl, back_self hi hl, ?_, r2.here.bd⟩
        simp only
        omega
  refine body_ite (fun hcond => ?_) (fun _ => ?_)
  · have hbar : rc = 0x7C#8 := by simpa using hcond
    subst hbar
    have h := altLoop_ok hs hn hH m skip (start.pat + 1) hm hsk (H.count cx.data) ((s ++ [0#8]).length + 1) start.pat ⟨start.pat + 1, start.src⟩ start cx
      (Nat.le_refl _) hi hsrc hI (by simp; omega) (by omega) (Or.inl hrc)
    revert h
    cases altLoop (s ++ [0#8]) H m skip (H.count cx.data) ((s ++ [0#8]).length + 1) start.pat ⟨start.pat + 1, start.src⟩ start cx with
    | error e => exact fun h => h
    | ok r =>
      obtain ⟨b, st', start', cx'⟩ := r
      rintro ⟨r1, r2, r3, r4, r5⟩
      refine ⟨r1, r2, by omega, r4, ?_⟩
      cases b with
      | true =>
        simp only [↓reduceIte] at r5 ⊢
        exact ⟨r5.1, Or.inl (by omega), r5.2.2⟩
      | false =>
        simp only [Bool.false_eq_true, ↓reduceIte] at r5 ⊢
        exact ⟨⟨r5.2.1, by omega, r5.1, r2⟩, r5.2.2.1, r5.2.2.2.bd⟩
  refine body_ite (fun hcond => ?_) (fun _ => ?_)
  · have h := hm ⟨start.pat + 1, start.src⟩ { cx with disabled := cx.disabled + 1 } (Nat.le_refl _) hi1 hsrc hI
    revert h
    cases m ⟨start.pat + 1, start.src⟩ { cx with disabled := cx.disabled + 1 } with
    | error e => exact fun h => h
    | ok r =>
      obtain ⟨b, st', cx'⟩ := r
      rintro ⟨r1, -⟩
      rw [res_bind_ok]
      refine body_ite (fun _ => ?_) (fun _ => ?_)
      · have h2 := hsk start.pat (Nat.le_refl _) hi (Or.inl hl)
        revert h2
        cases skip start.pat with
        | error e => exact fun h => h
        | ok p =>
          rintro ⟨p1, p2⟩
          rw [res_bind_ok]
          exact ⟨r1.looked, rfl, Nat.le_refl _, Nat.le_of_lt hl, fwd_next (by omega) p2 (Later.refl hsrc)⟩
      · exact ⟨r1.looked, rfl, Nat.le_refl _, Nat.le_of_lt hl, back_self hi hl, Nat.le_refl _, hi.bd⟩
  refine body_ite (fun hcond => ?_) (fun _ => ?_)
  · have h := hH.ext rc start cx hsp hcond hi hsrc hI
    revert h
    cases H.ext start cx with
    | error e => exact fun h => h
    | ok r =>
      obtain ⟨b, st', cx'⟩ := r
      rintro ⟨r1, r2⟩
      rw [res_bind_ok]
      refine ⟨r1, rfl, Nat.le_refl _, Nat.le_of_lt hl, ?_⟩
      cases b with
      | true => exact r2
      | false => exact ⟨back_self hi hl, r2.2, r2.1⟩
  · obtain ⟨b, src', h1, h2⟩ := charIf_ok hn (fun c => sx rc == c) hsrc
    rw [h1, res_bind_ok]
    exact leaf_ok hI hi hl (Nat.lt_succ_self _) hi1 h2

theorem failAtom_ok (hH : HOk s t k0 F pr I H) (rc : Byte) (initial : Int) (st st' start' : St) (cx cx' : Cx σ) (h1 : CxOk I cx cx')
    (h2 : Back s F pr st start') (h3 : start'.pat ≤ st'.pat) (h4 : Bd s F st'.pat) (hsrc : SrcOk t k0 st.src) :
    AtomOk s t k0 F pr I st cx (failAtom H rc initial st' start' cx') := by
  unfold failAtom
  have hrb := rollback_ok hH h1 initial
  simp only
  split
  · exact ⟨hrb, h2⟩
  · have h := hH.record (cx'.rollback H initial).disabled start'.pat st'.pat start'.src (cx'.rollback H initial).data h2.lt h3 h4 (h2.src ▸ hsrc) hrb.inv
    revert h
    cases H.record (cx'.rollback H initial).disabled start'.pat st'.pat start'.src (cx'.rollback H initial).data with
    | error e => exact fun h => h
    | ok d => exact fun h => ⟨⟨hrb.dis, hrb.nest, h⟩, h2⟩

theorem nameEnd_le : ∀ (k p q : Nat), nameEnd (s ++ [0#8]) k p = .ok q → p ≤ q ∧ q ≤ s.length := by
  intro k
  induction k with
  | zero => intro p q h; cases h
  | succ k ih =>
    intro p q h
    unfold nameEnd at h
    obtain ⟨b, hb, h⟩ := hbind h
    obtain ⟨a, -, h⟩ := hbind h
    split at h
    · have := ih _ _ h
      omega
    · cases h
      exact ⟨Nat.le_refl _, rd_le hb⟩

theorem passAtom_ok (hH : HOk s t k0 F pr I H) (st st' start' : St) (cx cx' : Cx σ) (h1 : CxOk I cx cx') (h2 : Fwd s t k0 F pr st st')
    (h3 : start'.src = st.src) (h4 : start'.pat ≤ s.length) : AtomOk s t k0 F pr I st cx (passAtom (s ++ [0#8]) H st' start' cx') := by
  unfold passAtom
  have hl := label_good h2.here
  have hn : ∀ l, label (s ++ [0#8]) st'.pat = .ok l → (l.1 = none → l.2 = st'.pat) ∧ (∀ a e, l.1 = some (a, e) → a ≤ e ∧ e ≤ s.length ∧ st'.pat < s.length) := by
    intro l hlab
    unfold label at hlab
    obtain ⟨b, hb, h⟩ := hbind hlab
    split at h
    · rename_i hc
      obtain ⟨e, he, h⟩ := hbind h
      obtain ⟨q, hq, h⟩ := hbind h
      cases h
      refine ⟨(fun h => by cases h), fun a e' hae => ?_⟩
      cases hae
      have := nameEnd_le _ _ _ he
      exact ⟨this.1, this.2, rd_nz hb (by rintro rfl; simp at hc)⟩
    · cases h
      exact ⟨fun _ => rfl, fun a e h => by cases h⟩
  revert hl
  cases hlab : label (s ++ [0#8]) st'.pat with
  | error e => exact fun h => h
  | ok l =>
    rintro ⟨l1, l2⟩
    rw [res_bind_ok]
    simp only
    have hfwd : Fwd s t k0 F pr st ⟨l.2, st'.src⟩ := by
      refine ⟨l2, ?_, h2.src⟩
      rcases h2.adv with h | ⟨h, h'⟩
      · left; simp only; omega
      · right
        refine ⟨h, ?_⟩
        obtain ⟨hn1, hn2⟩ := hn l hlab
        cases hl1 : l.1 with
        | none => simp only; rw [hn1 hl1, h']
        | some ae => have := (hn2 ae.1 ae.2 hl1).2.2; omega
    split
    · rename_i name hname
      split
      · obtain ⟨a, e⟩ := name
        obtain ⟨hae1, hae2, -⟩ := (hn l hlab).2 a e hname
        have h := hH.capture a e start' ⟨l.2, st'.src⟩ (decide (cx'.nesting > 0)) cx'.data hae1 hae2 h4 (by rw [h3]; exact h2.src) h1.inv
        revert h
        cases H.capture (a, e) start' ⟨l.2, st'.src⟩ (decide (cx'.nesting > 0)) cx'.data with
        | error e => exact fun h => h
        | ok d => exact fun h => ⟨⟨h1.dis, h1.nest, h⟩, hfwd⟩
      · exact ⟨h1, hfwd⟩
    · exact ⟨h1, hfwd⟩

theorem matchAtom_ok (hs : 0#8 ∉ s) (hn : 0#8 ∉ t) (hH : HOk s t k0 F pr I H) (hct : pr = true → (∀ c ∈ decodeAll t, InCtype c) ∨ F .ub) :
    ∀ (n : Nat) (st : St) (cx : Cx σ), s.length + 2 ≤ st.pat + n → 1 ≤ n → In s F pr st.pat → SrcOk t k0 st.src → I cx.data →
      AtomOk s t k0 F pr I st cx (matchAtom (s ++ [0#8]) (t ++ [0#8]) H n st cx) := by
  intro n
  induction n with
  | zero => intro st cx _ h; omega
  | succ n ih =>
    intro st cx hn1 _ hi hsrc hI
    unfold matchAtom atomStep
    cases hrd : rd (s ++ [0#8]) st.pat with
    | error e => exact rd_err hi hrd
    | ok rc =>
      rw [res_bind_ok]
      have hle := rd_le hrd
      have hb := atomBody_ok hs hn hH hct (matchAtom (s ++ [0#8]) (t ++ [0#8]) H n) (skipAtom (s ++ [0#8]) H.skipExt ((s ++ [0#8]).length + 1)) rc st cx
        (fun st' cx' h1 h2 h3 h4 => ih st' cx' (by omega) (by omega) h2 h3 h4)
        (fun q _ h1 h2 => skipAtom_good hs H.skipExt hH.skipExt _ q h1 h2 (by simp) (by omega)) hrd hi hsrc hI
      revert hb
      cases atomBody (s ++ [0#8]) (t ++ [0#8]) H (matchAtom (s ++ [0#8]) (t ++ [0#8]) H n) (skipAtom (s ++ [0#8]) H.skipExt ((s ++ [0#8]).length + 1)) rc st cx with
      | error e => exact fun h => h
      | ok r =>
        obtain ⟨b, st', start', cx'⟩ := r
        rintro ⟨r1, r2, r3, r4, r5⟩
        rw [res_bind_ok]
        cases b with
        | true => exact passAtom_ok hH _ _ _ _ _ r1 r5 r2 r4
        | false => exact failAtom_ok hH _ _ _ _ _ _ _ r1 r5.1 r5.2.1 r5.2.2 hsrc

theorem matchHere_ok (hs : 0#8 ∉ s) (hn : 0#8 ∉ t) (hH : HOk s t k0 F pr I H) (hct : pr = true → (∀ c ∈ decodeAll t, InCtype c) ∨ F .ub)
    (hi : In s F pr 0) (src : Src) (hsrc : SrcOk t k0 src) (cx : Cx σ) (hI : I cx.data) :
    match matchHere (s ++ [0#8]) (t ++ [0#8]) H src cx with
    | .error e => F e
    | .ok (b, st', cx') => CxOk I cx cx' ∧ Later t k0 src st'.src ∧ (if b then st'.pat = s.length else st'.pat < s.length ∧ In s F pr st'.pat) := by
  unfold matchHere
  have h := matchSequence_ok hn hH (matchAtom (s ++ [0#8]) (t ++ [0#8]) H ((s ++ [0#8]).length + 1)) 0
    (fun st cx h1 h2 h3 h4 => matchAtom_ok hs hn hH hct _ st cx (by simp) (by omega) h2 h3 h4) ⟨0, src⟩ cx (Nat.le_refl _) hi hsrc hI
  revert h
  cases matchSequence (s ++ [0#8]) H (matchAtom (s ++ [0#8]) (t ++ [0#8]) H ((s ++ [0#8]).length + 1)) ⟨0, src⟩ cx with
  | error e => exact fun h => h
  | ok r =>
    obtain ⟨b, st', cx'⟩ := r
    rintro ⟨r1, r2, r3⟩
    rw [res_bind_ok]
    cases b with
    | false =>
      simp only [Bool.false_eq_true, ↓reduceIte] at r3 ⊢
      exact ⟨r1, r2.src, r3.1, r2.here⟩
    | true =>
      simp only [↓reduceIte] at r3 ⊢
      obtain ⟨c, c1, c2⟩ := r3
      rw [c1, res_bind_ok]
      refine ⟨r1, r2.src, ?_⟩
      by_cases hc : c = 0#8
      · subst hc
        simp only [BEq.rfl, ↓reduceIte]
        exact rd_zero hs c1
      · rw [if_neg (by simpa using hc)]
        exact ⟨rd_nz c1 hc, r2.here⟩

end

end Strpp.Pex
