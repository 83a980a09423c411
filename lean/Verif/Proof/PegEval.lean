import Verif.Proof.PegSafe
import Verif.Proof.PegSkip
import Verif.Proof.PegCapSem
/-! Matching well-formed expressions: the interpreter does what the meaning says. -/
namespace Strpp.Pex
open Spec

/-! ### Line starts -/

theorem srcAt_col (t : List Byte) (k : Nat) (hk : k ≤ (decodeAll t).length) :
    1 ≤ (srcAt t k).col ∧ ((srcAt t k).col = 1 ↔ k = 0 ∨ (decodeAll t)[k - 1]? = some 0x0A#32) := by
  induction k with
  | zero => simp [srcAt, Src.start]
  | succ k ih =>
    have ih := ih (by omega)
    obtain ⟨h1, h2, h3⟩ := srcAt_facts t k (by omega)
    have hlt := srcAt_pos_lt t k (by omega)
    have hne : t.drop (srcAt t k).pos ≠ [] := by
      intro h'
      have := congrArg List.length h'
      simp at this
      omega
    obtain ⟨c, n, hd⟩ := decode1_some _ hne
    have hc : (decodeAll t)[k]? = some c := by
      have hst := decodeAll_step _ _ _ hd
      rw [h2] at hst
      have : ((decodeAll t).drop k)[0]? = some c := by rw [hst]; rfl
      simpa using this
    rw [srcAt, hd]
    simp only [Nat.add_sub_cancel, hc, Nat.add_eq_zero_iff, Nat.succ_ne_self, and_false, false_or, Option.some.injEq]
    unfold bump
    by_cases h : c = 0x0A#32
    · subst h; simp
    · rw [if_neg (by simpa using h)]
      simp only [h, iff_false]
      omega

section
variable {σ : Type} {s t : List Byte} {k0 : Nat} {special : Byte → Bool} {calls top : Bool} {C : CallC} {R : List CapEvent → σ → Prop} {H : Hooks σ}

/-- what a result is -/
def outp (t : List Byte) (p len k : Nat) (r : Option Nat) (cx' : Cx σ) : Out σ :=
  match r with
  | some k' => (true, ⟨p + len, srcAt t k'⟩, cx')
  | none => (false, ⟨p, srcAt t k⟩, cx')

def outq (t : List Byte) (p len : Nat) (r : Option Nat) (st' : St) (cx' : Cx σ) : Out σ :=
  match r with
  | some k' => (true, ⟨p + len, srcAt t k'⟩, cx')
  | none => (false, st', cx')

/-- The context when captures count if `on`, in a repetition if `rep`, and there have been captures `g` -/
structure Pre (R : List CapEvent → σ → Prop) (on rep : Bool) (g : List CapEvent) (cx : Cx σ) : Prop where
  dis : 0 ≤ cx.disabled
  nest : 0 ≤ cx.nesting
  on : on = (cx.disabled == 0)
  rep : rep = decide (cx.nesting > 0)
  inv : R g cx.data

theorem Pre.next {on rep : Bool} {g g' : List CapEvent} {cx cx' : Cx σ} (h : Pre R on rep g cx) (h' : CxOk (R g') cx cx') : Pre R on rep g' cx' :=
  ⟨by rw [h'.dis]; exact h.dis, by rw [h'.nest]; exact h.nest, by rw [h'.dis]; exact h.on, by rw [h'.nest]; exact h.rep, h'.inv⟩

/-- the same, with captures disabled once more -/
theorem Pre.off {on rep : Bool} {g : List CapEvent} {cx : Cx σ} (h : Pre R on rep g cx) : Pre R false rep g { cx with disabled := cx.disabled + 1 } :=
  ⟨by have := h.dis; simp only; omega, h.nest, by have := h.dis; symm; simp only [beq_eq_false_iff_ne]; omega, h.rep, h.inv⟩

/-- What is known of the captures when a sequence has ended: if it failed they have not been rolled back yet -/
def Post (R : List CapEvent → σ → Prop) (g : List CapEvent) (r : Option Nat) (g' : List CapEvent) (d : σ) : Prop :=
  match r with
  | some _ => R g' d
  | none => ∃ gx, left g gx = g' ∧ R gx d

/-- What is required of a Context and a subclass -/
structure EOk (s t : List Byte) (k0 : Nat) (special : Byte → Bool) (calls top : Bool) (C : CallC) (R : List CapEvent → σ → Prop) (H : Hooks σ) : Prop where
  rollback : ∀ g0 g d0 d, R g0 d0 → R g d → R (left g0 g) (H.rollback (H.count d0) d)
  capture : ∀ a name post st st' rep k k' g d, Here s a name post → (∀ b ∈ name, nameByte b = true) → st.pat < st'.pat → st.pat ≤ s.length → k0 ≤ k → k ≤ k' → k' ≤ (decodeAll t).length →
    st.src = srcAt t k → st'.src = srcAt t k' → R g d →
    ∃ d', H.capture (a, a + name.length) st st' rep d = .ok d' ∧ R (note ⟨letters name, valueOf top (decodeAll t) k k' g, rep⟩ g) d'
  record : ∀ dis op oe src g d, op < s.length → op ≤ oe → oe ≤ s.length → SrcOk t k0 src → R g d → ∃ d', H.record dis op oe src d = .ok d' ∧ R g d'
  lit : ∀ st cx b, rd (s ++ [0#8]) st.pat = .ok b → isExtended b = true → special b = false → H.ext st cx = matchLiteral (s ++ [0#8]) (t ++ [0#8]) st cx
  skip : SkOk s special calls H.skipExt
  call : calls = true → ∀ on rep name lab k g r g' p post cx, (Expr.call name lab).wf special calls .atom → C on rep name lab k g r g' → k0 ≤ k → k ≤ (decodeAll t).length →
    Here s p (Expr.call name lab).bytes post → (p = 0 → k = k0) → nxt post ≠ 0x3A#8 → Pre R on rep g cx →
    ∃ cx' st', CxOk (R g') cx cx' ∧ p ≤ st'.pat ∧ st'.pat ≤ s.length ∧ H.ext ⟨p, srcAt t k⟩ cx = .ok (outq t p (Expr.call name lab).bytes.length r st' cx')

/-- matches end where characters are -/
theorem sem_le {C : List Byte → Nat → Option Nat → Prop} (hC : ∀ n k k', C n k (some k') → k ≤ (decodeAll t).length → k ≤ k' ∧ k' ≤ (decodeAll t).length) {e : Expr} {k : Nat} {r : Option Nat}
    (h : Sem C (decodeAll t) e k r) : k ≤ (decodeAll t).length → ∀ k', r = some k' → k ≤ k' ∧ k' ≤ (decodeAll t).length := by
  induction h with
  | one_yes h _ =>
    intro hk k' hr
    cases hr
    have := (List.getElem?_eq_some_iff.mp h).1
    omega
  | call h =>
    rintro hk k' rfl
    exact hC _ _ _ h hk
  | seq_yes _ _ ih1 ih2 =>
    intro hk k' hr
    have h1 := ih1 hk _ rfl
    have h2 := ih2 h1.2 _ hr
    omega
  | star_more _ _ _ ih1 ih2 =>
    intro hk k' hr
    have h1 := ih1 hk _ rfl
    have h2 := ih2 h1.2 _ hr
    omega
  | plus_yes _ _ ih1 ih2 =>
    intro hk k' hr
    have h1 := ih1 hk _ rfl
    have h2 := ih2 h1.2 _ hr
    omega
  | grp _ ih => exact ih
  | label _ ih => exact ih
  | bar _ ih => exact ih
  | opt_yes _ ih => exact ih
  | alt_first _ ih => exact ih
  | alt_next _ _ _ ih => exact ih
  | one_no _ => intro _ _ h; cases h
  | bol_no _ => intro _ _ h; cases h
  | eol_no _ => intro _ _ h; cases h
  | plus_no _ _ => intro _ _ h; cases h
  | and_no _ _ => intro _ _ h; cases h
  | not_no _ _ => intro _ _ h; cases h
  | seq_no _ _ => intro _ _ h; cases h
  | bol_yes _ => intro hk k' hr; cases hr; exact ⟨Nat.le_refl _, hk⟩
  | eol_yes _ => intro hk k' hr; cases hr; exact ⟨Nat.le_refl _, hk⟩
  | opt_no _ _ => intro hk k' hr; cases hr; exact ⟨Nat.le_refl _, hk⟩
  | star_end _ _ => intro hk k' hr; cases hr; exact ⟨Nat.le_refl _, hk⟩
  | star_stay _ _ => intro hk k' hr; cases hr; exact ⟨Nat.le_refl _, hk⟩
  | and_yes _ _ => intro hk k' hr; cases hr; exact ⟨Nat.le_refl _, hk⟩
  | not_yes _ _ => intro hk k' hr; cases hr; exact ⟨Nat.le_refl _, hk⟩
  | empty => intro hk k' hr; cases hr; exact ⟨Nat.le_refl _, hk⟩

/-- skip_atom as match_atom uses it -/
abbrev skipA (s : List Byte) (H : Hooks σ) : Nat → Res Nat := skipAtom (s ++ [0#8]) H.skipExt ((s ++ [0#8]).length + 1)

/-- what is known of matching `e` at `k` -/
structure Ev (s t : List Byte) (k0 : Nat) (special : Byte → Bool) (calls : Bool) (R : List CapEvent → σ → Prop) (H : Hooks σ) (on rep : Bool) (e : Expr) (k : Nat) (g : List CapEvent)
    (r : Option Nat) (g' : List CapEvent) : Prop where
  base : e.wf special calls .atom → e.labelled = true → ∀ p post n cx rc, Here s p e.bytes post → (p = 0 → k = k0) → s.length + 1 ≤ p + n → rd (s ++ [0#8]) p = .ok rc → Pre R on rep g cx →
    ∃ cx' st', CxOk (R g') cx cx' ∧ p ≤ st'.pat ∧ st'.pat ≤ s.length ∧
      atomBody (s ++ [0#8]) (t ++ [0#8]) H (matchAtom (s ++ [0#8]) (t ++ [0#8]) H n) (skipA s H) rc ⟨p, srcAt t k⟩ cx =
        .ok ((outq t p e.bytes.length r st' cx').1, (outq t p e.bytes.length r st' cx').2.1, ⟨p, srcAt t k⟩, (outq t p e.bytes.length r st' cx').2.2)
  atom : e.wf special calls .atom → ∀ p post n cx, Here s p e.bytes post → (p = 0 → k = k0) → nxt post ≠ 0x3A#8 → s.length + 2 ≤ p + n → Pre R on rep g cx →
    ∃ cx', CxOk (R g') cx cx' ∧ matchAtom (s ++ [0#8]) (t ++ [0#8]) H n ⟨p, srcAt t k⟩ cx = .ok (outp t p e.bytes.length k r cx')
  body : e.wf special calls .body → e ≠ .empty → ∀ p post n j cx, Here s p e.bytes post → (p = 0 → k = k0) → EndB post → s.length + 2 ≤ p + n → s.length < p + j → Pre R on rep g cx →
    ∃ cx' st', CxOk (Post R g r g') cx cx' ∧ p ≤ st'.pat ∧ st'.pat < s.length ∧
      seqLoop (s ++ [0#8]) (matchAtom (s ++ [0#8]) (t ++ [0#8]) H n) j ⟨p, srcAt t k⟩ cx = .ok (outq t p e.bytes.length r st' cx')
  tail : e.wf special calls .tail → e ≠ .empty → ∀ p post n j cx, Here s p e.bytes post → (p = 0 → k = k0) → EndT post → s.length + 2 ≤ p + n → s.length < p + j → Pre R on rep g cx →
    ∃ cx' st', CxOk (Post R g r g') cx cx' ∧ p ≤ st'.pat ∧ st'.pat < s.length ∧
      altAtoms (s ++ [0#8]) (matchAtom (s ++ [0#8]) (t ++ [0#8]) H n) j ⟨p, srcAt t k⟩ cx = .ok (outq t p e.bytes.length r st' cx')
  alts : e.wf special calls .body → e.alternates = true → ∀ p post n j st start cx g0 d0, Here s p e.bytes post → EndB post → s.length + 1 ≤ p + n → s.length < p + j →
    start.src = srcAt t k → R g0 d0 → (g0 = [] ↔ g = []) → Pre R on rep g cx →
    ∃ cx' st' start', CxOk (R g') cx cx' ∧ start'.src = srcAt t k ∧ p < start'.pat ∧ start'.pat < s.length ∧
      altLoop (s ++ [0#8]) H (matchAtom (s ++ [0#8]) (t ++ [0#8]) H n) (skipA s H) (H.count d0) j p st start cx =
        .ok ((outq t p e.bytes.length r st' cx').1, (outq t p e.bytes.length r st' cx').2.1, start', (outq t p e.bytes.length r st' cx').2.2)

section
variable (hE : EOk s t k0 special calls top C R H)
include hE

/-- what follows failure of the body -/
theorem fail_eval {rc : Byte} {g0 gx : List CapEvent} {d0 : σ} {p k : Nat} {st' : St} {cx cx' : Cx σ} (h0 : R g0 d0) (hc : CxOk (R gx) cx cx') (hp : p < s.length) (h1 : p ≤ st'.pat) (h2 : st'.pat ≤ s.length)
    (hk0 : k0 ≤ k) (hk : k ≤ (decodeAll t).length) : ∃ cx'', CxOk (R (left g0 gx)) cx cx'' ∧ failAtom H rc (H.count d0) st' ⟨p, srcAt t k⟩ cx' = .ok (false, ⟨p, srcAt t k⟩, cx'') := by
  have hrb : CxOk (R (left g0 gx)) cx (cx'.rollback H (H.count d0)) := ⟨hc.dis, hc.nest, hE.rollback _ _ _ _ h0 hc.inv⟩
  unfold failAtom
  simp only
  split
  · exact ⟨_, hrb, rfl⟩
  · obtain ⟨d, h3, h4⟩ := hE.record (cx'.rollback H (H.count d0)).disabled p st'.pat (srcAt t k) _ (cx'.rollback H (H.count d0)).data hp h1 h2 ⟨k, hk0, hk, rfl⟩ hrb.inv
    rw [h3]
    exact ⟨{ cx'.rollback H (H.count d0) with data := d }, ⟨hrb.dis, hrb.nest, h4⟩, rfl⟩

omit hE in
theorem pass_eval {q : Nat} {st' start' : St} {cx' : Cx σ} {b : Byte} (h : rd (s ++ [0#8]) q = .ok b) (hb : b ≠ 0x3A#8) (hq : st'.pat = q) :
    passAtom (s ++ [0#8]) H st' start' cx' = .ok (true, st', cx') := by
  unfold passAtom
  rw [hq, label_none h hb, res_bind_ok]
  simp only
  rw [← hq]

/-- an atom from its body -/
theorem atom_of_base {on rep : Bool} {e : Expr} {k : Nat} {g : List CapEvent} {r : Option Nat} {g' : List CapEvent} (hl : r = none → left g g' = g') (hk0 : k0 ≤ k) (hk : k ≤ (decodeAll t).length)
    (hne : ∃ b rest, e.bytes = b :: rest)
    (hb : ∀ p post n cx rc, Here s p e.bytes post → (p = 0 → k = k0) → nxt post ≠ 0x3A#8 → s.length + 1 ≤ p + n → rd (s ++ [0#8]) p = .ok rc → Pre R on rep g cx →
      ∃ cx' st', CxOk (R g') cx cx' ∧ p ≤ st'.pat ∧ st'.pat ≤ s.length ∧
        atomBody (s ++ [0#8]) (t ++ [0#8]) H (matchAtom (s ++ [0#8]) (t ++ [0#8]) H n) (skipA s H) rc ⟨p, srcAt t k⟩ cx =
          .ok ((outq t p e.bytes.length r st' cx').1, (outq t p e.bytes.length r st' cx').2.1, ⟨p, srcAt t k⟩, (outq t p e.bytes.length r st' cx').2.2)) :
    ∀ p post n cx, Here s p e.bytes post → (p = 0 → k = k0) → nxt post ≠ 0x3A#8 → s.length + 2 ≤ p + n → Pre R on rep g cx →
    ∃ cx', CxOk (R g') cx cx' ∧ matchAtom (s ++ [0#8]) (t ++ [0#8]) H n ⟨p, srcAt t k⟩ cx = .ok (outp t p e.bytes.length k r cx') := by
  intro p post n cx h hz hp hn hI
  obtain ⟨b, rest, hbr⟩ := hne
  have hh : Here s p (b :: rest) post := hbr ▸ h
  have hlt : p < s.length := by
    have := hh.len
    rw [List.length_cons] at this
    omega
  obtain ⟨n, rfl⟩ : ∃ i, n = i + 1 := ⟨n - 1, by omega⟩
  obtain ⟨cx', st', hc, h1, h2, h3⟩ := hb p post n cx b h hz hp (by omega) hh.cons.1 hI
  unfold matchAtom atomStep
  rw [show rd (s ++ [0#8]) (St.mk p (srcAt t k)).pat = .ok b from hh.cons.1, res_bind_ok, h3, res_bind_ok]
  cases r with
  | some k' =>
    rw [if_pos (show (outq t p e.bytes.length (some k') st' cx').1 = true from rfl)]
    refine ⟨cx', hc, ?_⟩
    exact pass_eval h.over.end hp rfl
  | none =>
    rw [if_neg (show ¬ (outq t p e.bytes.length none st' cx').1 = true by simp [outq])]
    have := fail_eval hE (rc := b) hI.inv hc hlt h1 h2 hk0 hk
    rw [hl rfl] at this
    exact this

/-- a labelled atom -/
theorem atom_of_label {on rep : Bool} {e : Expr} {name : List Byte} {k : Nat} {g : List CapEvent} {r : Option Nat} {g1 : List CapEvent} (hl : r = none → left g g1 = g1) (hk0 : k0 ≤ k)
    (hk : k ≤ (decodeAll t).length) (hkr : ∀ k', r = some k' → k ≤ k' ∧ k' ≤ (decodeAll t).length) (hname : ∀ b ∈ name, nameByte b = true)
    (hne : ∃ b rest, e.bytes = b :: rest)
    (hb : ∀ p post n cx rc, Here s p e.bytes post → (p = 0 → k = k0) → s.length + 1 ≤ p + n → rd (s ++ [0#8]) p = .ok rc → Pre R on rep g cx →
      ∃ cx' st', CxOk (R g1) cx cx' ∧ p ≤ st'.pat ∧ st'.pat ≤ s.length ∧
        atomBody (s ++ [0#8]) (t ++ [0#8]) H (matchAtom (s ++ [0#8]) (t ++ [0#8]) H n) (skipA s H) rc ⟨p, srcAt t k⟩ cx =
          .ok ((outq t p e.bytes.length r st' cx').1, (outq t p e.bytes.length r st' cx').2.1, ⟨p, srcAt t k⟩, (outq t p e.bytes.length r st' cx').2.2)) :
    ∀ p post n cx, Here s p (Expr.label e name).bytes post → (p = 0 → k = k0) → nxt post ≠ 0x3A#8 → s.length + 2 ≤ p + n → Pre R on rep g cx →
    ∃ cx', CxOk (R (match r with | some k' => (if on then note ⟨letters name, valueOf top (decodeAll t) k k' g1, rep⟩ g1 else g1) | none => g1)) cx cx' ∧
      matchAtom (s ++ [0#8]) (t ++ [0#8]) H n ⟨p, srcAt t k⟩ cx = .ok (outp t p (Expr.label e name).bytes.length k r cx') := by
  intro p post n cx h hz hp hn hI
  obtain ⟨b, rest, hbr⟩ := hne
  have hlen : (Expr.label e name).bytes.length = e.bytes.length + (name.length + 2) := by
    simp [Expr.bytes]
  have h : Here s p (e.bytes ++ (0x3A#8 :: name ++ [0x3A#8])) post := by simpa [Expr.bytes] using h
  have g1 := Here.left h
  have g2 := Here.right h
  have hh : Here s p (b :: rest) _ := hbr ▸ g1
  have hlt : p < s.length := by
    have := hh.len
    rw [List.length_cons] at this
    omega
  obtain ⟨n, rfl⟩ : ∃ i, n = i + 1 := ⟨n - 1, by omega⟩
  obtain ⟨cx', st', hc, h1, h2, h3⟩ := hb p _ n cx b g1 hz (by omega) hh.cons.1 hI
  unfold matchAtom atomStep
  rw [show rd (s ++ [0#8]) (St.mk p (srcAt t k)).pat = .ok b from hh.cons.1, res_bind_ok, h3, res_bind_ok]
  cases r with
  | some k' =>
    rw [if_pos (show (outq t p e.bytes.length (some k') st' cx').1 = true from rfl)]
    simp only [outq, passAtom]
    rw [label_some g2 hname, res_bind_ok]
    simp only
    obtain ⟨a1, a2⟩ := hkr k' rfl
    have hfin : p + e.bytes.length + 1 + name.length + 1 = p + (Expr.label e name).bytes.length := by rw [hlen]; omega
    rw [hfin]
    have hp' := hI.next hc
    by_cases hdis : (cx'.disabled == 0) = true
    · have hon : on = true := hp'.on.trans hdis
      obtain ⟨d, d1, d2⟩ := hE.capture (p + e.bytes.length + 1) name _ ⟨p, srcAt t k⟩ ⟨p + (Expr.label e name).bytes.length, srcAt t k'⟩
        (decide (cx'.nesting > 0)) k k' _ cx'.data (Here.cons (b := 0x3A#8) (bs := name ++ [0x3A#8]) g2).2.left hname (by simp only; omega) (Nat.le_of_lt hlt) hk0 a1 a2 rfl rfl hc.inv
      refine ⟨{ cx' with data := d }, ⟨hc.dis, hc.nest, ?_⟩, ?_⟩
      · rw [if_pos hon, hp'.rep]
        exact d2
      refine (if_pos hdis).trans ?_
      change (H.capture (p + e.bytes.length + 1, p + e.bytes.length + 1 + name.length) ⟨p, srcAt t k⟩ ⟨p + (Expr.label e name).bytes.length, srcAt t k'⟩
        (decide (cx'.nesting > 0)) cx'.data >>= fun d => (.ok (true, ⟨p + (Expr.label e name).bytes.length, srcAt t k'⟩, { cx' with data := d }) : Res (Out σ))) = _
      rw [d1]
      rfl
    · have hon : ¬ on = true := fun h => hdis (hp'.on.symm.trans h)
      refine ⟨cx', ?_, if_neg hdis⟩
      simp only [if_neg hon]
      exact hc
  | none =>
    rw [if_neg (show ¬ (outq t p e.bytes.length none st' cx').1 = true by simp [outq])]
    have := fail_eval hE (rc := b) hI.inv hc hlt h1 h2 hk0 hk
    rw [hl rfl] at this
    exact this

/-- one character -/
theorem one_eval (hn : 0#8 ∉ t) {o : One} (ho : o.ok special) {k : Nat} (hk : k ≤ (decodeAll t).length) (hct : o.noProps = true ∨ ∀ c ∈ decodeAll t, InCtype c)
    {m : St → Cx σ → Res (Out σ)} {skip : Nat → Res Nat} {p : Nat} {post : List Byte} {cx : Cx σ} {rc : Byte}
    (h : Here s p o.bytes post) (hrc : rd (s ++ [0#8]) p = .ok rc) :
    ∃ st', p ≤ st'.pat ∧ st'.pat ≤ s.length ∧ atomBody (s ++ [0#8]) (t ++ [0#8]) H m skip rc ⟨p, srcAt t k⟩ cx =
      .ok (match (decodeAll t)[k]? with
        | some c => if o.has c then (true, ⟨p + o.bytes.length, srcAt t (k + 1)⟩, ⟨p, srcAt t k⟩, cx) else (false, st', ⟨p, srcAt t k⟩, cx)
        | none => (false, st', ⟨p, srcAt t k⟩, cx)) := by
  have hlen := h.len
  have heof := srcAt_eof t hn k hk
  -- the end, or a character
  have hcase : ((decodeAll t)[k]? = none ∧ atEof (t ++ [0#8]) (srcAt t k) = .ok true) ∨
      ∃ c, (decodeAll t)[k]? = some c ∧ c ∈ decodeAll t ∧ atEof (t ++ [0#8]) (srcAt t k) = .ok false ∧ getChar (t ++ [0#8]) (srcAt t k) = .ok (c, srcAt t (k + 1)) := by
    rcases Nat.lt_or_eq_of_le hk with hlt | heq
    · right
      refine ⟨(decodeAll t)[k], List.getElem?_eq_getElem hlt, List.getElem_mem hlt, ?_, (srcAt_get t hn k hlt).1⟩
      rw [heof, decide_eq_false (by omega)]
    · left
      exact ⟨by simp [heq], by rw [heof, decide_eq_true heq]⟩
  have one_ite : ∀ (b : Bool) (q : Nat) (c : UCS4), o.has c = b → q = p + o.bytes.length →
      ((.ok (b, ⟨q, srcAt t (k + 1)⟩, ⟨p, srcAt t k⟩, cx) : Res (Bool × St × St × Cx σ)) = .ok (if o.has c then (true, ⟨p + o.bytes.length, srcAt t (k + 1)⟩, ⟨p, srcAt t k⟩, cx) else (false, ⟨q, srcAt t (k + 1)⟩, ⟨p, srcAt t k⟩, cx))) := by
    intro b q c hb hq
    rw [hb]
    cases b with
    | true => simp [hq]
    | false => simp
  unfold atomBody
  cases o with
  | lit w =>
    rcases w.head with ⟨b, rfl⟩ | ⟨rest, hr⟩
    · have hp := plain_ne ho.1
      have h1 := (Here.cons h).1
      rw [hrc] at h1
      cases h1
      obtain ⟨h1, h2, h3, h4, h5, h6, h7, h8, h9, h10, h11, h12, h13, h14, h15, h16⟩ := hp
      simp only [One.bytes, Written.bytes, List.length_cons, List.length_nil] at hlen one_ite ⊢
      have hval : ∀ c : UCS4, (sx rc == c) = (One.lit (.plain rc)).has c := by
        intro c
        rw [sx_ascii rc ho.2, Bool.beq_comm, eq_ofNat c _ (by have := ho.2; omega)]
        rfl
      rw [if_neg (by simpa using h1), if_neg (by simpa using h11), if_neg (by simpa using h3), if_neg (by simpa using h4), if_neg (by simpa using h5), if_neg (by simpa using h2),
        if_neg (by simpa using h6), if_neg (by simp [h7, h8, h9]), if_neg (by simpa using h10), if_neg (by simpa using h12), if_neg (by simp [h13, h14])]
      by_cases hx : isExtended rc = true
      · rw [if_pos hx, hE.lit _ _ rc hrc hx h16]
        unfold matchLiteral
        rcases hcase with ⟨hc1, hc2⟩ | ⟨c, hc1, -, hc2, hc3⟩
        · refine ⟨⟨p, srcAt t k⟩, Nat.le_refl _, h.le, ?_⟩
          rw [hc2, hc1]
          rfl
        · refine ⟨⟨p, srcAt t (k + 1)⟩, Nat.le_refl _, h.le, ?_⟩
          rw [hc2, hc1, res_bind_ok, if_neg (by decide), hrc, res_bind_ok, hc3, res_bind_ok, hval]
          simp only
          split <;> rfl
      · rw [if_neg hx]
        unfold charIf
        rcases hcase with ⟨hc1, hc2⟩ | ⟨c, hc1, -, hc2, hc3⟩
        · refine ⟨⟨p + 1, srcAt t k⟩, Nat.le_succ _, by simp only; omega, ?_⟩
          rw [hc2, hc1]
          rfl
        · refine ⟨⟨p + 1, srcAt t (k + 1)⟩, Nat.le_succ _, by simp only; omega, ?_⟩
          rw [hc2, hc1, res_bind_ok, if_neg (by decide), hc3, res_bind_ok, res_bind_ok]
          simp only
          exact one_ite _ _ c (hval c).symm rfl
    · have hprop := fun c => (charProperty_lit plainOutside_ok w ho (by rintro b rfl; simp [Written.bytes] at hr; rcases hr with ⟨rfl, -⟩; exact absurd (plainOutside_ok _ ho.1).2 (by decide)) h c).1
      have h1 : Here s p (0x5C#8 :: rest) post := by have := h; simp only [One.bytes] at this; rwa [hr] at this
      have h2 := h1.cons.1
      rw [hrc] at h2
      cases h2
      simp only [One.bytes] at hlen one_ite ⊢
      have hl1 : 1 ≤ w.bytes.length := by rw [hr]; simp
      iterate 5 rw [if_neg (by decide)]
      rw [if_pos (by decide)]
      rcases hcase with ⟨hc1, hc2⟩ | ⟨c, hc1, -, hc2, hc3⟩
      · refine ⟨⟨p + 1, srcAt t k⟩, Nat.le_succ _, by simp only; omega, ?_⟩
        rw [hc2, hc1]
        rfl
      · refine ⟨⟨p + w.bytes.length, srcAt t (k + 1)⟩, by simp, by simp only; omega, ?_⟩
        rw [hc2, hc1, res_bind_ok, if_neg (by decide), hc3, res_bind_ok]
        simp only
        rw [hprop c, res_bind_ok]
        exact one_ite _ _ c rfl rfl
  | prop l =>
    obtain ⟨g1, g2⟩ := Here.cons h
    rw [hrc] at g1
    cases g1
    simp only [One.bytes, List.length_cons, List.length_nil] at hlen one_ite ⊢
    iterate 5 rw [if_neg (by decide)]
    rw [if_pos (by decide)]
    rcases hcase with ⟨hc1, hc2⟩ | ⟨c, hc1, hc0, hc2, hc3⟩
    · refine ⟨⟨p + 1, srcAt t k⟩, Nat.le_succ _, by simp only; omega, ?_⟩
      rw [hc2, hc1]
      rfl
    · refine ⟨⟨p + 2, srcAt t (k + 1)⟩, by simp, by simp only; omega, ?_⟩
      rw [hc2, hc1, res_bind_ok, if_neg (by decide), hc3, res_bind_ok]
      simp only
      rw [charProperty_prop g2 ho c ((hct.resolve_left (by simp [One.noProps])) c hc0), res_bind_ok]
      exact one_ite _ _ c rfl rfl
  | cls neg items =>
    have hb : One.bytes (.cls neg items) = 0x5B#8 :: (((if neg then [0x5E#8] else []) ++ items.flatMap Item.bytes) ++ [0x5D#8]) := by
      simp [One.bytes]
    rw [hb] at h hlen
    obtain ⟨g1, g2⟩ := Here.cons h
    have g3 := Here.left g2
    have g4 := Here.right g2
    have g5 := Here.right g3
    rw [hrc] at g1
    cases g1
    iterate 6 rw [if_neg (by decide)]
    rw [if_pos (by decide)]
    unfold charClass
    simp only [List.length_cons] at hlen
    rcases hcase with ⟨hc1, hc2⟩ | ⟨c, hc1, hc0, hc2, hc3⟩
    · refine ⟨⟨p + 1, srcAt t k⟩, Nat.le_succ _, by simp only; omega, ?_⟩
      simp only
      rw [hc2, hc1]
      rfl
    · refine ⟨⟨p + (One.cls neg items).bytes.length, srcAt t (k + 1)⟩, by simp, by rw [hb]; simp only [List.length_cons]; omega, ?_⟩
      have hloop := classLoop_eval c items ((s ++ [0#8]).length + 1) _ false post ho g5 (hct.imp id (fun h => h c hc0)) (by simp; omega)
      simp only
      rw [hc2, hc1, res_bind_ok, if_neg (by decide), caret_eval ho g3, res_bind_ok, hc3, res_bind_ok]
      simp only
      rw [hloop, res_bind_ok]
      unfold closeClass
      rw [List.length_append, ← Nat.add_assoc] at g4
      rw [g4.cons.1, res_bind_ok, if_pos (by decide), res_bind_ok, res_bind_ok]
      simp only
      have hq : p + 1 + (if neg = true then [0x5E#8] else []).length + (List.flatMap Item.bytes items).length + 1 = p + (One.cls neg items).bytes.length := by
        rw [hb]
        simp only [List.length_cons, List.length_append, List.length_nil]
        omega
      rw [hq]
      refine one_ite _ _ c ?_ rfl
      simp only [One.has, Bool.false_or]
      cases neg <;> simp
  | any =>
    have g1 := (Here.cons h).1
    rw [hrc] at g1
    cases g1
    simp only [One.bytes, List.length_cons, List.length_nil] at hlen one_ite ⊢
    iterate 4 rw [if_neg (by decide)]
    rw [if_pos (by decide)]
    unfold charIf
    rcases hcase with ⟨hc1, hc2⟩ | ⟨c, hc1, -, hc2, hc3⟩
    · refine ⟨⟨p + 1, srcAt t k⟩, Nat.le_succ _, by simp only; omega, ?_⟩
      rw [hc2, hc1]
      rfl
    · refine ⟨⟨p + 1, srcAt t (k + 1)⟩, Nat.le_succ _, by simp only; omega, ?_⟩
      rw [hc2, hc1, res_bind_ok, if_neg (by decide), hc3, res_bind_ok, res_bind_ok]
      exact one_ite _ _ c rfl rfl

end
end

end Strpp.Pex
