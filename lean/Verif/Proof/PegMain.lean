import Verif.Proof.PegEval
/-! Matching well-formed expressions: by induction on them. -/
namespace Strpp.Pex
open Spec

section
variable {σ : Type} {s t : List Byte} {k0 : Nat} {special : Byte → Bool} {calls top : Bool} {C : CallC} {R : List CapEvent → σ → Prop} {H : Hooks σ}
  {on rep : Bool} {g g' : List CapEvent}

theorem star_some {C : List Byte → Nat → Option Nat → Prop} {cs : List UCS4} {e' : Expr} {k : Nat} {r : Option Nat} (h : Sem C cs e' k r) : ∀ e, e' = .star e → ∃ k', r = some k' := by
  induction h with
  | star_end _ _ => exact fun _ _ => ⟨_, rfl⟩
  | star_stay _ _ => exact fun _ _ => ⟨_, rfl⟩
  | star_more _ _ _ _ ih => exact ih
  | _ => intro e h; cases h

theorem optional_some {C : List Byte → Nat → Option Nat → Prop} {cs : List UCS4} {e : Expr} {k : Nat} {r : Option Nat} (h : Sem C cs e k r) (ho : e.optional = true) : ∃ k', r = some k' := by
  cases e with
  | opt e => cases h <;> exact ⟨_, rfl⟩
  | star e => exact star_some h e rfl
  | _ => cases ho

theorem text_le (t : List Byte) : (decodeAll t).length ≤ t.length := decodeAll_le _ t (Nat.le_refl _)

/-- from the base -/
theorem ev_base (hE : EOk s t k0 special calls top C R H) {e : Expr} {k : Nat} {r : Option Nat} (hl : r = none → left g g' = g') (hk0 : k0 ≤ k) (hk : k ≤ (decodeAll t).length) (h0 : e.labelled = true)
    (ht : e.wf special calls .tail → False) (hbd : e.wf special calls .body → False)
    (hb : e.wf special calls .atom → ∀ p post n cx rc, Here s p e.bytes post → (p = 0 → k = k0) → s.length + 1 ≤ p + n → rd (s ++ [0#8]) p = .ok rc → Pre R on rep g cx →
      ∃ cx' st', CxOk (R g') cx cx' ∧ p ≤ st'.pat ∧ st'.pat ≤ s.length ∧
        atomBody (s ++ [0#8]) (t ++ [0#8]) H (matchAtom (s ++ [0#8]) (t ++ [0#8]) H n) (skipA s H) rc ⟨p, srcAt t k⟩ cx =
          .ok ((outq t p e.bytes.length r st' cx').1, (outq t p e.bytes.length r st' cx').2.1, ⟨p, srcAt t k⟩, (outq t p e.bytes.length r st' cx').2.2)) :
    Ev s t k0 special calls R H on rep e k g r g' where
  base := fun hw _ => hb hw
  atom := fun hw => by
    obtain ⟨b, rest, hbr, -⟩ := atom_head e hw
    exact atom_of_base hE hl hk0 hk ⟨b, rest, hbr⟩ (fun p post n cx rc h hz _ => hb hw p post n cx rc h hz)
  body := fun hw => absurd hw hbd
  tail := fun hw => absurd hw ht
  alts := fun hw => absurd hw hbd

/-- from the body of an atom that takes no label -/
theorem ev_atom (hE : EOk s t k0 special calls top C R H) {e : Expr} {k : Nat} {r : Option Nat} (hl : r = none → left g g' = g') (hk0 : k0 ≤ k) (hk : k ≤ (decodeAll t).length) (h0 : e.labelled = false)
    (ht : e.wf special calls .tail → False) (hbd : e.wf special calls .body → False)
    (hb : e.wf special calls .atom → ∀ p post n cx rc, Here s p e.bytes post → (p = 0 → k = k0) → nxt post ≠ 0x3A#8 → s.length + 1 ≤ p + n → rd (s ++ [0#8]) p = .ok rc → Pre R on rep g cx →
      ∃ cx' st', CxOk (R g') cx cx' ∧ p ≤ st'.pat ∧ st'.pat ≤ s.length ∧
        atomBody (s ++ [0#8]) (t ++ [0#8]) H (matchAtom (s ++ [0#8]) (t ++ [0#8]) H n) (skipA s H) rc ⟨p, srcAt t k⟩ cx =
          .ok ((outq t p e.bytes.length r st' cx').1, (outq t p e.bytes.length r st' cx').2.1, ⟨p, srcAt t k⟩, (outq t p e.bytes.length r st' cx').2.2)) :
    Ev s t k0 special calls R H on rep e k g r g' where
  base := fun _ h => by rw [h0] at h; cases h
  atom := fun hw => by
    obtain ⟨b, rest, hbr, -⟩ := atom_head e hw
    exact atom_of_base hE hl hk0 hk ⟨b, rest, hbr⟩ (hb hw)
  body := fun hw => absurd hw hbd
  tail := fun hw => absurd hw ht
  alts := fun hw => absurd hw hbd

/-! ### Repetition -/

/-- one round, the last -/
theorem rep_none (hE : EOk s t k0 special calls top C R H) {e : Expr} {k : Nat}
    (hev : Ev s t k0 special calls R H on rep e k g none g') (hl : left g g' = g') (hw : e.wf special calls .atom) (hs : e.single = true)
    {p n j : Nat} {post : List Byte} {cx : Cx σ} {once : Bool} {q : Nat} (h : Here s p e.bytes post) (hz : p = 0 → k = k0) (hp : nxt post ≠ 0x3A#8) (hn' : s.length + 2 ≤ p + n) (hI : Pre R on rep g cx) :
    ∃ cx', CxOk (R g') cx cx' ∧ repLoop H (matchAtom (s ++ [0#8]) (t ++ [0#8]) H n) (skipA s H) once p (j + 1) ⟨q, srcAt t k⟩ cx =
      .ok (⟨p + e.bytes.length, srcAt t k⟩, cx') := by
  obtain ⟨cx', hc, h1⟩ := hev.atom hw p post n cx h hz hp hn' hI
  have hsk : skipA s H p = _ := (sk_all hE.skip e).single hw hs ((s ++ [0#8]).length + 1) p post h hp (by simp)
  refine ⟨cx'.rollback H (H.count cx.data), ⟨hc.dis, hc.nest, hl ▸ hE.rollback _ _ _ _ hI.inv hc.inv⟩, ?_⟩
  rw [repLoop, h1, res_bind_ok, if_neg (show ¬ (outp t p e.bytes.length k none cx').1 = true by simp [outp])]
  simp only [outp]
  rw [hsk]
  rfl

/-- one round -/
theorem rep_some (hn : 0#8 ∉ t) {e : Expr} {k k' : Nat} (hk : k ≤ (decodeAll t).length)
    (hr : k' ≤ (decodeAll t).length)
    (hev : Ev s t k0 special calls R H on rep e k g (some k') g') (hw : e.wf special calls .atom)
    {p n j : Nat} {post : List Byte} {cx : Cx σ} {once : Bool} {q : Nat} (h : Here s p e.bytes post) (hz : p = 0 → k = k0) (hp : nxt post ≠ 0x3A#8) (hn' : s.length + 2 ≤ p + n) (hI : Pre R on rep g cx) :
    ∃ cx', CxOk (R g') cx cx' ∧ repLoop H (matchAtom (s ++ [0#8]) (t ++ [0#8]) H n) (skipA s H) once p (j + 1) ⟨q, srcAt t k⟩ cx =
      if k' = k ∨ once = true then .ok (⟨p + e.bytes.length, srcAt t k'⟩, cx')
      else repLoop H (matchAtom (s ++ [0#8]) (t ++ [0#8]) H n) (skipA s H) once p j ⟨p + e.bytes.length, srcAt t k'⟩ cx' := by
  obtain ⟨cx', hc, h1⟩ := hev.atom hw p post n cx h hz hp hn' hI
  refine ⟨cx', hc, ?_⟩
  rw [repLoop, h1, res_bind_ok, if_pos (show (outp t p e.bytes.length k (some k') cx').1 = true from rfl)]
  by_cases hk' : k' = k ∨ once = true
  · rw [if_pos hk', if_pos]
    · rfl
    · rcases hk' with rfl | rfl
      · simp [outp]
      · simp
  · rw [if_neg hk', if_neg]
    · rfl
    · intro hh
      apply hk'
      simp only [Bool.or_eq_true, beq_iff_eq, outp] at hh
      exact hh.imp (srcAt_inj t hn hr hk).mp id

/-- `*` -/
theorem rep_eval (hE : EOk s t k0 special calls top C R H) (hn : 0#8 ∉ t) (hO : CallOkC C)
    (hC : ∀ n k k', plainC C n k (some k') → k ≤ (decodeAll t).length → k ≤ k' ∧ k' ≤ (decodeAll t).length) {e : Expr}
    (ih : ∀ k g r g', SemC (decodeAll t) top C on true e k g r g' → k0 ≤ k → k ≤ (decodeAll t).length → Ev s t k0 special calls R H on true e k g r g') (hw : e.wf special calls .atom)
    (hs : (e.single || e.optional) = true) {e' : Expr} {k : Nat} {r : Option Nat} (hsem : SemC (decodeAll t) top C on rep e' k g r g') :
    e' = .star e → k0 ≤ k → k ≤ (decodeAll t).length → ∀ p post n j cx q, Here s p e.bytes post → p ≠ 0 → nxt post ≠ 0x3A#8 → s.length + 2 ≤ p + n → Pre R on true g cx →
      (decodeAll t).length < k + j → ∃ k' cx', r = some k' ∧ CxOk (R g') cx cx' ∧
        repLoop H (matchAtom (s ++ [0#8]) (t ++ [0#8]) H n) (skipA s H) false p j ⟨q, srcAt t k⟩ cx = .ok (⟨p + e.bytes.length, srcAt t k'⟩, cx') := by
  have hsing : ∀ k g g', SemC (decodeAll t) top C on true e k g none g' → e.single = true := by
    intro k g g' h
    by_cases ho : e.optional = true
    · obtain ⟨k', hk'⟩ := optional_some (semC_plain h) ho
      cases hk'
    · simpa [ho] using hs
  induction hsem with
  | star_end h _ =>
    intro he hk0 hk p post n j cx q hh hz hp hn' hI hj
    cases he
    obtain ⟨j, rfl⟩ : ∃ i, j = i + 1 := ⟨j - 1, by omega⟩
    obtain ⟨cx', hc, h1⟩ := rep_none hE (j := j) (q := q) (once := false) (ih _ _ _ _ h hk0 hk) (semC_left hO h) hw (hsing _ _ _ h) hh (fun h => absurd h hz) hp hn' hI
    exact ⟨_, cx', rfl, hc, h1⟩
  | star_stay h _ =>
    intro he hk0 hk p post n j cx q hh hz hp hn' hI hj
    cases he
    obtain ⟨j, rfl⟩ : ∃ i, j = i + 1 := ⟨j - 1, by omega⟩
    obtain ⟨cx', hc, h1⟩ := rep_some hn (j := j) (q := q) (once := false) hk hk (ih _ _ _ _ h hk0 hk) hw hh (fun h => absurd h hz) hp hn' hI
    refine ⟨_, cx', rfl, hc, h1.trans ?_⟩
    exact if_pos (Or.inl rfl)
  | star_more h hlt _ _ ih2 =>
    intro he hk0 hk p post n j cx q hh hz hp hn' hI hj
    cases he
    obtain ⟨j, rfl⟩ : ∃ i, j = i + 1 := ⟨j - 1, by omega⟩
    have hle := sem_le hC (semC_plain h) hk _ rfl
    obtain ⟨cx', hc, h1⟩ := rep_some hn (j := j) (q := q) (once := false) hk hle.2 (ih _ _ _ _ h hk0 hk) hw hh (fun h => absurd h hz) hp hn' hI
    obtain ⟨k'', cx'', e1, e2, e3⟩ := ih2 ih hsing rfl (by omega) hle.2 p post n j cx' (p + e.bytes.length) hh hz hp hn' (hI.next hc) (by omega)
    refine ⟨k'', cx'', e1, ⟨e2.dis.trans hc.dis, e2.nest.trans hc.nest, e2.inv⟩, h1.trans ?_⟩
    refine (if_neg ?_).trans e3
    rintro (h | h)
    · omega
    · cases h
  | _ => intro he; cases he

/-! ### The cases of match_atom -/

theorem atomBody_repeat {m : St → Cx σ → Res (Out σ)} {skip : Nat → Res Nat} {rc : Byte} (hrc : rc = 0x3F#8 ∨ rc = 0x2A#8 ∨ rc = 0x2B#8) (start : St) (cx : Cx σ) :
    atomBody (s ++ [0#8]) (t ++ [0#8]) H m skip rc start cx =
      (repeatAtom (t ++ [0#8]) H m skip rc ⟨start.pat + 1, start.src⟩ cx >>= fun r => .ok (r.1, r.2.1, start, r.2.2)) := by
  unfold atomBody
  rcases hrc with rfl | rfl | rfl
  · iterate 7 rw [if_neg (by decide)]
    rw [if_pos (by decide)]
  · iterate 7 rw [if_neg (by decide)]
    rw [if_pos (by decide)]
  · iterate 7 rw [if_neg (by decide)]
    rw [if_pos (by decide)]

/-- leaving a repetition -/
theorem CxOk.leave {I : σ → Prop} {cx cx' : Cx σ} {n : Int} (h : CxOk I { cx with nesting := cx.nesting + n } cx') : CxOk I cx { cx' with nesting := cx'.nesting - n } :=
  ⟨h.dis, by have := h.nest; simp only at this ⊢; omega, h.inv⟩

theorem CxOk.trans' {I J : σ → Prop} {a b c : Cx σ} (h : CxOk J a b) (h' : CxOk I b c) : CxOk I a c := ⟨h'.dis.trans h.dis, h'.nest.trans h.nest, h'.inv⟩

/-- inside of `*` and `+` -/
theorem Pre.enter {cx : Cx σ} (h : Pre R on rep g cx) : Pre R on true g { cx with nesting := cx.nesting + 1 } :=
  ⟨h.dis, by have := h.nest; simp only; omega, h.on, by have := h.nest; symm; simp only [decide_eq_true_eq]; omega, h.inv⟩

theorem Pre.stay {cx : Cx σ} (h : Pre R on rep g cx) : Pre R on rep g { cx with nesting := cx.nesting + 0 } :=
  ⟨h.dis, by have := h.nest; simp only; omega, h.on, by rw [h.rep]; simp, h.inv⟩

/-- `?` and `*` -/
theorem repeat_any {m : St → Cx σ → Res (Out σ)} {skip : Nat → Res Nat} {rc : Byte} (hrc : rc = 0x3F#8 ∨ rc = 0x2A#8) {p q k k' : Nat} {cx : Cx σ} (hI : Pre R on rep g cx)
    (h : ∀ cx1 : Cx σ, Pre R on (if rc = 0x3F#8 then rep else true) g cx1 → ∃ cx', CxOk (R g') cx1 cx' ∧ repLoop H m skip (rc == 0x3F#8) (p + 1) ((t ++ [0#8]).length + 1) ⟨p + 1, srcAt t k⟩ cx1 = .ok (⟨q, srcAt t k'⟩, cx')) :
    ∃ cx', CxOk (R g') cx cx' ∧ atomBody (s ++ [0#8]) (t ++ [0#8]) H m skip rc ⟨p, srcAt t k⟩ cx = .ok (true, ⟨q, srcAt t k'⟩, ⟨p, srcAt t k⟩, cx') := by
  obtain ⟨cx', h1, h2⟩ := h { cx with nesting := cx.nesting + (if rc != 0x3F#8 then 1 else 0) } (by
    rcases hrc with rfl | rfl
    · exact hI.stay
    · exact hI.enter)
  refine ⟨_, h1.leave, ?_⟩
  rw [atomBody_repeat (hrc.imp id Or.inl)]
  unfold repeatAtom repFirst
  simp only
  rw [if_neg (by rcases hrc with rfl | rfl <;> decide), res_bind_ok]
  simp only [if_true]
  rw [h2]
  rfl

/-- `+` -/
theorem repeat_plus {m : St → Cx σ → Res (Out σ)} {skip : Nat → Res Nat} {p k len : Nat} {r : Option Nat} {cx : Cx σ} (hI : Pre R on rep g cx)
    (h : ∀ cx1 : Cx σ, Pre R on true g cx1 → ∃ cx', CxOk (R g') cx1 cx' ∧ ((r = none ∧ m ⟨p + 1, srcAt t k⟩ cx1 = .ok (false, ⟨p + 1, srcAt t k⟩, cx')) ∨
      ∃ cx0 q k1 k', r = some k' ∧ m ⟨p + 1, srcAt t k⟩ cx1 = .ok (true, ⟨q, srcAt t k1⟩, cx0) ∧
        repLoop H m skip false (p + 1) ((t ++ [0#8]).length + 1) ⟨q, srcAt t k1⟩ cx0 = .ok (⟨p + 1 + len, srcAt t k'⟩, cx'))) :
    ∃ cx', CxOk (R g') cx cx' ∧ atomBody (s ++ [0#8]) (t ++ [0#8]) H m skip 0x2B#8 ⟨p, srcAt t k⟩ cx =
      .ok ((outq t p (len + 1) r ⟨p + 1, srcAt t k⟩ cx').1, (outq t p (len + 1) r ⟨p + 1, srcAt t k⟩ cx').2.1, ⟨p, srcAt t k⟩, (outq t p (len + 1) r ⟨p + 1, srcAt t k⟩ cx').2.2) := by
  obtain ⟨cx', h1, h2⟩ := h { cx with nesting := cx.nesting + (if (0x2B#8 : Byte) != 0x3F#8 then 1 else 0) } hI.enter
  refine ⟨_, h1.leave, ?_⟩
  rw [atomBody_repeat (Or.inr (Or.inr rfl))]
  unfold repeatAtom repFirst
  simp only
  rw [if_pos (by decide)]
  rcases h2 with ⟨rfl, h2⟩ | ⟨cx0, q, k1, k', rfl, h2, h3⟩
  · rw [h2, res_bind_ok]
    rfl
  · rw [h2, res_bind_ok]
    simp only [if_true]
    rw [show ((0x2B#8 : Byte) == 0x3F#8) = false by decide, h3]
    simp only [outq, Nat.add_right_comm p len 1, Nat.add_assoc]
    simp only [Nat.add_comm len 1]
    rfl

/-- what `alts` says -/
def Alts (s t : List Byte) (R : List CapEvent → σ → Prop) (H : Hooks σ) (on rep : Bool) (e : Expr) (k : Nat) (g : List CapEvent) (r : Option Nat) (g' : List CapEvent) : Prop :=
  ∀ p post n j st start cx g0 d0, Here s p e.bytes post → EndB post → s.length + 1 ≤ p + n → s.length < p + j →
    start.src = srcAt t k → R g0 d0 → (g0 = [] ↔ g = []) → Pre R on rep g cx →
    ∃ cx' st' start', CxOk (R g') cx cx' ∧ start'.src = srcAt t k ∧ p < start'.pat ∧ start'.pat < s.length ∧
      altLoop (s ++ [0#8]) H (matchAtom (s ++ [0#8]) (t ++ [0#8]) H n) (skipA s H) (H.count d0) j p st start cx =
        .ok ((outq t p e.bytes.length r st' cx').1, (outq t p e.bytes.length r st' cx').2.1, start', (outq t p e.bytes.length r st' cx').2.2)

/-- alternates as the whole of a body -/
theorem ev_alts (hE : EOk s t k0 special calls top C R H) {e : Expr} {k : Nat} {r : Option Nat} (hl : r = none → left g g' = g') (ha : e.alternates = true) (h1 : e.wf special calls .atom → False)
    (h2 : e.wf special calls .tail → False) (h : e.wf special calls .body → Alts s t R H on rep e k g r g') : Ev s t k0 special calls R H on rep e k g r g' where
  base := fun h => absurd h h1
  atom := fun h => absurd h h1
  tail := fun h => absurd h h2
  alts := fun hw _ => h hw
  body := by
    intro hw _ p post n j cx hh _ hend hn' hj hI
    obtain ⟨rest, hr⟩ := alternates_head e ha
    have hh' : Here s p (0x7C#8 :: rest) post := hr ▸ hh
    have hrd := hh'.cons.1
    have hlt := hh.le
    obtain ⟨j, rfl⟩ : ∃ i, j = i + 1 := ⟨j - 1, by omega⟩
    obtain ⟨n, rfl⟩ : ∃ i, n = i + 1 := ⟨n - 1, by omega⟩
    obtain ⟨cx', st', start', a1, a2, a3, a4, a5⟩ := h hw p post n ((s ++ [0#8]).length + 1) ⟨p + 1, srcAt t k⟩ ⟨p, srcAt t k⟩ cx g cx.data hh hend (by omega) (by simp; omega) rfl hI.inv Iff.rfl hI
    have hm : matchAtom (s ++ [0#8]) (t ++ [0#8]) H (n + 1) ⟨p, srcAt t k⟩ cx =
        if (outq t p e.bytes.length r st' cx').1 then
          passAtom (s ++ [0#8]) H (outq t p e.bytes.length r st' cx').2.1 start' (outq t p e.bytes.length r st' cx').2.2
        else failAtom H 0x7C#8 (H.count cx.data) (outq t p e.bytes.length r st' cx').2.1 start' (outq t p e.bytes.length r st' cx').2.2 := by
      unfold matchAtom atomStep
      simp only
      rw [hrd, res_bind_ok]
      unfold atomBody
      iterate 9 rw [if_neg (by decide)]
      rw [if_pos (by decide), a5, res_bind_ok]
    rw [seqLoop, hm]
    cases r with
    | some k' =>
      rw [if_pos (show (outq t p e.bytes.length (some k') st' cx').1 = true from rfl)]
      refine ⟨cx', ⟨p, srcAt t k⟩, a1, Nat.le_refl _, by simp only; omega, ?_⟩
      simp only [outq]
      rw [pass_eval hh.over.end hend.t.colon rfl, res_bind_ok]
      simp only [if_true]
      rw [hh.over.end, res_bind_ok, if_pos]
      rcases hend with h | h <;> simp [h, exprEnd]
    | none =>
      rw [if_neg (show ¬ (outq t p e.bytes.length none st' cx').1 = true by simp [outq])]
      refine ⟨cx'.rollback H (H.count cx.data), start', ⟨a1.dis, a1.nest, g', hl rfl, (hl rfl) ▸ hE.rollback _ _ _ _ hI.inv a1.inv⟩, by omega, a4, ?_⟩
      rfl

section
variable (hE : EOk s t k0 special calls top C R H) (hn : 0#8 ∉ t) (hO : CallOkC C) (hC : ∀ n k k', plainC C n k (some k') → k ≤ (decodeAll t).length → k ≤ k' ∧ k' ≤ (decodeAll t).length)
include hE hn hO hC

theorem ev_all : ∀ (e : Expr), (e.noProps = true ∨ ∀ c ∈ decodeAll t, InCtype c) → ∀ on rep k g r g', SemC (decodeAll t) top C on rep e k g r g' → k0 ≤ k → k ≤ (decodeAll t).length →
    Ev s t k0 special calls R H on rep e k g r g' := by
  intro e
  induction e with
  | one o =>
    intro hp on rep k g r g' hsem hk0 hk
    refine ev_base hE (fun h => by subst h; exact semC_left hO hsem) hk0 hk rfl id id ?_
    intro hw p post n cx rc h hz hn' hrc hI
    obtain ⟨st', h1, h2, h3⟩ := one_eval hE hn hw hk hp (m := matchAtom (s ++ [0#8]) (t ++ [0#8]) H n) (skip := skipA s H) (cx := cx) h hrc
    have hgg : g' = g := by cases hsem <;> rfl
    subst hgg
    refine ⟨cx, st', ⟨rfl, rfl, hI.inv⟩, h1, h2, h3.trans ?_⟩
    cases hsem with
    | one_yes hc ho => rw [hc]; simp only [ho, if_true]; rfl
    | one_no hc =>
      cases hg : (decodeAll t)[k]? with
      | none => rfl
      | some c => simp only [hc c hg, Bool.false_eq_true, if_false]; rfl
  | bol =>
    intro hp on rep k g r g' hsem hk0 hk
    refine ev_base hE (fun h => by subst h; exact semC_left hO hsem) hk0 hk rfl id id ?_
    intro hw p post n cx rc h hz hn' hrc hI
    obtain ⟨g1, g2⟩ := Here.cons h
    rw [g1] at hrc
    cases hrc
    have hgg : g' = g := by cases hsem <;> rfl
    subst hgg
    refine ⟨cx, ⟨p + 1, srcAt t k⟩, ⟨rfl, rfl, hI.inv⟩, Nat.le_succ _, g2.le, ?_⟩
    have hcol := (srcAt_col t k hk).2
    unfold atomBody atBol
    rw [if_neg (by decide), if_neg (by decide), if_pos (by decide)]
    cases hsem with
    | bol_yes hb => simp only [hcol.mpr hb]; rfl
    | bol_no hb =>
      have : ((srcAt t k).col == 1) = false := by simpa using fun h => hb (hcol.mp h)
      simp only [this]
      rfl
  | eol =>
    intro hp on rep k g r g' hsem hk0 hk
    refine ev_base hE (fun h => by subst h; exact semC_left hO hsem) hk0 hk rfl id id ?_
    intro hw p post n cx rc h hz hn' hrc hI
    obtain ⟨g1, g2⟩ := Here.cons h
    rw [g1] at hrc
    cases hrc
    have hgg : g' = g := by cases hsem <;> rfl
    subst hgg
    refine ⟨cx, ⟨p + 1, srcAt t k⟩, ⟨rfl, rfl, hI.inv⟩, Nat.le_succ _, g2.le, ?_⟩
    unfold atomBody
    rw [if_neg (by decide), if_neg (by decide), if_neg (by decide), if_pos (by decide)]
    simp only
    rw [srcAt_eof t hn k hk, res_bind_ok]
    rcases Nat.lt_or_eq_of_le hk with hlt | heq
    · rw [if_neg (by simp; omega), (srcAt_get t hn k hlt).1, res_bind_ok]
      have hget : (decodeAll t)[k]? = some (decodeAll t)[k] := List.getElem?_eq_getElem hlt
      cases hsem with
      | eol_yes hb =>
        rw [hget] at hb
        have : (decodeAll t)[k] = 0x0A#32 := by simpa using hb
        simp only [this]
        rfl
      | eol_no hb =>
        rw [hget] at hb
        have : ((decodeAll t)[k] == 0x0A#32) = false := by simpa using hb
        simp only [this]
        rfl
    · rw [if_pos (by simpa using heq)]
      cases hsem with
      | eol_yes hb => rfl
      | eol_no hb => exact absurd (Or.inl (by simp [heq])) hb
  | grp e ih =>
    intro hp on rep k g r g' hsem hk0 hk
    cases hsem with
    | grp hsem =>
    have ih := ih hp on rep k g r g' hsem hk0 hk
    refine ev_base hE (fun h => by subst h; exact semC_left hO hsem) hk0 hk rfl id id ?_
    intro hw p post n cx rc h hz hn' hrc hI
    obtain ⟨g1, g2⟩ := Here.cons h
    have g3 := Here.left g2
    have g4 := Here.right g2
    rw [g1] at hrc
    cases hrc
    have hlen : (Expr.grp e).bytes.length = e.bytes.length + 2 := by simp [Expr.bytes]
    have hrw : ∀ m skip, atomBody (s ++ [0#8]) (t ++ [0#8]) H m skip 0x28#8 ⟨p, srcAt t k⟩ cx = (do
        let r ← matchSequence (s ++ [0#8]) H m ⟨p + 1, srcAt t k⟩ cx
        if r.1 then do
          let b ← rd (s ++ [0#8]) r.2.1.pat
          .ok (true, (if b != 0#8 then ⟨r.2.1.pat + 1, r.2.1.src⟩ else r.2.1), ⟨p, srcAt t k⟩, r.2.2)
        else .ok (false, r.2.1, ⟨p, srcAt t k⟩, r.2.2)) := by
      intro m skip
      unfold atomBody
      iterate 8 rw [if_neg (by decide)]
      rw [if_pos (by decide)]
    rw [hrw, hlen]
    by_cases he : e = .empty
    · subst he
      cases hsem
      refine ⟨cx, ⟨p, srcAt t k⟩, ⟨rfl, rfl, hI.inv⟩, Nat.le_refl _, h.le, ?_⟩
      have hr : rd (s ++ [0#8]) (p + 1) = .ok 0x29#8 := g4.cons.1
      unfold matchSequence
      simp only
      rw [hr, res_bind_ok, if_pos (by decide), res_bind_ok, if_pos rfl]
      simp only
      rw [hr, res_bind_ok]
      rfl
    · obtain ⟨cx', st', hc, b1, b2, b3⟩ := ih.body hw he (p + 1) _ n ((s ++ [0#8]).length + 1) cx g3 (fun h => by omega) (Or.inr rfl) (by omega) (by simp; omega) hI
      obtain ⟨b, rest, hb, hne1, hne2, -⟩ := body_head e hw he
      have hh : Here s (p + 1) (b :: rest) _ := hb ▸ g3
      have hr := hh.cons.1
      unfold matchSequence
      simp only
      rw [hr, res_bind_ok, if_neg (by simp [exprEnd, hne1, hne2]), b3, res_bind_ok]
      cases r with
      | some k' =>
        refine ⟨cx', st', hc, by omega, by omega, ?_⟩
        rw [if_pos (show (outq t (p + 1) e.bytes.length (some k') st' cx').1 = true from rfl), res_bind_ok,
          if_pos (show (outq t (p + 1) e.bytes.length (some k') st' cx').1 = true from rfl)]
        simp only [outq]
        rw [g4.cons.1, res_bind_ok]
        simp only [if_true, bne, show ((0x29#8 : Byte) == 0#8) = false by decide, Bool.not_false]
        rw [show p + 1 + e.bytes.length + 1 = p + (e.bytes.length + 2) by omega]
      | none =>
        obtain ⟨gx, hgx, hRx⟩ := hc.inv
        refine ⟨cx'.rollback H (H.count cx.data), st', ⟨hc.dis, hc.nest, hgx ▸ hE.rollback _ _ _ _ hI.inv hRx⟩, by omega, by omega, ?_⟩
        rw [if_neg (show ¬ (outq t (p + 1) e.bytes.length none st' cx').1 = true by simp [outq]), res_bind_ok]
        rfl
  | opt e ih =>
    intro hp on rep k g r g' hsem hk0 hk
    refine ev_atom hE (fun h => by subst h; exact semC_left hO hsem) hk0 hk rfl id id ?_
    intro hw p post n cx rc h hz hpost hn' hrc hI
    obtain ⟨g1, g2⟩ := Here.cons h
    rw [g1] at hrc
    cases hrc
    have hlen : (Expr.opt e).bytes.length = e.bytes.length + 1 := by simp [Expr.bytes]
    have fin : ∀ k', (∀ cx1 : Cx σ, Pre R on rep g cx1 → ∃ cx', CxOk (R g') cx1 cx' ∧ repLoop H (matchAtom (s ++ [0#8]) (t ++ [0#8]) H n) (skipA s H) true (p + 1) ((t ++ [0#8]).length + 1)
          ⟨p + 1, srcAt t k⟩ cx1 = .ok (⟨p + 1 + e.bytes.length, srcAt t k'⟩, cx')) → r = some k' →
        ∃ cx' st', CxOk (R g') cx cx' ∧ p ≤ st'.pat ∧ st'.pat ≤ s.length ∧
        atomBody (s ++ [0#8]) (t ++ [0#8]) H (matchAtom (s ++ [0#8]) (t ++ [0#8]) H n) (skipA s H) 0x3F#8 ⟨p, srcAt t k⟩ cx =
          .ok ((outq t p (Expr.opt e).bytes.length r st' cx').1, (outq t p (Expr.opt e).bytes.length r st' cx').2.1, ⟨p, srcAt t k⟩, (outq t p (Expr.opt e).bytes.length r st' cx').2.2) := by
      rintro k' hh rfl
      obtain ⟨cx', h1, h2⟩ := repeat_any (Or.inl rfl) hI (s := s) hh
      refine ⟨cx', ⟨p, srcAt t k⟩, h1, Nat.le_refl _, h.le, ?_⟩
      rw [h2, hlen]
      simp only [outq, Nat.add_assoc, Nat.add_comm 1]
    cases hsem with
    | opt_yes hs =>
      rename_i k'
      have hle := sem_le hC (semC_plain hs) hk _ rfl
      refine fin k' ?_ rfl
      intro cx1 hI1
      obtain ⟨cx', h1, h2⟩ := rep_some hn (n := n) (j := (t ++ [0#8]).length) (q := p + 1) (once := true) hk hle.2 (ih hp _ _ _ _ _ _ hs hk0 hk) hw.1 g2 (fun h => by omega) hpost (by omega) hI1
      exact ⟨cx', h1, h2.trans (if_pos (Or.inr rfl))⟩
    | opt_no hs =>
      have hsing : e.single = true := by
        by_cases ho : e.optional = true
        · obtain ⟨k', hk'⟩ := optional_some (semC_plain hs) ho
          cases hk'
        · simpa [ho] using hw.2
      exact fin k (fun cx1 hI1 => rep_none hE (n := n) (ih hp _ _ _ _ _ _ hs hk0 hk) (semC_left hO hs) hw.1 hsing g2 (fun h => by omega) hpost (by omega) hI1) rfl
  | star e ih =>
    intro hp on rep k g r g' hsem hk0 hk
    refine ev_atom hE (fun h => by subst h; exact semC_left hO hsem) hk0 hk rfl id id ?_
    intro hw p post n cx rc h hz hpost hn' hrc hI
    obtain ⟨g1, g2⟩ := Here.cons h
    rw [g1] at hrc
    cases hrc
    have hlen : (Expr.star e).bytes.length = e.bytes.length + 1 := by simp [Expr.bytes]
    obtain ⟨k', rfl⟩ := star_some (semC_plain hsem) e rfl
    have hle := text_le t
    obtain ⟨cx', h1, h2⟩ := repeat_any (Or.inr rfl) hI (s := s) (m := matchAtom (s ++ [0#8]) (t ++ [0#8]) H n) (skip := skipA s H) (rc := 0x2A#8) (p := p) (q := p + 1 + e.bytes.length) (k := k) (k' := k') (by
      intro cx1 hI1
      obtain ⟨k'', cx', h1, h2, h3⟩ := rep_eval hE hn hO hC (ih hp on true) hw.1 hw.2 hsem rfl hk0 hk (p + 1) post n ((t ++ [0#8]).length + 1) cx1 (p + 1) g2 (by omega) hpost (by omega) hI1 (by simp; omega)
      cases h1
      exact ⟨cx', h2, h3⟩)
    refine ⟨cx', ⟨p, srcAt t k⟩, h1, Nat.le_refl _, h.le, ?_⟩
    rw [h2, hlen]
    simp only [outq, Nat.add_assoc, Nat.add_comm 1]
  | plus e ih =>
    intro hp on rep k g r g' hsem hk0 hk
    refine ev_atom hE (fun h => by subst h; exact semC_left hO hsem) hk0 hk rfl id id ?_
    intro hw p post n cx rc h hz hpost hn' hrc hI
    obtain ⟨g1, g2⟩ := Here.cons h
    rw [g1] at hrc
    cases hrc
    have hlen : (Expr.plus e).bytes.length = e.bytes.length + 1 := by simp [Expr.bytes]
    have hle := text_le t
    obtain ⟨cx', h1, h2⟩ := repeat_plus hI (s := s) (m := matchAtom (s ++ [0#8]) (t ++ [0#8]) H n) (skip := skipA s H) (p := p) (len := e.bytes.length) (k := k) (r := r) (by
      intro cx1 hI1
      cases hsem with
      | plus_no hs =>
        obtain ⟨cx', h1, h2⟩ := (ih hp _ _ _ _ _ _ hs hk0 hk).atom hw.1 (p + 1) post n cx1 g2 (fun h => by omega) hpost (by omega) hI1
        exact ⟨cx', h1, Or.inl ⟨rfl, h2⟩⟩
      | plus_yes hs hstar =>
        rename_i k1 gp
        have hk1 := sem_le hC (semC_plain hs) hk _ rfl
        obtain ⟨cx0, h1, h2⟩ := (ih hp _ _ _ _ _ _ hs hk0 hk).atom hw.1 (p + 1) post n cx1 g2 (fun h => by omega) hpost (by omega) hI1
        obtain ⟨k', cx', h3, h4, h5⟩ := rep_eval hE hn hO hC (ih hp on true) hw.1 hw.2 hstar rfl (by omega) hk1.2 (p + 1) post n ((t ++ [0#8]).length + 1) cx0 (p + 1 + e.bytes.length) g2 (by omega) hpost (by omega)
          (hI1.next h1) (by simp; omega)
        exact ⟨cx', h1.trans' h4, Or.inr ⟨cx0, _, k1, k', h3, h2, h5⟩⟩)
    refine ⟨cx', ⟨p + 1, srcAt t k⟩, h1, Nat.le_succ _, g2.le, ?_⟩
    rw [h2, hlen]
  | and e ih =>
    intro hp on rep k g r g' hsem hk0 hk
    refine ev_atom hE (fun h => by subst h; exact semC_left hO hsem) hk0 hk rfl id id ?_
    intro hw p post n cx rc h hz hpost hn' hrc hI
    have hsk : skipA s H p = _ := (sk_all hE.skip (.and e)).single hw hw.2 ((s ++ [0#8]).length + 1) p post h hpost (by simp)
    obtain ⟨g1, g2⟩ := Here.cons h
    rw [g1] at hrc
    cases hrc
    unfold atomBody
    iterate 10 rw [if_neg (by decide)]
    rw [if_pos (by decide)]
    cases hsem with
    | and_yes hs =>
      obtain ⟨cx', h1, h2⟩ := (ih hp _ _ _ _ _ _ hs hk0 hk).atom hw.1 (p + 1) post n { cx with disabled := cx.disabled + 1 } g2 (fun h => by omega) hpost (by omega) hI.off
      refine ⟨{ cx' with disabled := cx'.disabled - 1 }, ⟨p, srcAt t k⟩, ⟨?_, h1.nest, semC_off hO hs rfl ▸ h1.inv⟩, Nat.le_refl _, h.le, ?_⟩
      · have := h1.dis; simp only at this ⊢; omega
      · simp only
        rw [h2, res_bind_ok]
        simp only [outp, show ((0x26#8 : Byte) == 0x21#8) = false by decide, Bool.false_eq_true, if_false, if_true]
        rw [hsk]
        rfl
    | and_no hs =>
      obtain ⟨cx', h1, h2⟩ := (ih hp _ _ _ _ _ _ hs hk0 hk).atom hw.1 (p + 1) post n { cx with disabled := cx.disabled + 1 } g2 (fun h => by omega) hpost (by omega) hI.off
      refine ⟨{ cx' with disabled := cx'.disabled - 1 }, ⟨p, srcAt t k⟩, ⟨?_, h1.nest, semC_off hO hs rfl ▸ h1.inv⟩, Nat.le_refl _, h.le, ?_⟩
      · have := h1.dis; simp only at this ⊢; omega
      · simp only
        rw [h2, res_bind_ok]
        rfl
  | not e ih =>
    intro hp on rep k g r g' hsem hk0 hk
    refine ev_atom hE (fun h => by subst h; exact semC_left hO hsem) hk0 hk rfl id id ?_
    intro hw p post n cx rc h hz hpost hn' hrc hI
    have hsk : skipA s H p = _ := (sk_all hE.skip (.not e)).single hw hw.2 ((s ++ [0#8]).length + 1) p post h hpost (by simp)
    obtain ⟨g1, g2⟩ := Here.cons h
    rw [g1] at hrc
    cases hrc
    unfold atomBody
    iterate 10 rw [if_neg (by decide)]
    rw [if_pos (by decide)]
    cases hsem with
    | not_yes hs =>
      obtain ⟨cx', h1, h2⟩ := (ih hp _ _ _ _ _ _ hs hk0 hk).atom hw.1 (p + 1) post n { cx with disabled := cx.disabled + 1 } g2 (fun h => by omega) hpost (by omega) hI.off
      refine ⟨{ cx' with disabled := cx'.disabled - 1 }, ⟨p, srcAt t k⟩, ⟨?_, h1.nest, semC_off hO hs rfl ▸ h1.inv⟩, Nat.le_refl _, h.le, ?_⟩
      · have := h1.dis; simp only at this ⊢; omega
      · simp only
        rw [h2, res_bind_ok]
        simp only [outp, BEq.rfl, if_true, Bool.not_false]
        rw [hsk]
        rfl
    | not_no hs =>
      obtain ⟨cx', h1, h2⟩ := (ih hp _ _ _ _ _ _ hs hk0 hk).atom hw.1 (p + 1) post n { cx with disabled := cx.disabled + 1 } g2 (fun h => by omega) hpost (by omega) hI.off
      refine ⟨{ cx' with disabled := cx'.disabled - 1 }, ⟨p, srcAt t k⟩, ⟨?_, h1.nest, semC_off hO hs rfl ▸ h1.inv⟩, Nat.le_refl _, h.le, ?_⟩
      · have := h1.dis; simp only at this ⊢; omega
      · simp only
        rw [h2, res_bind_ok]
        rfl
  | label e name ih =>
    intro hp on rep k g r g' hsem hk0 hk
    have hkr := sem_le hC (semC_plain hsem) hk
    refine {
      base := fun _ h => by cases h
      atom := fun hw => ?_
      body := fun hw => by cases hw
      tail := fun hw => by cases hw
      alts := fun hw => by cases hw }
    obtain ⟨b, rest, hbr, -⟩ := atom_head e hw.1
    cases hsem with
    | label_yes hs =>
      exact atom_of_label hE (r := some _) (fun h => by cases h) hk0 hk hkr hw.2.2 ⟨b, rest, hbr⟩ ((ih hp _ _ _ _ _ _ hs hk0 hk).base hw.1 hw.2.1)
    | label_no hs =>
      exact atom_of_label hE (r := none) (fun _ => semC_left hO hs) hk0 hk hkr hw.2.2 ⟨b, rest, hbr⟩ ((ih hp _ _ _ _ _ _ hs hk0 hk).base hw.1 hw.2.1)
  | call name lab =>
    intro hp on rep k g r g' hsem hk0 hk
    refine ev_atom hE (fun h => by subst h; exact semC_left hO hsem) hk0 hk rfl id id ?_
    intro hw p post n cx rc h hz hpost hn' hrc hI
    cases hsem with
    | call hsem =>
    obtain ⟨cx', st', h1, h2, h3, h4⟩ := hE.call hw.1 on rep name lab k g r g' p post cx hw hsem hk0 hk h hz hpost hI
    refine ⟨cx', st', h1, h2, h3, ?_⟩
    have hh : ∃ rest, (Expr.call name lab).bytes = 0x3C#8 :: rest := by cases lab <;> exact ⟨_, rfl⟩
    obtain ⟨rest, hr⟩ := hh
    rw [hr] at h
    have g1 := (Here.cons h).1
    rw [g1] at hrc
    cases hrc
    unfold atomBody
    iterate 11 rw [if_neg (by decide)]
    rw [if_pos (by decide), h4]
    rfl
  | empty =>
    intro hp on rep k g r g' hsem hk0 hk
    exact {
      base := fun h => by cases h
      atom := fun h => by cases h
      body := fun _ h => absurd rfl h
      tail := fun _ h => absurd rfl h
      alts := fun _ h => by cases h }
  | seq a b iha ihb =>
    intro hp on rep k g r g' hsem hk0 hk
    have hpa : a.noProps = true ∨ ∀ c ∈ decodeAll t, InCtype c := hp.imp (fun h => (by simpa [Expr.noProps] using h : _ ∧ _).1) id
    have hpb : b.noProps = true ∨ ∀ c ∈ decodeAll t, InCtype c := hp.imp (fun h => (by simpa [Expr.noProps] using h : _ ∧ _).2) id
    exact {
      base := fun h => by cases h
      atom := fun h => by cases h
      alts := fun _ h => by cases h
      body := by
        intro hw _ p post n j cx h hz hend hn' hj hI
        have h : Here s p (a.bytes ++ b.bytes) post := h
        have g1 := Here.left h
        have g2 := Here.right h
        obtain ⟨c, rest, hc1, hc2⟩ := atom_head a hw.1
        have hlt : p < s.length := by have := g1.len; rw [hc1] at this; simp only [List.length_cons] at this; omega
        have hcol : nxt (b.bytes ++ post) ≠ 0x3A#8 := by
          by_cases hb : b = .empty
          · subst hb; exact hend.t.colon
          · obtain ⟨c, rest, h1, -, -, h2⟩ := body_head b hw.2 hb
            rw [nxt_head h1]; exact h2
        obtain ⟨j, rfl⟩ : ∃ i, j = i + 1 := ⟨j - 1, by omega⟩
        cases hsem with
        | seq_no hs =>
          obtain ⟨cx', h1, h2⟩ := (iha hpa _ _ _ _ _ _ hs hk0 hk).atom hw.1 p _ n cx g1 hz hcol hn' hI
          refine ⟨cx', ⟨p, srcAt t k⟩, ⟨h1.dis, h1.nest, _, semC_left hO hs, h1.inv⟩, Nat.le_refl _, hlt, ?_⟩
          rw [seqLoop, h2]
          rfl
        | seq_yes hs hs2 =>
          rename_i k1 ga k2
          have hk1 := sem_le hC (semC_plain hs) hk _ rfl
          obtain ⟨cx1, h1, h2⟩ := (iha hpa _ _ _ _ _ _ hs hk0 hk).atom hw.1 p _ n cx g1 hz hcol hn' hI
          rw [seqLoop, h2, res_bind_ok]
          simp only [outp, if_true]
          by_cases hb : b = .empty
          · subst hb
            cases hs2
            refine ⟨cx1, ⟨p, srcAt t k⟩, h1, Nat.le_refl _, hlt, ?_⟩
            rw [g1.over.end, res_bind_ok, if_pos]
            · simp [outq, Expr.bytes]
            · rcases hend with h | h
              · simp [Expr.bytes, h, exprEnd]
              · simp [Expr.bytes, h, exprEnd]
          · obtain ⟨c', rest', e1, e2, e3, -⟩ := body_head b hw.2 hb
            obtain ⟨cx', st', f1, f2, f3, f4⟩ := (ihb hpb _ _ _ _ _ _ hs2 (by omega) hk1.2).body hw.2 hb (p + a.bytes.length) post n j cx1 g2 (fun h => by rw [hc1, List.length_cons] at h; omega) hend
              (by omega) (by rw [hc1, List.length_cons]; omega) (hI.next h1)
            refine ⟨cx', st', h1.trans' f1, by omega, f3, ?_⟩
            rw [g1.over.end, res_bind_ok, nxt_head e1, if_neg (by simp [exprEnd, e2, e3]), f4]
            simp [outq, Expr.bytes, Nat.add_assoc]
        | seq_back hs hs2 =>
          rename_i k1 ga gb
          have hk1 := sem_le hC (semC_plain hs) hk _ rfl
          obtain ⟨cx1, h1, h2⟩ := (iha hpa _ _ _ _ _ _ hs hk0 hk).atom hw.1 p _ n cx g1 hz hcol hn' hI
          rw [seqLoop, h2, res_bind_ok]
          simp only [outp, if_true]
          by_cases hb : b = .empty
          · subst hb
            cases hs2
          · obtain ⟨c', rest', e1, e2, e3, -⟩ := body_head b hw.2 hb
            obtain ⟨cx', st', f1, f2, f3, f4⟩ := (ihb hpb _ _ _ _ _ _ hs2 (by omega) hk1.2).body hw.2 hb (p + a.bytes.length) post n j cx1 g2 (fun h => by rw [hc1, List.length_cons] at h; omega) hend
              (by omega) (by rw [hc1, List.length_cons]; omega) (hI.next h1)
            refine ⟨cx', st', ⟨f1.dis.trans h1.dis, f1.nest.trans h1.nest, ?_⟩, by omega, f3, ?_⟩
            · obtain ⟨gx, hgx, hRx⟩ := f1.inv
              refine ⟨gx, ?_, hRx⟩
              by_cases hg : g = []
              · subst hg; rfl
              · rw [left_ne hg, left_ne hg, ← hgx, left_ne (semC_grow hO hs hg)]
            · rw [g1.over.end, res_bind_ok, nxt_head e1, if_neg (by simp [exprEnd, e2, e3]), f4]
              rfl
      tail := by
        intro hw _ p post n j cx h hz hend hn' hj hI
        have h : Here s p (a.bytes ++ b.bytes) post := h
        have g1 := Here.left h
        have g2 := Here.right h
        obtain ⟨c, rest, hc1, hc2⟩ := atom_head a hw.1
        have hlt : p < s.length := by have := g1.len; rw [hc1] at this; simp only [List.length_cons] at this; omega
        have hcol : nxt (b.bytes ++ post) ≠ 0x3A#8 := by
          by_cases hb : b = .empty
          · subst hb; exact hend.colon
          · obtain ⟨c, rest, h1, h2⟩ := tail_head b hw.2 hb
            rw [nxt_head h1]; exact h2.2.2.2
        obtain ⟨j, rfl⟩ : ∃ i, j = i + 1 := ⟨j - 1, by omega⟩
        cases hsem with
        | seq_no hs =>
          obtain ⟨cx', h1, h2⟩ := (iha hpa _ _ _ _ _ _ hs hk0 hk).atom hw.1 p _ n cx g1 hz hcol hn' hI
          refine ⟨cx', ⟨p, srcAt t k⟩, ⟨h1.dis, h1.nest, _, semC_left hO hs, h1.inv⟩, Nat.le_refl _, hlt, ?_⟩
          rw [altAtoms, h2]
          rfl
        | seq_yes hs hs2 =>
          rename_i k1 ga k2
          have hk1 := sem_le hC (semC_plain hs) hk _ rfl
          obtain ⟨cx1, h1, h2⟩ := (iha hpa _ _ _ _ _ _ hs hk0 hk).atom hw.1 p _ n cx g1 hz hcol hn' hI
          rw [altAtoms, h2, res_bind_ok]
          simp only [outp, if_true]
          by_cases hb : b = .empty
          · subst hb
            cases hs2
            refine ⟨cx1, ⟨p, srcAt t k⟩, h1, Nat.le_refl _, hlt, ?_⟩
            rw [g1.over.end, res_bind_ok, if_pos]
            · simp [outq, Expr.bytes]
            · rcases hend with h | h | h
              · simp [Expr.bytes, h, exprEnd]
              · simp [Expr.bytes, h, exprEnd]
              · simp [Expr.bytes, h, exprEnd]
          · obtain ⟨c', rest', e1, e2, e3, e4, -⟩ := tail_head b hw.2 hb
            obtain ⟨cx', st', f1, f2, f3, f4⟩ := (ihb hpb _ _ _ _ _ _ hs2 (by omega) hk1.2).tail hw.2 hb (p + a.bytes.length) post n j cx1 g2 (fun h => by rw [hc1, List.length_cons] at h; omega) hend
              (by omega) (by rw [hc1, List.length_cons]; omega) (hI.next h1)
            refine ⟨cx', st', h1.trans' f1, by omega, f3, ?_⟩
            rw [g1.over.end, res_bind_ok, nxt_head e1, if_neg (by simp [exprEnd, e2, e3, e4]), f4]
            simp [outq, Expr.bytes, Nat.add_assoc]
        | seq_back hs hs2 =>
          rename_i k1 ga gb
          have hk1 := sem_le hC (semC_plain hs) hk _ rfl
          obtain ⟨cx1, h1, h2⟩ := (iha hpa _ _ _ _ _ _ hs hk0 hk).atom hw.1 p _ n cx g1 hz hcol hn' hI
          rw [altAtoms, h2, res_bind_ok]
          simp only [outp, if_true]
          by_cases hb : b = .empty
          · subst hb
            cases hs2
          · obtain ⟨c', rest', e1, e2, e3, e4, -⟩ := tail_head b hw.2 hb
            obtain ⟨cx', st', f1, f2, f3, f4⟩ := (ihb hpb _ _ _ _ _ _ hs2 (by omega) hk1.2).tail hw.2 hb (p + a.bytes.length) post n j cx1 g2 (fun h => by rw [hc1, List.length_cons] at h; omega) hend
              (by omega) (by rw [hc1, List.length_cons]; omega) (hI.next h1)
            refine ⟨cx', st', ⟨f1.dis.trans h1.dis, f1.nest.trans h1.nest, ?_⟩, by omega, f3, ?_⟩
            · obtain ⟨gx, hgx, hRx⟩ := f1.inv
              refine ⟨gx, ?_, hRx⟩
              by_cases hg : g = []
              · subst hg; rfl
              · rw [left_ne hg, left_ne hg, ← hgx, left_ne (semC_grow hO hs hg)]
            · rw [g1.over.end, res_bind_ok, nxt_head e1, if_neg (by simp [exprEnd, e2, e3, e4]), f4]
              rfl }
  | bar e ih =>
    intro hp on rep k g r g' hsem hk0 hk
    cases hsem with
    | bar hsem =>
    refine ev_alts hE (fun h => by subst h; exact semC_left hO hsem) rfl id id ?_
    intro hw p post n j st start cx g0 d0 h hend hn' hj hstart hd0 hg0 hI
    have h : Here s p (0x7C#8 :: e.bytes) post := h
    obtain ⟨g1, g2⟩ := Here.cons h
    have hle := h.le
    have hlt := g2.le
    obtain ⟨j, rfl⟩ : ∃ i, j = i + 1 := ⟨j - 1, by omega⟩
    have hskip : skipA s H p = _ := skip_bar hE.skip e (sk_all hE.skip e) hw.2 h hend.t (n := (s ++ [0#8]).length + 1) (by simp)
    have hlen : (Expr.bar e).bytes.length = e.bytes.length + 1 := by simp [Expr.bytes]
    obtain ⟨cx', st', a1, a2, a3, a4⟩ := (ih hp _ _ _ _ _ _ hsem hk0 hk).tail hw.2 hw.1 (p + 1) post n ((s ++ [0#8]).length + 1) cx g2 (fun h => by omega) hend.t (by omega) (by simp; omega) hI
    rw [altLoop, g1, res_bind_ok, if_pos (by decide), hlen]
    simp only
    rw [hstart, a4, res_bind_ok]
    have hbar : (nxt post != 0x7C#8) = true := by rcases hend with h | h <;> rw [h] <;> decide
    cases r with
    | some k' =>
      refine ⟨cx', st', ⟨p + 1, srcAt t k⟩, a1, rfl, Nat.lt_succ_self _, by simp only; omega, ?_⟩
      rw [if_pos (show (outq t (p + 1) e.bytes.length (some k') st' cx').1 = true from rfl)]
      simp only [outq]
      unfold skipBars
      rw [show ((s ++ [0#8]).length + 1) = (s.length + 1) + 1 by simp, skipTo, g2.over.end, res_bind_ok, if_pos hbar, res_bind_ok]
      rw [show p + 1 + e.bytes.length = p + (e.bytes.length + 1) by omega]
    | none =>
      rw [if_neg (show ¬ (outq t (p + 1) e.bytes.length none st' cx').1 = true by simp [outq]), hskip, res_bind_ok]
      have hend' := g2.over.end
      rw [show p + 1 + e.bytes.length = p + (e.bytes.length + 1) by omega] at hend'
      obtain ⟨j, rfl⟩ : ∃ i, j = i + 1 := ⟨j - 1, by omega⟩
      obtain ⟨gx, hgx, hRx⟩ := a1.inv
      refine ⟨cx'.rollback H (H.count d0), st', ⟨p + 1, srcAt t k⟩, ⟨a1.dis, a1.nest, (left_congr hg0 gx).trans hgx ▸ hE.rollback _ _ _ _ hd0 hRx⟩, rfl, Nat.lt_succ_self _, by simp only; omega, ?_⟩
      rw [altLoop, hend', res_bind_ok, if_neg (by simpa using hbar)]
      rfl
  | alt a b iha ihb =>
    intro hp on rep k g r g' hsem hk0 hk
    have hpa : a.noProps = true ∨ ∀ c ∈ decodeAll t, InCtype c := hp.imp (fun h => (by simpa [Expr.noProps] using h : _ ∧ _).1) id
    have hpb : b.noProps = true ∨ ∀ c ∈ decodeAll t, InCtype c := hp.imp (fun h => (by simpa [Expr.noProps] using h : _ ∧ _).2) id
    refine ev_alts hE (fun h => by subst h; exact semC_left hO hsem) rfl id id ?_
    intro hw p post n j st start cx g0 d0 h hend hn' hj hstart hd0 hg0 hI
    have h : Here s p ((0x7C#8 :: a.bytes) ++ b.bytes) post := h
    have g0 := Here.left h
    have g3 := Here.right h
    obtain ⟨g1, g2⟩ := Here.cons g0
    have hle := h.le
    have hlt := g3.len
    obtain ⟨rest, hr⟩ := alternates_head b hw.2.2.1
    rw [hr] at hlt
    simp only [List.length_cons] at hlt
    have hpost : EndT (b.bytes ++ post) := Or.inr (Or.inr (nxt_head hr))
    obtain ⟨j, rfl⟩ : ∃ i, j = i + 1 := ⟨j - 1, by omega⟩
    have hskip : skipA s H p = _ := skip_bar hE.skip a (sk_all hE.skip a) hw.2.1 g0 hpost (n := (s ++ [0#8]).length + 1) (by simp)
    have hlen : (Expr.alt a b).bytes.length = a.bytes.length + 1 + b.bytes.length := by simp [Expr.bytes]; omega
    have hbar : (nxt post != 0x7C#8) = true := by rcases hend with h | h <;> rw [h] <;> decide
    rw [altLoop, g1, res_bind_ok, if_pos (by decide), hlen]
    simp only
    cases hsem with
    | alt_first hs =>
      rename_i k'
      obtain ⟨cx', st', a1, a2, a3, a4⟩ := (iha hpa _ _ _ _ _ _ hs hk0 hk).tail hw.2.1 hw.1 (p + 1) _ n ((s ++ [0#8]).length + 1) cx g2 (fun h => by omega) hpost (by omega) (by simp; omega) hI
      rw [hstart, a4, res_bind_ok]
      refine ⟨cx', st', ⟨p + 1, srcAt t k⟩, a1, rfl, Nat.lt_succ_self _, by simp only; omega, ?_⟩
      rw [if_pos (show (outq t (p + 1) a.bytes.length (some k') st' cx').1 = true from rfl)]
      simp only [outq]
      unfold skipBars
      obtain ⟨i, hi, e1⟩ := (sk_all hE.skip b).body hw.2.2.2 (fun b => b != 0x7C#8) ((s ++ [0#8]).length + 1) _ post ((s ++ [0#8]).length + 1) (Or.inr hw.2.2.1) (by decide) g3 hend
        (by simp only [List.length_append, List.length_cons, List.length_nil]; omega) (by simp only [List.length_append, List.length_cons, List.length_nil]; omega)
      have hl2 := g3.over.le
      have hend' := g3.over.end
      simp only [List.length_cons] at e1 hi hl2 hend'
      rw [show p + 1 + a.bytes.length = p + (a.bytes.length + 1) by omega, e1]
      obtain ⟨i, rfl⟩ : ∃ i', i = i' + 1 := ⟨i - 1, by omega⟩
      rw [skipTo, hend', res_bind_ok, if_pos hbar, res_bind_ok]
      rw [show p + (a.bytes.length + 1) + b.bytes.length = p + (a.bytes.length + 1 + b.bytes.length) by omega]
    | alt_next hs hs2 =>
      obtain ⟨cx1, st1, a1, a2, a3, a4⟩ := (iha hpa _ _ _ _ _ _ hs hk0 hk).tail hw.2.1 hw.1 (p + 1) _ n ((s ++ [0#8]).length + 1) cx g2 (fun h => by omega) hpost (by omega) (by simp; omega) hI
      rw [hstart, a4, res_bind_ok, if_neg (show ¬ (outq t (p + 1) a.bytes.length none st1 cx1).1 = true by simp [outq]), hskip, res_bind_ok]
      rename_i ga
      obtain ⟨gx, hgx, hRx⟩ := a1.inv
      have ca : CxOk (R ga) cx (cx1.rollback H (H.count d0)) := ⟨a1.dis, a1.nest, (left_congr hg0 gx).trans hgx ▸ hE.rollback _ _ _ _ hd0 hRx⟩
      obtain ⟨cx', st', start', b1, b2, b3, b4, b5⟩ := (ihb hpb _ _ _ _ _ _ hs2 hk0 hk).alts hw.2.2.2 hw.2.2.1 (p + (a.bytes.length + 1)) post n j st1 ⟨p + 1, srcAt t k⟩ (cx1.rollback H (H.count d0)) _ d0 g3 hend
        (by omega) (by omega) rfl hd0 (hg0.trans (semC_iff hO hs)) (hI.next ca)
      refine ⟨cx', st', start', ca.trans' b1, b2, by omega, b4, ?_⟩
      refine b5.trans ?_
      cases r <;> simp only [outq, Nat.add_assoc]

end
end

end Strpp.Pex
