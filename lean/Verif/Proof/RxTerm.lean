import Verif.Proof.RxProg
import Verif.Spec.RxSteady
/-! Matching terminates, without undefined behaviour; and for plain expressions, without a failed assertion. -/
set_option linter.unusedSimpArgs false
set_option linter.unusedVariables false
namespace Strpp.Rx
open Spec

/-- Instructions that are harmless at station `s` -/
def OkI (P : Prog) (s : Nat) : Instr → Prop
  | .jump a _ => s < a ∨ ∃ x y, P.decode a = .ok (.split x y)
  | .bol n | .eol n => s < n
  | .capStart k n => k = 0 ∧ s < n
  | .cls _ text _ | .prop text _ => 0 < (decodeAll text).length
  | .split .. | .any _ | .char .. | .accept _ => True
  | _ => False

/-- no station that leads to a place in `T` -/
def NotSrc (P : Prog) (T : Nat → Prop) (a : Nat) : Prop := ∀ i, P.decode a = .ok i → i.isStation = true → ∀ n ∈ i.succs, ¬ T n

/-- What has to be so at `s`, when `T` are the places from which one gets to places that are reached blindly (`q` is the end of the code) -/
def TameI (P : Prog) (T : Nat → Prop) (q s : Nat) : Instr → Prop
  | .jump a _ => (T a → T s) ∧ ((∃ x y, P.decode a = .ok (.split x y)) ∨ (T s ∧ (T a ∨ a = q ∨ NotSrc P T a)))
  | .bol n | .eol n => T s ∧ (T n ∨ n = q ∨ NotSrc P T n)
  | .split a n => ¬ (T a ∧ T n) ∧ (T a ∨ T n → T s)
  | .capStart .. => False
  | _ => ¬ T s

/-- does not go blindly to `q` -/
def NoLand (P : Prog) (q : Nat) : Instr → Prop
  | .jump a _ => (∃ x y, P.decode a = .ok (.split x y)) ∨ a ≠ q
  | .bol n | .eol n => n ≠ q
  | _ => True

structure Tame (P : Prog) (p q : Nat) (e : Bool) (r : Re) (L : List (Nat × Instr)) (T : Nat → Prop) : Prop where
  range : ∀ u, T u → p ≤ u ∧ u ≤ q
  leave : T q ↔ e = true
  front : T p ↔ r.opens e = true
  instr : ∀ x ∈ L, TameI P T q x.1 x.2
  spare : r.spare e = true → p = q ∨ NotSrc P T p
  plain : r.plain = true → e = false → ∀ u, ¬ T u

/-- The instructions of the code of an expression -/
structure Frame' (P : Prog) (p q : Nat) (r : Re) (L : List (Nat × Instr)) (K : List Nat) : Prop where
  mem : ∀ x ∈ L, p ≤ x.1 ∧ x.1 < q ∧ P.decode x.1 = .ok x.2 ∧ OkI P x.1 x.2 ∧ ∀ n ∈ x.2.succs, n ∈ L.map Prod.fst ∨ n = q
  start : p ∈ L.map Prod.fst ∨ p = q
  count : L.countP (fun x => x.2.isStation) = r.chars
  branches : K.length = r.branches
  kids : ∀ x ∈ L, ∀ a n, x.2 = .split a n → (a ∈ K ∨ Station P a) ∧ (n ∈ K ∨ Station P n)
  one : r.startsOne = true → Station P p
  code : r.noCode = true ↔ p = q
  lands : r.lands = false → ∀ x ∈ L, NoLand P q x.2
  tame : ∀ e, r.tame e = true → ∃ T, Tame P p q e r L T

theorem Frame'.le {P p q r L K} (h : Frame' P p q r L K) : p ≤ q := by
  rcases h.start with h1 | h1
  · obtain ⟨x, hx, rfl⟩ := List.mem_map.1 h1
    have := h.mem x hx; omega
  · omega

theorem Frame'.succ {P p q r L K} (h : Frame' P p q r L K) {x : Nat × Instr} (hx : x ∈ L) {n : Nat} (hn : n ∈ x.2.succs) : p ≤ n ∧ n ≤ q := by
  obtain ⟨-, -, -, -, h5⟩ := h.mem x hx
  rcases h5 n hn with h1 | rfl
  · obtain ⟨y, hy, rfl⟩ := List.mem_map.1 h1
    have := h.mem y hy; omega
  · exact ⟨h.le, Nat.le_refl _⟩

theorem notSrc_of {P T a i} (h : P.decode a = .ok i) (hs : i.isStation = false) : NotSrc P T a := by
  intro i' h' hs'
  rw [h] at h'; cases h'; rw [hs] at hs'; cases hs'

/-- In larger code, with further places in `T` -/
theorem Frame'.notSrc {P p q r L K} (hF : Frame' P p q r L K) {T T' : Nat → Prop} (hag : ∀ u, p ≤ u → u ≤ q → (T' u ↔ T u)) {a : Nat}
    (ha : a ∈ L.map Prod.fst) (h : NotSrc P T a) : NotSrc P T' a := by
  intro i hi hs n hn
  obtain ⟨x, hx, rfl⟩ := List.mem_map.1 ha
  obtain ⟨-, -, h3, -, -⟩ := hF.mem x hx
  rw [hi] at h3
  have h3 := Except.ok.inj h3
  have := hF.succ hx (n := n) (h3 ▸ hn)
  rw [hag n this.1 this.2]
  exact h i hi hs n hn

theorem Frame'.lift {P p q r L K} (hF : Frame' P p q r L K) {e T} (hT : Tame P p q e r L T) {T' : Nat → Prop} {q' : Nat}
    (hag : ∀ u, p ≤ u → u ≤ q → (T' u ↔ T u)) (hq : r.lands = false ∨ T' q ∨ q = q' ∨ NotSrc P T' q) : ∀ x ∈ L, TameI P T' q' x.1 x.2 := by
  intro x hx
  obtain ⟨h1, h2, h3, h4, h5⟩ := hF.mem x hx
  have hs := hag x.1 h1 (by omega)
  have hi := hT.instr x hx
  have hsucc := fun n hn => hF.succ hx (n := n) hn
  have target : ∀ n, n ∈ x.2.succs → (r.lands = false → n ≠ q) → T n ∨ n = q ∨ NotSrc P T n → T' n ∨ n = q' ∨ NotSrc P T' n := by
    intro n hn hl h
    have hr := hsucc n hn
    by_cases hnq : n = q
    · subst hnq
      rcases hq with h' | h' | h' | h'
      · exact (hl h' rfl).elim
      · exact .inl h'
      · exact .inr (.inl h')
      · exact .inr (.inr h')
    · rcases h with h | h | h
      · exact .inl ((hag n hr.1 hr.2).2 h)
      · exact (hnq h).elim
      · exact .inr (.inr (hF.notSrc hag ((h5 n hn).resolve_right hnq) h))
  have hland := fun h => hF.lands h x hx
  cases hx2 : x.2 with
  | jump a n =>
    rw [hx2] at hi hsucc target hland
    have ha := hsucc a (by simp [Instr.succs])
    refine ⟨fun h => hs.2 (hi.1 ((hag a ha.1 ha.2).1 h)), ?_⟩
    rcases Classical.em (∃ x y, P.decode a = .ok (.split x y)) with h | hns
    · exact .inl h
    · obtain ⟨h6, h7⟩ := hi.2.resolve_left hns
      exact .inr ⟨hs.2 h6, target a (by simp [Instr.succs]) (fun hl => (hland hl).resolve_left hns) h7⟩
  | bol n =>
    rw [hx2] at hi hsucc target hland
    exact ⟨hs.2 hi.1, target n (by simp [Instr.succs]) hland hi.2⟩
  | eol n =>
    rw [hx2] at hi hsucc target hland
    exact ⟨hs.2 hi.1, target n (by simp [Instr.succs]) hland hi.2⟩
  | split a n =>
    rw [hx2] at hi hsucc
    have ha := hsucc a (by simp [Instr.succs])
    have hn := hsucc n (by simp [Instr.succs])
    have ha := hag a ha.1 ha.2
    have hn := hag n hn.1 hn.2
    refine ⟨?_, ?_⟩
    · rw [ha, hn]; exact hi.1
    · rw [ha, hn, hs]; exact hi.2
  | capStart k n => rw [hx2] at hi; exact hi.elim
  | _ => rw [hx2] at hi; exact fun h => hi (hs.1 h)

theorem Frame'.single {P p q r ins} (hd : P.decode p = .ok ins) (hq : p < q) (hok : OkI P p ins) (hn : ∀ n ∈ ins.succs, n = q)
    (hs : ins.isStation = true) (hc : r.chars = 1) (hr : r.branches = 0) (hno : r.noCode = false)
    (hop : ∀ e, r.opens e = false) (hsp : ∀ e, r.spare e = !e) : Frame' P p q r [(p, ins)] [] := by
  refine ⟨?_, .inl (by simp), ?_, hr.symm, ?_, ?_, ?_, ?_, ?_⟩
  · intro x hx
    cases List.mem_singleton.1 hx
    exact ⟨Nat.le_refl _, hq, hd, hok, fun n h => .inr (hn n h)⟩
  · simp [hs, hc]
  · intro x hx a n he
    cases List.mem_singleton.1 hx
    dsimp only at he
    rw [he] at hs; cases hs
  · intro _; exact ⟨ins, hd, hs⟩
  · rw [hno]; constructor
    · intro h; cases h
    · intro h; omega
  · intro _ x hx
    cases List.mem_singleton.1 hx
    cases ins <;> first | trivial | cases hs
  · intro e _
    refine ⟨fun u => u = q ∧ e = true, ?_, ?_, ?_, ?_, ?_, ?_⟩
    · rintro u ⟨rfl, -⟩; omega
    · simp
    · rw [hop]
      constructor
      · intro h; omega
      · intro h; cases h
    · intro x hx
      cases List.mem_singleton.1 hx
      have : ¬ (p = q ∧ e = true) := by omega
      cases ins <;> first | exact this | cases hs
    · rw [hsp]
      intro he
      refine .inr fun i hi hst n hnn h => ?_
      rw [h.2] at he; cases he
    · rintro _ rfl u h; cases h.2

theorem Frame'.anchor {P p q r ins} (hd : P.decode p = .ok ins) (hq : p < q) (hok : OkI P p ins) (hn : ∀ n ∈ ins.succs, n = q)
    (hs : ins = .bol q ∨ ins = .eol q) (hrr : r = .bol ∨ r = .eol) : Frame' P p q r [(p, ins)] [] := by
  have hst : ins.isStation = false := by rcases hs with rfl | rfl <;> rfl
  refine ⟨?_, .inl (by simp), ?_, ?_, ?_, ?_, ?_, ?_, ?_⟩
  · intro x hx
    cases List.mem_singleton.1 hx
    exact ⟨Nat.le_refl _, hq, hd, hok, fun n h => .inr (hn n h)⟩
  · rcases hrr with rfl | rfl <;> simp [hst, Re.chars]
  · rcases hrr with rfl | rfl <;> rfl
  · intro x hx a n he
    cases List.mem_singleton.1 hx
    dsimp only at he
    rcases hs with h | h <;> rw [h] at he <;> cases he
  · intro h; rcases hrr with rfl | rfl <;> cases h
  · have : r.noCode = false := by rcases hrr with rfl | rfl <;> rfl
    rw [this]; constructor
    · intro h; cases h
    · intro h; omega
  · intro h; rcases hrr with rfl | rfl <;> cases h
  · intro e _
    refine ⟨fun u => u = p ∨ (u = q ∧ e = true), ?_, ?_, ?_, ?_, ?_, ?_⟩
    · rintro u (rfl | ⟨rfl, -⟩) <;> omega
    · constructor
      · rintro (h | h)
        · omega
        · exact h.2
      · intro h; exact .inr ⟨rfl, h⟩
    · have : r.opens e = true := by rcases hrr with rfl | rfl <;> rfl
      simp [this]
    · intro x hx
      cases List.mem_singleton.1 hx
      rcases hs with rfl | rfl
      · exact ⟨.inl rfl, .inr (.inl rfl)⟩
      · exact ⟨.inl rfl, .inr (.inl rfl)⟩
    · intro _; exact .inr (notSrc_of hd hst)
    · intro h; rcases hrr with rfl | rfl <;> cases h

theorem prop_text (q : Shorthand) : 0 < (decodeAll ([q.code].flatMap utf8Put)).length := by
  have := decodeAll_encodeAll [q.code] (by
    intro c hc
    cases List.mem_singleton.1 hc
    cases q <;> decide) []
  rw [List.append_nil, decodeAll_nil, List.append_nil] at this
  have h2 : [q.code].flatMap utf8Put = encodeAll [q.code] := rfl
  rw [h2, this]; simp

theorem cls_text (rs : List (UCS4 × UCS4)) (hne : rs ≠ []) (h : ∀ r ∈ rs, ¬ Reserved r.1 ∧ ¬ Reserved r.2) :
    0 < (decodeAll ((rangeChars rs).flatMap utf8Put)).length := by
  rw [decode_rangeChars rs h]
  cases rs with
  | nil => exact (hne rfl).elim
  | cons r rs => simp [rangeChars]

theorem plain_opens (r : Re) : r.plain = true → r.opens false = false := by
  induction r with
  | seq a b iha ihb =>
    intro h
    simp only [Re.plain, Bool.and_eq_true] at h
    simp only [Re.opens, ihb h.2, iha h.1]
  | star a ih => intro h; simp only [Re.opens, ih h]; rfl
  | plus a ih => intro h; simp only [Re.opens, ih h, Bool.or_false]
  | opt a ih => intro h; simp only [Re.opens, ih h]; rfl
  | grp nc a ih => intro h; exact ih h
  | bol | eol | alt => intro h; cases h
  | _ => intro _; rfl

theorem plain_tame (r : Re) : r.plain = true → r.counted = false → r.lands = false ∧ r.tame false = true := by
  induction r with
  | seq a b iha ihb =>
    intro h hc
    simp only [Re.plain, Bool.and_eq_true] at h
    simp only [Re.counted, Bool.or_eq_false_iff] at hc
    obtain ⟨a1, a2⟩ := iha h.1 hc.1
    obtain ⟨b1, b2⟩ := ihb h.2 hc.2
    simp only [Re.lands, Re.tame, plain_opens b h.2, a1, a2, b1, b2]
    exact ⟨by simp, rfl⟩
  | star a ih => intro h hc; simp [Re.tame, Re.lands, plain_opens a h, (ih h hc).2]
  | plus a ih => intro h hc; simp [Re.tame, Re.lands, plain_opens a h, (ih h hc).2]
  | opt a ih => intro h hc; simp [Re.tame, Re.lands, plain_opens a h, (ih h hc).2, (ih h hc).1]
  | grp nc a ih => intro h hc; exact ih h hc
  | bol | eol | alt => intro h; cases h
  | rep => intro _ h; cases h
  | _ => intro _ _; exact ⟨rfl, rfl⟩

theorem tame_seq {P p m q a b A KA B KB} (ha : Frame' P p m a A KA) (hb : Frame' P m q b B KB) (e : Bool)
    (h : (Re.seq a b).tame e = true) : ∃ T, Tame P p q e (.seq a b) (A ++ B) T := by
  simp only [Re.tame, Bool.and_eq_true, Bool.or_eq_true, Bool.not_eq_true'] at h
  obtain ⟨⟨h1, h2⟩, h3⟩ := h
  obtain ⟨Tb, hTb⟩ := hb.tame e h1
  obtain ⟨Ta, hTa⟩ := ha.tame _ h2
  have hm : Ta m ↔ Tb m := hTa.leave.trans hTb.front.symm
  have agA : ∀ u, p ≤ u → u ≤ m → (Ta u ∨ Tb u ↔ Ta u) := by
    intro u h1 h2
    refine ⟨?_, .inl⟩
    rintro (h | h)
    · exact h
    · have := hTb.range u h
      obtain rfl : u = m := by omega
      exact hm.2 h
  have agB : ∀ u, m ≤ u → u ≤ q → (Ta u ∨ Tb u ↔ Tb u) := by
    intro u h1 h2
    refine ⟨?_, .inr⟩
    rintro (h | h)
    · have := hTa.range u h
      obtain rfl : u = m := by omega
      exact hm.1 h
    · exact h
  have hab := ha.le
  have hbq := hb.le
  have frontB : b.spare e = true → m = q ∨ NotSrc P (fun u => Ta u ∨ Tb u) m := by
    intro hs
    rcases hTb.spare hs with h | h
    · exact .inl h
    · rcases hb.start with hst | hst
      · exact .inr (hb.notSrc agB hst h)
      · exact .inl hst
  refine ⟨fun u => Ta u ∨ Tb u, ?_, ?_, ?_, ?_, ?_, ?_⟩
  · rintro u (h | h)
    · have := hTa.range u h; omega
    · have := hTb.range u h; omega
  · exact (agB q hbq (Nat.le_refl _)).trans hTb.leave
  · exact (agA p (Nat.le_refl _) hab).trans hTa.front
  · intro x hx
    rcases List.mem_append.1 hx with hx | hx
    · refine ha.lift hTa agA ?_ x hx
      rcases h3 with (h | h) | h
      · exact .inl h
      · exact .inr (.inl (.inr (hTb.front.2 h)))
      · exact .inr (.inr (frontB h))
    · exact hb.lift hTb agB (.inr (.inr (.inl rfl))) x hx
  · intro hs
    simp only [Re.spare] at hs
    by_cases hn : a.noCode = true
    · rw [if_pos hn] at hs
      obtain rfl := ha.code.1 hn
      exact frontB hs
    · rw [if_neg hn] at hs
      have hne : p ≠ m := fun h => hn (ha.code.2 h)
      exact .inr (ha.notSrc agA (ha.start.resolve_right hne) ((hTa.spare hs).resolve_left hne))
  · intro hp he u
    simp only [Re.plain, Bool.and_eq_true] at hp
    have h4 := hTb.plain hp.2 he
    rintro (h | h)
    · refine hTa.plain hp.1 ?_ u h
      cases ho : b.opens e with
      | false => rfl
      | true => exact (h4 m (hTb.front.2 ho)).elim
    · exact h4 u h

theorem tame_alt {P p px ja py q a b A KA B KB n} (ha : Frame' P px ja a A KA) (hb : Frame' P py q b B KB) (g1 : p < px) (g2 : ja < py)
    (d1 : P.decode p = .ok (.split py px)) (d2 : P.decode ja = .ok (.jump q n)) (e : Bool)
    (h : (Re.alt a b).tame e = true) : ∃ T, Tame P p q e (.alt a b) ((p, .split py px) :: (A ++ (ja, .jump q n) :: B)) T := by
  simp only [Re.tame, Bool.and_eq_true, Bool.not_eq_true'] at h
  obtain ⟨⟨h1, h2⟩, h3⟩ := h
  obtain ⟨Tb, hTb⟩ := hb.tame e h2
  obtain ⟨Ta, hTa⟩ := ha.tame true h1
  have hab := ha.le
  have hbq := hb.le
  let T := fun u => (u = p ∧ (Ta px ∨ Tb py)) ∨ Ta u ∨ Tb u
  have agA : ∀ u, px ≤ u → u ≤ ja → (T u ↔ Ta u) := by
    intro u h1 h2
    refine ⟨?_, fun h => .inr (.inl h)⟩
    rintro (h | h | h)
    · omega
    · exact h
    · have := hTb.range u h; omega
  have agB : ∀ u, py ≤ u → u ≤ q → (T u ↔ Tb u) := by
    intro u h1 h2
    refine ⟨?_, fun h => .inr (.inr h)⟩
    rintro (h | h | h)
    · omega
    · have := hTa.range u h; omega
    · exact h
  have hpx := agA px (Nat.le_refl _) hab
  have hpy := agB py (Nat.le_refl _) hbq
  have hp : T p ↔ (Ta px ∨ Tb py) := by
    refine ⟨?_, fun h => .inl ⟨rfl, h⟩⟩
    rintro (h | h | h)
    · exact h.2
    · have := hTa.range p h; omega
    · have := hTb.range p h; omega
  have hja : T ja := (agA ja hab (Nat.le_refl _)).2 (hTa.leave.2 rfl)
  refine ⟨T, ?_, ?_, ?_, ?_, ?_, ?_⟩
  · rintro u (h | h | h)
    · omega
    · have := hTa.range u h; omega
    · have := hTb.range u h; omega
  · exact (agB q hbq (Nat.le_refl _)).trans hTb.leave
  · rw [hp, hTa.front, hTb.front]; simp [Re.opens]
  · intro x hx
    simp only [List.mem_cons, List.mem_append] at hx
    rcases hx with rfl | hx | rfl | hx
    · refine ⟨?_, ?_⟩
      · rw [hpx, hpy, hTa.front, hTb.front]
        rintro ⟨h, h'⟩
        rw [h, h'] at h3; cases h3
      · rw [hpx, hpy, hp]; exact Or.symm
    · exact ha.lift hTa agA (.inr (.inl hja)) x hx
    · exact ⟨fun _ => hja, .inr ⟨hja, .inr (.inl rfl)⟩⟩
    · exact hb.lift hTb agB (.inr (.inr (.inl rfl))) x hx
  · intro _; exact .inr (notSrc_of d1 rfl)
  · intro h; cases h

theorem tame_star {P p px ja q a A KA n} (ha : Frame' P px ja a A KA) (g1 : p < px) (g2 : ja < q)
    (d1 : P.decode p = .ok (.split q px)) (d2 : P.decode ja = .ok (.jump p n)) (e : Bool)
    (h : (Re.star a).tame e = true) : ∃ T, Tame P p q e (.star a) ((p, .split q px) :: (A ++ [(ja, .jump p n)])) T := by
  simp only [Re.tame, Bool.and_eq_true, Bool.not_eq_true'] at h
  obtain ⟨h1, h3⟩ := h
  obtain ⟨Ta, hTa⟩ := ha.tame _ h1
  have hab := ha.le
  let T := fun u => (u = p ∧ (e || a.opens false) = true) ∨ Ta u ∨ (u = q ∧ e = true)
  have agA : ∀ u, px ≤ u → u ≤ ja → (T u ↔ Ta u) := by
    intro u h1 h2
    refine ⟨?_, fun h => .inr (.inl h)⟩
    rintro (h | h | h)
    · omega
    · exact h
    · omega
  have hpx := (agA px (Nat.le_refl _) hab).trans hTa.front
  have hja := (agA ja hab (Nat.le_refl _)).trans hTa.leave
  have hp : T p ↔ (e || a.opens false) = true := by
    refine ⟨?_, fun h => .inl ⟨rfl, h⟩⟩
    rintro (h | h | h)
    · exact h.2
    · have := hTa.range p h; omega
    · omega
  have hq : T q ↔ e = true := by
    refine ⟨?_, fun h => .inr (.inr ⟨rfl, h⟩)⟩
    rintro (h | h | h)
    · omega
    · have := hTa.range q h; omega
    · exact h.2
  refine ⟨T, ?_, hq, ?_, ?_, ?_, ?_⟩
  · rintro u (h | h | h)
    · omega
    · have := hTa.range u h; omega
    · omega
  · rw [hp]; rfl
  · intro x hx
    simp only [List.mem_cons, List.mem_append, List.not_mem_nil, or_false] at hx
    rcases hx with rfl | hx | rfl
    · refine ⟨?_, ?_⟩
      · rw [hpx, hq]
        rintro ⟨rfl, h'⟩
        simp only [Bool.true_or] at h'
        rw [h'] at h3; cases h3
      · rw [hpx, hq, hp]
        rintro (rfl | h')
        · rfl
        · cases e with
          | true => rfl
          | false =>
            simp only [Bool.false_or] at h' ⊢
            cases ho : a.opens false with
            | true => rfl
            | false => rw [ho] at h'; rw [ho] at h'; cases h'
    · exact ha.lift hTa agA (.inr (.inr (.inr (notSrc_of d2 rfl)))) x hx
    · exact ⟨fun h => hja.2 (hp.1 h), .inl ⟨_, _, d1⟩⟩
  · intro _; exact .inr (notSrc_of d1 rfl)
  · rintro hpl rfl u
    have hno := plain_opens a hpl
    rw [hno] at hTa
    rintro (h | h | h)
    · rw [hno] at h; cases h.2
    · exact hTa.plain hpl rfl u h
    · cases h.2

theorem tame_plus {P p e_ q a A KA} (ha : Frame' P p e_ a A KA) (g2 : e_ < q) (d1 : P.decode e_ = .ok (.split p q)) (e : Bool)
    (h : (Re.plus a).tame e = true) : ∃ T, Tame P p q e (.plus a) (A ++ [(e_, .split p q)]) T := by
  simp only [Re.tame, Bool.and_eq_true, Bool.not_eq_true'] at h
  obtain ⟨h1, h3⟩ := h
  obtain ⟨Ta, hTa⟩ := ha.tame _ h1
  have hab := ha.le
  let T := fun u => Ta u ∨ (u = q ∧ e = true)
  have agA : ∀ u, p ≤ u → u ≤ e_ → (T u ↔ Ta u) := by
    intro u h1 h2
    refine ⟨?_, .inl⟩
    rintro (h | h)
    · exact h
    · omega
  have hp := (agA p (Nat.le_refl _) hab).trans hTa.front
  have hja := (agA e_ hab (Nat.le_refl _)).trans hTa.leave
  have hq : T q ↔ e = true := by
    refine ⟨?_, fun h => .inr ⟨rfl, h⟩⟩
    rintro (h | h)
    · have := hTa.range q h; omega
    · exact h.2
  have ho : a.opens (e || a.opens false) = true → (e || a.opens false) = true := by
    intro h'
    cases e with
    | true => rfl
    | false =>
      simp only [Bool.false_or] at h' ⊢
      cases ho : a.opens false with
      | true => rfl
      | false => rw [ho] at h'; rw [ho] at h'; cases h'
  refine ⟨T, ?_, hq, hp, ?_, ?_, ?_⟩
  · rintro u (h | h)
    · have := hTa.range u h; omega
    · omega
  · intro x hx
    simp only [List.mem_cons, List.mem_append, List.not_mem_nil, or_false] at hx
    rcases hx with hx | rfl
    · exact ha.lift hTa agA (.inr (.inr (.inr (notSrc_of d1 rfl)))) x hx
    · refine ⟨?_, ?_⟩
      · rw [hp, hq]
        rintro ⟨h', rfl⟩
        simp only [Bool.true_or] at h'
        rw [h'] at h3; cases h3
      · rw [hp, hq, hja]
        rintro (h' | rfl)
        · exact ho h'
        · rfl
  · intro hs
    right
    by_cases hn : p = e_
    · subst hn; exact notSrc_of d1 rfl
    · exact ha.notSrc agA (ha.start.resolve_right hn) ((hTa.spare hs).resolve_left hn)
  · rintro hpl rfl u
    have hno := plain_opens a hpl
    rw [hno] at hTa
    rintro (h | h)
    · exact hTa.plain hpl rfl u h
    · cases h.2

theorem tame_opt {P p px q a A KA} (ha : Frame' P px q a A KA) (g1 : p < px) (d1 : P.decode p = .ok (.split q px)) (e : Bool)
    (h : (Re.opt a).tame e = true) : ∃ T, Tame P p q e (.opt a) ((p, .split q px) :: A) T := by
  simp only [Re.tame, Bool.and_eq_true, Bool.not_eq_true'] at h
  obtain ⟨h1, h3⟩ := h
  obtain ⟨Ta, hTa⟩ := ha.tame _ h1
  have hab := ha.le
  let T := fun u => (u = p ∧ (e || a.opens e) = true) ∨ Ta u
  have agA : ∀ u, px ≤ u → u ≤ q → (T u ↔ Ta u) := by
    intro u h1 h2
    refine ⟨?_, .inr⟩
    rintro (h | h)
    · omega
    · exact h
  have hpx := (agA px (Nat.le_refl _) hab).trans hTa.front
  have hq := (agA q hab (Nat.le_refl _)).trans hTa.leave
  have hp : T p ↔ (e || a.opens e) = true := by
    refine ⟨?_, fun h => .inl ⟨rfl, h⟩⟩
    rintro (h | h)
    · exact h.2
    · have := hTa.range p h; omega
  refine ⟨T, ?_, hq, hp, ?_, ?_, ?_⟩
  · rintro u (h | h)
    · omega
    · have := hTa.range u h; omega
  · intro x hx
    simp only [List.mem_cons] at hx
    rcases hx with rfl | hx
    · refine ⟨?_, ?_⟩
      · rw [hpx, hq]
        rintro ⟨h, h'⟩
        rw [h', h] at h3; cases h3
      · rw [hpx, hq, hp]
        rintro (h | h)
        · rw [h]; rfl
        · rw [h, Bool.or_true]
    · exact ha.lift hTa agA (.inr (.inr (.inl rfl))) x hx
  · intro _; exact .inr (notSrc_of d1 rfl)
  · rintro hpl rfl u
    have hno := plain_opens a hpl
    rintro (h | h)
    · rw [hno] at h; cases h.2
    · exact hTa.plain hpl rfl u h

theorem code_frame {P : Prog} (hlen : P.nfa.length < 2 ^ 30) {r : Re} {bs : List Byte} (hc : Code false r bs) :
    ∀ (p : Nat), At P p bs → ∃ L K, Frame' P p (p + bs.length) r L K := by
  induction hc with
  | empty =>
    intro p _
    refine ⟨[], [], by simp, .inr (by simp), rfl, rfl, by simp, by simp [Re.startsOne], by simp [Re.noCode], by simp, fun e _ => ?_⟩
    refine ⟨fun u => u = p ∧ e = true, ?_, by simp, by simp [Re.opens], by simp, fun _ => .inl (by simp), ?_⟩
    · rintro u ⟨rfl, -⟩; simp
    · rintro _ rfl u h; cases h.2
  | chr s c hr h0 =>
    intro p hat
    exact ⟨_, _, .single (decode_char hat hr) (by simp) trivial (by simp [Instr.succs]; omega) rfl rfl rfl rfl (fun _ => rfl) (fun _ => rfl)⟩
  | any => intro p hat; exact ⟨_, _, .single (decode_any hat) (by simp) trivial (by simp [Instr.succs]) rfl rfl rfl rfl (fun _ => rfl) (fun _ => rfl)⟩
  | bol => intro p hat; exact ⟨_, _, .anchor (decode_bol hat) (by simp) (by simp [OkI]) (by simp [Instr.succs]) (.inl rfl) (.inl rfl)⟩
  | eol => intro p hat; exact ⟨_, _, .anchor (decode_eol hat) (by simp) (by simp [OkI]) (by simp [Instr.succs]) (.inr rfl) (.inr rfl)⟩
  | cls neg text rs hne hr hb =>
    intro p hat
    exact ⟨_, _, .single (decode_cls hat hb) (by simp) (cls_text rs hne hr) (by simp [Instr.succs]; omega) rfl rfl rfl rfl (fun _ => rfl) (fun _ => rfl)⟩
  | prop br q =>
    intro p hat
    exact ⟨_, _, .single (decode_prop hat (by cases q <;> decide)) (by simp) (prop_text q) (by simp [Instr.succs]) rfl rfl rfl rfl (fun _ => rfl) (fun _ => rfl)⟩
  | seq a b x y _ _ iha ihb =>
    intro p hat
    obtain ⟨A, KA, ha⟩ := iha p hat.left
    obtain ⟨B, KB, hb⟩ := ihb _ hat.right
    rw [List.length_append, ← Nat.add_assoc]
    refine ⟨A ++ B, KA ++ KB, ?_, ?_, ?_, ?_, ?_, ha.one, ?_, ?_, tame_seq ha hb⟩
    · intro z hz
      rcases List.mem_append.1 hz with h | h
      · obtain ⟨h1, h2, h3, h4, h5⟩ := ha.mem z h
        refine ⟨h1, by omega, h3, h4, fun n hn => ?_⟩
        rcases h5 n hn with h | h
        · left; simp only [List.map_append, List.mem_append]; exact .inl h
        · rcases hb.start with h' | h'
          · left; simp only [List.map_append, List.mem_append]; right; rw [h]; exact h'
          · right; omega
      · obtain ⟨h1, h2, h3, h4, h5⟩ := hb.mem z h
        refine ⟨by omega, h2, h3, h4, fun n hn => ?_⟩
        rcases h5 n hn with h | h
        · left; simp only [List.map_append, List.mem_append]; exact .inr h
        · exact .inr h
    · simp only [List.map_append, List.mem_append]
      rcases ha.start with h | h
      · exact .inl (.inl h)
      · rcases hb.start with h' | h'
        · left; right; rwa [← h] at h'
        · right; omega
    · rw [List.countP_append, ha.count, hb.count]; rfl
    · rw [List.length_append, ha.branches, hb.branches]; rfl
    · intro z hz a n he
      simp only [List.mem_append]
      rcases List.mem_append.1 hz with h | h
      · obtain ⟨h1, h2⟩ := ha.kids z h a n he
        exact ⟨h1.imp_left .inl, h2.imp_left .inl⟩
      · obtain ⟨h1, h2⟩ := hb.kids z h a n he
        exact ⟨h1.imp_left .inr, h2.imp_left .inr⟩
    · simp only [Re.noCode, Bool.and_eq_true, ha.code, hb.code]
      omega
    · intro hl z hz
      simp only [Re.lands, Bool.or_eq_false_iff, Bool.and_eq_false_iff] at hl
      rcases List.mem_append.1 hz with h | h
      · have hsucc := fun n hn => ha.succ h (n := n) hn
        rcases hl.2 with h' | h'
        · have hne : p + x.length ≠ p + x.length + y.length := fun he => by rw [hb.code.2 he] at h'; cases h'
          cases hz2 : z.2 with
          | jump a n =>
            rw [hz2] at hsucc
            have := hsucc a (by simp [Instr.succs])
            exact .inr (by omega)
          | bol n =>
            rw [hz2] at hsucc
            have := hsucc n (by simp [Instr.succs])
            show n ≠ _
            omega
          | eol n =>
            rw [hz2] at hsucc
            have := hsucc n (by simp [Instr.succs])
            show n ≠ _
            omega
          | _ => trivial
        · have hno := ha.lands h' z h
          cases hn : b.noCode with
          | true => rw [← hb.code.1 hn]; exact hno
          | false =>
            have hne : p + x.length ≠ p + x.length + y.length := fun he => by rw [hb.code.2 he] at hn; cases hn
            cases hz2 : z.2 with
            | jump a n =>
              rw [hz2] at hsucc
              have := hsucc a (by simp [Instr.succs])
              exact .inr (by omega)
            | bol n =>
              rw [hz2] at hsucc
              have := hsucc n (by simp [Instr.succs])
              show n ≠ _
              omega
            | eol n =>
              rw [hz2] at hsucc
              have := hsucc n (by simp [Instr.succs])
              show n ≠ _
              omega
            | _ => trivial
      · exact hb.lands hl.1 z h
  | alt a b x y o1 o2 _ _ e1 l1 e2 l2 iha ihb =>
    intro p hat
    obtain ⟨px, py, g1, g2, hend, d1, hx, d2, hy⟩ := alt_layout hlen e1 l1 e2 l2 hat
    obtain ⟨A, KA, ha⟩ := iha px hx
    obtain ⟨B, KB, hb⟩ := ihb py hy
    rw [← hend]
    refine ⟨(p, .split py px) :: (A ++ (px + x.length, .jump (py + y.length) py) :: B),
      KA ++ KB ++ (if a.startsOne then [] else [px]) ++ (if b.startsOne then [] else [py]), ?_, .inl (by simp), ?_, ?_, ?_, by simp [Re.startsOne], ?_,
      by simp [Re.lands], tame_alt ha hb g1 g2 d1 d2⟩
    · have hA : ∀ n, n ∈ A.map Prod.fst ∨ n = px + x.length →
          n ∈ ((p, Instr.split py px) :: (A ++ (px + x.length, .jump (py + y.length) py) :: B)).map Prod.fst ∨ n = py + y.length := by
        intro n h
        simp only [List.map_cons, List.map_append, List.mem_cons, List.mem_append]
        rcases h with h | h
        · exact .inl (.inr (.inl h))
        · exact .inl (.inr (.inr (.inl h)))
      have hB : ∀ n, n ∈ B.map Prod.fst ∨ n = py + y.length →
          n ∈ ((p, Instr.split py px) :: (A ++ (px + x.length, .jump (py + y.length) py) :: B)).map Prod.fst ∨ n = py + y.length := by
        intro n h
        simp only [List.map_cons, List.map_append, List.mem_cons, List.mem_append]
        rcases h with h | h
        · exact .inl (.inr (.inr (.inr h)))
        · exact .inr h
      intro z hz
      simp only [List.mem_cons, List.mem_append] at hz
      rcases hz with rfl | h | rfl | h
      · refine ⟨Nat.le_refl _, by dsimp only; omega, d1, trivial, fun n hn => ?_⟩
        simp only [Instr.succs, List.mem_cons, List.not_mem_nil, or_false] at hn
        rcases hn with rfl | rfl
        · exact hB _ hb.start
        · exact hA _ ha.start
      · obtain ⟨h1, h2, h3, h4, h5⟩ := ha.mem z h
        exact ⟨by omega, by omega, h3, h4, fun n hn => hA n (h5 n hn)⟩
      · refine ⟨by dsimp only; omega, by dsimp only; omega, d2, .inl (by omega), fun n hn => ?_⟩
        simp only [Instr.succs, List.mem_cons, List.not_mem_nil, or_false] at hn
        exact .inr hn
      · obtain ⟨h1, h2, h3, h4, h5⟩ := hb.mem z h
        exact ⟨by omega, by omega, h3, h4, fun n hn => hB n (h5 n hn)⟩
    · rw [List.countP_cons_of_neg (by simp [Instr.isStation]), List.countP_append, List.countP_cons_of_neg (by simp [Instr.isStation]),
        ha.count, hb.count]; rfl
    · simp only [List.length_append, ha.branches, hb.branches, Re.branches]
      split <;> split <;> rfl
    · intro z hz a' n' he
      simp only [List.mem_cons, List.mem_append] at hz
      rcases hz with rfl | h | rfl | h
      · cases he
        refine ⟨?_, ?_⟩
        · by_cases h1 : b.startsOne = true
          · exact .inr (hb.one h1)
          · left; rw [if_neg h1]; simp
        · by_cases h1 : a.startsOne = true
          · exact .inr (ha.one h1)
          · left; rw [if_neg h1]; simp
      · obtain ⟨h1, h2⟩ := ha.kids z h _ _ he
        have hm : ∀ u, u ∈ KA → u ∈ KA ++ KB ++ (if a.startsOne then [] else [px]) ++ (if b.startsOne then [] else [py]) :=
          fun u hu => List.mem_append_left _ (List.mem_append_left _ (List.mem_append_left _ hu))
        exact ⟨h1.imp_left (hm _), h2.imp_left (hm _)⟩
      · cases he
      · obtain ⟨h1, h2⟩ := hb.kids z h _ _ he
        have hm : ∀ u, u ∈ KB → u ∈ KA ++ KB ++ (if a.startsOne then [] else [px]) ++ (if b.startsOne then [] else [py]) :=
          fun u hu => List.mem_append_left _ (List.mem_append_left _ (List.mem_append_right _ hu))
        exact ⟨h1.imp_left (hm _), h2.imp_left (hm _)⟩
    · simp only [Re.noCode, Bool.false_eq_true, false_iff]
      omega
  | star a x o1 o2 _ e1 l1 e2 l2 iha =>
    intro p hat
    obtain ⟨px, pe, g1, g2, hend, d1, hx, d2⟩ := star_layout hlen e1 l1 e2 l2 hat
    obtain ⟨A, KA, ha⟩ := iha px hx
    rw [← hend]
    refine ⟨(p, .split pe px) :: (A ++ [(px + x.length, .jump p pe)]), KA ++ pe :: (if a.startsOne then [] else [px]), ?_, .inl (by simp), ?_, ?_, ?_, by simp [Re.startsOne], ?_, ?_,
      tame_star ha g1 g2 d1 d2⟩
    · have hA : ∀ n, n ∈ A.map Prod.fst ∨ n = px + x.length →
          n ∈ ((p, Instr.split pe px) :: (A ++ [(px + x.length, .jump p pe)])).map Prod.fst ∨ n = pe := by
        intro n h
        simp only [List.map_cons, List.map_append, List.mem_cons, List.mem_append]
        rcases h with h | h
        · exact .inl (.inr (.inl h))
        · exact .inl (.inr (.inr (.inl h)))
      intro z hz
      simp only [List.mem_cons, List.mem_append, List.not_mem_nil, or_false] at hz
      rcases hz with rfl | h | rfl
      · refine ⟨Nat.le_refl _, by dsimp only; omega, d1, trivial, fun n hn => ?_⟩
        simp only [Instr.succs, List.mem_cons, List.not_mem_nil, or_false] at hn
        rcases hn with rfl | rfl
        · exact .inr rfl
        · exact hA _ ha.start
      · obtain ⟨h1, h2, h3, h4, h5⟩ := ha.mem z h
        exact ⟨by omega, by omega, h3, h4, fun n hn => hA n (h5 n hn)⟩
      · refine ⟨by dsimp only; omega, by dsimp only; omega, d2, .inr ⟨_, _, d1⟩, fun n hn => ?_⟩
        simp only [Instr.succs, List.mem_cons, List.not_mem_nil, or_false] at hn
        exact .inl (by simp [hn])
    · rw [List.countP_cons_of_neg (by simp [Instr.isStation]), List.countP_append, List.countP_cons_of_neg (by simp [Instr.isStation]),
        ha.count]; rfl
    · rw [List.length_append, ha.branches]
      simp only [Re.branches]
      split <;> rfl
    · intro z hz a' n' he
      simp only [List.mem_cons, List.mem_append, List.not_mem_nil, or_false] at hz
      rcases hz with rfl | h | rfl
      · cases he
        refine ⟨.inl (by simp), ?_⟩
        by_cases h1 : a.startsOne = true
        · exact .inr (ha.one h1)
        · left; rw [if_neg h1]; simp
      · obtain ⟨h1, h2⟩ := ha.kids z h _ _ he
        exact ⟨h1.imp_left (fun h => List.mem_append_left _ h), h2.imp_left (fun h => List.mem_append_left _ h)⟩
      · cases he
    · simp only [Re.noCode, Bool.false_eq_true, false_iff]
      omega
    · intro hl z hz
      simp only [List.mem_cons, List.mem_append, List.not_mem_nil, or_false] at hz
      have hle := ha.le
      rcases hz with rfl | h | rfl
      · trivial
      · have hsucc := fun n hn => ha.succ h (n := n) hn
        cases hz2 : z.2 with
        | jump a n =>
          rw [hz2] at hsucc
          have := hsucc a (by simp [Instr.succs])
          exact .inr (by omega)
        | bol n =>
          rw [hz2] at hsucc
          have := hsucc n (by simp [Instr.succs])
          show n ≠ _
          omega
        | eol n =>
          rw [hz2] at hsucc
          have := hsucc n (by simp [Instr.succs])
          show n ≠ _
          omega
        | _ => trivial
      · exact .inl ⟨_, _, d1⟩
  | plus a x o _ e1 l1 iha =>
    intro p hat
    obtain ⟨pe, g1, hend, hx, d1⟩ := plus_layout hlen e1 l1 hat
    obtain ⟨A, KA, ha⟩ := iha p hx
    rw [← hend]
    have hst : p ∈ (A ++ [(p + x.length, Instr.split p pe)]).map Prod.fst := by
      simp only [List.map_append, List.mem_append]
      rcases ha.start with h | h
      · exact .inl h
      · right; simp only [List.map_cons, List.map_nil, List.mem_singleton]; omega
    refine ⟨A ++ [(p + x.length, .split p pe)], KA ++ pe :: (if a.startsOne then [] else [p]), ?_, .inl hst, ?_, ?_, ?_, ha.one, ?_, ?_,
      tame_plus ha g1 d1⟩
    · intro z hz
      simp only [List.mem_cons, List.mem_append, List.not_mem_nil, or_false] at hz
      rcases hz with h | rfl
      · obtain ⟨h1, h2, h3, h4, h5⟩ := ha.mem z h
        refine ⟨by omega, by omega, h3, h4, fun n hn => ?_⟩
        left
        simp only [List.map_append, List.mem_append]
        rcases h5 n hn with h | h
        · exact .inl h
        · right; simp only [List.map_cons, List.map_nil, List.mem_singleton]; exact h
      · refine ⟨by dsimp only; omega, by dsimp only; omega, d1, trivial, fun n hn => ?_⟩
        simp only [Instr.succs, List.mem_cons, List.not_mem_nil, or_false] at hn
        rcases hn with rfl | rfl
        · exact .inl hst
        · exact .inr rfl
    · rw [List.countP_append, List.countP_cons_of_neg (by simp [Instr.isStation]), ha.count]; rfl
    · rw [List.length_append, ha.branches]
      simp only [Re.branches]
      split <;> rfl
    · intro z hz a' n' he
      simp only [List.mem_cons, List.mem_append, List.not_mem_nil, or_false] at hz
      rcases hz with h | rfl
      · obtain ⟨h1, h2⟩ := ha.kids z h _ _ he
        exact ⟨h1.imp_left (fun h => List.mem_append_left _ h), h2.imp_left (fun h => List.mem_append_left _ h)⟩
      · cases he
        refine ⟨?_, .inl (by simp)⟩
        by_cases h1 : a.startsOne = true
        · exact .inr (ha.one h1)
        · left; rw [if_neg h1]; simp
    · simp only [Re.noCode, Bool.false_eq_true, false_iff]
      omega
    · intro hl z hz
      simp only [List.mem_cons, List.mem_append, List.not_mem_nil, or_false] at hz
      have hle := ha.le
      rcases hz with h | rfl
      · have hsucc := fun n hn => ha.succ h (n := n) hn
        cases hz2 : z.2 with
        | jump a n =>
          rw [hz2] at hsucc
          have := hsucc a (by simp [Instr.succs])
          exact .inr (by omega)
        | bol n =>
          rw [hz2] at hsucc
          have := hsucc n (by simp [Instr.succs])
          show n ≠ _
          omega
        | eol n =>
          rw [hz2] at hsucc
          have := hsucc n (by simp [Instr.succs])
          show n ≠ _
          omega
        | _ => trivial
      · trivial
  | opt a x o _ e1 l1 iha =>
    intro p hat
    obtain ⟨px, g1, hend, d1, hx⟩ := opt_layout hlen e1 l1 hat
    obtain ⟨A, KA, ha⟩ := iha px hx
    rw [← hend]
    refine ⟨(p, .split (px + x.length) px) :: A, KA ++ (px + x.length) :: (if a.startsOne then [] else [px]), ?_, .inl (by simp), ?_, ?_, ?_, by simp [Re.startsOne], ?_, ?_,
      tame_opt ha g1 d1⟩
    · intro z hz
      simp only [List.mem_cons] at hz
      rcases hz with rfl | h
      · refine ⟨Nat.le_refl _, by dsimp only; omega, d1, trivial, fun n hn => ?_⟩
        simp only [Instr.succs, List.mem_cons, List.not_mem_nil, or_false] at hn
        rcases hn with rfl | rfl
        · exact .inr rfl
        · rcases ha.start with h | h
          · left; simp only [List.map_cons, List.mem_cons]; exact .inr h
          · exact .inr h
      · obtain ⟨h1, h2, h3, h4, h5⟩ := ha.mem z h
        refine ⟨by omega, by omega, h3, h4, fun n hn => ?_⟩
        rcases h5 n hn with h | h
        · left; simp only [List.map_cons, List.mem_cons]; exact .inr h
        · exact .inr h
    · rw [List.countP_cons_of_neg (by simp [Instr.isStation]), ha.count]; rfl
    · rw [List.length_append, ha.branches]
      simp only [Re.branches]
      split <;> rfl
    · intro z hz a' n' he
      simp only [List.mem_cons] at hz
      rcases hz with rfl | h
      · cases he
        refine ⟨.inl (by simp), ?_⟩
        by_cases h1 : a.startsOne = true
        · exact .inr (ha.one h1)
        · left; rw [if_neg h1]; simp
      · obtain ⟨h1, h2⟩ := ha.kids z h _ _ he
        exact ⟨h1.imp_left (fun h => List.mem_append_left _ h), h2.imp_left (fun h => List.mem_append_left _ h)⟩
    · simp only [Re.noCode, Bool.false_eq_true, false_iff]
      omega
    · intro hl z hz
      simp only [List.mem_cons] at hz
      have hle := ha.le
      rcases hz with rfl | h
      · trivial
      · exact ha.lands hl z h
  | grp nc a x _ iha =>
    intro p hat
    obtain ⟨L, K, h⟩ := iha p hat
    exact ⟨L, K, h.mem, h.start, h.count, h.branches, h.kids, h.one, h.code, h.lands, fun e he => (h.tame e he).imp fun T hT => ⟨hT.1, hT.2, hT.3, hT.4, hT.5, hT.6⟩⟩
  | repStar _ _ _ h | repOpt _ _ _ h | repPlus _ _ _ h | rep _ _ _ _ _ _ h => cases h

/-! ### Termination -/

/-- A set of stations which threads do not leave, with harmless instructions -/
def Safe (P : Prog) (R : Nat → Prop) : Prop :=
  ∀ s, R s → ∃ i, P.decode s = .ok i ∧ OkI P s i ∧ ∀ n ∈ i.succs, R n

theorem decode_lt {P : Prog} {s i} (h : P.decode s = .ok i) : s < P.nfa.length := by
  unfold Prog.decode at h
  obtain ⟨op, h1, -⟩ := hbind h
  by_cases hs : s < P.nfa.length
  · exact hs
  · rw [rd_eq_ok, List.getElem?_eq_none (by omega)] at h1; cases h1

/-- how far a thread can go on from a station without entering `addthread` again -/
def rank (P : Prog) (s : Nat) : Nat :=
  match P.decode s with
  | .ok (.split _ _) => 1
  | .ok (.jump a _) => if a ≤ s then 2 else P.nfa.length - s + 3
  | _ => P.nfa.length - s + 3

theorem rank_le (P : Prog) (s : Nat) : 1 ≤ rank P s ∧ rank P s ≤ P.nfa.length + 3 := by
  unfold rank
  split
  · omega
  · split <;> omega
  · omega

theorem rank_split {P : Prog} {s a n} (h : P.decode s = .ok (.split a n)) : rank P s = 1 := by unfold rank; rw [h]

theorem rank_lt {P : Prog} {s s' : Nat} (h : s < s') (hs : s < P.nfa.length) : rank P s' < P.nfa.length - s + 3 := by
  unfold rank
  split
  · omega
  · split <;> omega
  · omega

/-- the fuel for `addthread` -/
def need (P : Prog) (entry : Bool) (depth s : Nat) : Nat :=
  (12 - depth) * (P.nfa.length + 5) + 1 + if entry then 0 else rank P s

def AddOk (P : Prog) (R : Nat → Prop) (ns : List Thr) (x : Res (List Thr)) : Prop :=
  x = .error .assertion ∨ ∃ out, x = .ok out ∧ ∀ y ∈ out, y ∈ ns ∨ (R y.station ∧ Station P y.station)

theorem addthread_safe {P : Prog} {t : List UCS4} {junk : Nat} {R : Nat → Prop} (hR : Safe P R) (off : Nat) :
    ∀ (fuel : Nat) (entry : Bool) (th : Thr) (shunts : List Nat) (ns : List Thr), R th.station → shunts.length ≤ 12 →
      need P entry shunts.length th.station ≤ fuel → AddOk P R ns (addthread P t junk fuel entry th off shunts 0 ns) := by
  intro fuel
  induction fuel with
  | zero => intro entry th shunts ns _ _ h; unfold need at h; omega
  | succ fuel ih =>
    intro entry th shunts ns hr hsh hf
    have hrank := rank_le P th.station
    cases entry with
    | true =>
      rw [addthread]
      split
      · exact .inr ⟨ns, rfl, fun y hy => .inl hy⟩
      · by_cases hl : shunts.length < 12
        · rw [show decide (shunts.length < maxNesting) = true from decide_eq_true hl, assert_true, res_bind_ok, isDuplicate_zero, res_bind_ok]
          split
          · exact .inr ⟨ns, rfl, fun y hy => .inl hy⟩
          · refine ih false th _ ns hr (by simp; omega) ?_
            unfold need at *
            simp only [List.length_append, List.length_cons, List.length_nil, Nat.zero_add, if_true, Bool.false_eq_true, if_false] at *
            have h1 : 12 - shunts.length = (12 - (shunts.length + 1)) + 1 := by omega
            rw [h1, Nat.add_mul] at hf
            omega
        · rw [show decide (shunts.length < maxNesting) = false from decide_eq_false hl]
          exact .inl rfl
    | false =>
      rw [addthread]
      obtain ⟨i, hi, hok, hsu⟩ := hR _ hr
      have hlt := decode_lt hi
      rw [hi, res_bind_ok]
      unfold need at hf
      simp only [Bool.false_eq_true, if_false] at hf
      -- going on at a station after this one
      have fwd : ∀ s' res, th.station < s' → R s' → (∀ a n, i ≠ .split a n) → (∀ a n, i = .jump a n → ¬ a ≤ th.station) →
          AddOk P R ns (addthread P t junk fuel false ⟨s', res⟩ off shunts 0 ns) := by
        intro s' res hgt hr' h1 h2
        refine ih false ⟨s', res⟩ shunts ns hr' hsh ?_
        have hk := rank_lt hgt hlt
        have hrk : rank P th.station = P.nfa.length - th.station + 3 := by
          unfold rank
          rw [hi]
          split
          · rename_i heq; cases heq; exact (h1 _ _ rfl).elim
          · rename_i heq; cases heq; rw [if_neg (h2 _ _ rfl)]
          · rfl
        unfold need
        simp only [Bool.false_eq_true, if_false]
        omega
      have wait : i.isStation = true → AddOk P R ns (assert (decide (ns.length < P.maxStation)) >>= fun _ => .ok (ns ++ [th])) := by
        intro hst
        by_cases hm : ns.length < P.maxStation
        · rw [decide_eq_true hm, assert_true, res_bind_ok]
          refine .inr ⟨_, rfl, fun y hy => ?_⟩
          rcases List.mem_append.1 hy with h | h
          · exact .inl h
          · cases List.mem_singleton.1 h
            exact .inr ⟨hr, i, hi, hst⟩
        · rw [decide_eq_false hm]
          exact .inl rfl
      cases i with
      | bol n =>
        dsimp only
        split
        · exact fwd n _ hok (hsu n (by simp [Instr.succs])) (by simp) (by simp)
        · exact .inr ⟨ns, rfl, fun y hy => .inl hy⟩
      | eol n =>
        dsimp only
        split
        · exact fwd n _ hok (hsu n (by simp [Instr.succs])) (by simp) (by simp)
        · exact .inr ⟨ns, rfl, fun y hy => .inl hy⟩
      | jump a n =>
        dsimp only
        have hra := hsu a (by simp [Instr.succs])
        by_cases hle : a ≤ th.station
        · obtain ⟨x, y, hxy⟩ := (hok.resolve_left (by omega) : ∃ x y, P.decode a = .ok (.split x y))
          refine ih false ⟨a, th.res⟩ shunts ns hra hsh ?_
          have h1 : rank P th.station = 2 := by unfold rank; rw [hi]; exact if_pos hle
          have h2 : rank P a = 1 := rank_split hxy
          unfold need
          simp only [Bool.false_eq_true, if_false]
          omega
        · exact fwd a _ (by omega) hra (by simp) (by rintro a' n' h; cases h; exact hle)
      | split a n =>
        dsimp only
        have h1 := ih true ⟨a, th.res⟩ shunts ns (hsu a (by simp [Instr.succs])) hsh (by unfold need; simp only [if_true]; omega)
        rcases h1 with h1 | ⟨o1, h1, h2⟩
        · rw [h1]; exact .inl rfl
        · rw [h1, res_bind_ok]
          have h3 := ih true ⟨n, th.res⟩ shunts o1 (hsu n (by simp [Instr.succs])) hsh (by unfold need; simp only [if_true]; omega)
          rcases h3 with h3 | ⟨o2, h3, h4⟩
          · exact .inl h3
          · refine .inr ⟨o2, h3, fun y hy => ?_⟩
            rcases h4 y hy with h | h
            · exact h2 y h
            · exact .inr h
      | capStart k n =>
        obtain ⟨rfl, hgt⟩ := hok
        dsimp only
        have hc : th.res.captureSet (0 * 2) off = .ok { th.res with cap0 := off } := by
          show th.res.captureSet 0 off = _
          unfold RVal.captureSet
          simp
        rw [hc, res_bind_ok]
        exact fwd n _ hgt (hsu n (by simp [Instr.succs])) (by simp) (by simp)
      | capEnd k n => exact hok.elim
      | char c n => exact wait rfl
      | prop x n => exact wait rfl
      | cls b x n => exact wait rfl
      | any n => exact wait rfl
      | accept n => exact wait rfl
      | start | zero | negLook | count | null | token => exact hok.elim

/-- The instruction at a station takes any character -/
theorem consume_total {P : Prog} {s : Nat} {i : Instr} (hok : OkI P s i) (hs : i.isStation = true) (ch : UCS4) : ∃ st, consume i ch = .ok st := by
  cases i with
  | any n => exact ⟨_, rfl⟩
  | char c n => exact ⟨_, rfl⟩
  | accept n => exact ⟨_, rfl⟩
  | cls b x n =>
    simp only [consume]
    split
    · exact ⟨_, rfl⟩
    · rw [show decide ((decodeAll x).length > 0) = true from decide_eq_true hok]; exact ⟨_, rfl⟩
  | prop x n =>
    simp only [consume]
    split
    · exact ⟨_, rfl⟩
    · rw [show decide ((decodeAll x).length > 0) = true from decide_eq_true hok]; exact ⟨_, rfl⟩
  | _ => cases hs

theorem cycle_safe {P : Prog} {t : List UCS4} {junk fuel : Nat} {R : Nat → Prop} (hR : Safe P R) (off : Nat)
    (hf : 14 * (P.nfa.length + 5) ≤ fuel) :
    ∀ (L ns : List Thr) (r : RVal), (∀ x ∈ L, R x.station ∧ Station P x.station) → (∀ x ∈ ns, R x.station ∧ Station P x.station) →
      cycle P t (fun th off ns => addthread P t junk fuel true th off [] 0 ns) off L ns r = .error .assertion ∨
      ∃ o, cycle P t (fun th off ns => addthread P t junk fuel true th off [] 0 ns) off L ns r = .ok o ∧
        ∀ x ∈ o.1, R x.station ∧ Station P x.station := by
  intro L
  induction L with
  | nil => intro ns r _ hns; exact .inr ⟨_, rfl, hns⟩
  | cons th L ih =>
    intro ns r hL hns
    rw [cycle]
    obtain ⟨hr, i0, hi0, hst⟩ := hL th (by simp)
    obtain ⟨i, hi, hok, hsu⟩ := hR _ hr
    rw [hi0] at hi; cases hi
    obtain ⟨st, hc⟩ := consume_total hok hst (chAt t off)
    have hL' : ∀ x ∈ L, R x.station ∧ Station P x.station := fun x hx => hL x (List.mem_cons_of_mem _ hx)
    unfold stepThread
    rw [hi0, res_bind_ok, hc, res_bind_ok]
    cases st with
    | stops => exact ih ns r hL' hns
    | accepts =>
      dsimp only
      split
      · have hcap : th.res.captureSet 1 off = .ok { th.res with cap1 := some off } := by unfold RVal.captureSet; simp
        rw [hcap]
        exact ih ns _ hL' hns
      · exact ih ns r hL' hns
    | goesOn n =>
      dsimp only
      have hn := hsu n (consume_succ hc)
      rcases addthread_safe (t := t) (junk := junk) hR (off + 1) fuel true ⟨n, th.res⟩ [] ns hn (by simp)
        (by unfold need; simp only [List.length_nil, if_true]; omega) with h | ⟨out, h, h2⟩
      · rw [h]; exact .inl rfl
      · rw [h]
        refine ih out r hL' fun x hx => ?_
        rcases h2 x hx with h | h
        · exact hns x h
        · exact h

theorem matchLoop_safe {P : Prog} {t : List UCS4} {junk fuel : Nat} {R : Nat → Prop} (hR : Safe P R)
    (hf : 14 * (P.nfa.length + 5) ≤ fuel) :
    ∀ (n off : Nat) (L : List Thr) (r : RVal), (∀ x ∈ L, R x.station ∧ Station P x.station) →
      matchLoop P t (fun th off ns => addthread P t junk fuel true th off [] 0 ns) n off L r = .error .assertion ∨
      ∃ o, matchLoop P t (fun th off ns => addthread P t junk fuel true th off [] 0 ns) n off L r = .ok o := by
  intro n
  induction n with
  | zero => intro off L r _; exact .inr ⟨_, rfl⟩
  | succ n ih =>
    intro off L r hL
    rw [matchLoop]
    split
    · exact .inr ⟨_, rfl⟩
    · rcases cycle_safe (t := t) (junk := junk) hR off hf L [] r hL (by simp) with h | ⟨o, h, h2⟩
      · rw [h]; exact .inl rfl
      · rw [h]; exact ih _ _ _ h2

theorem matchRun_safe {P : Prog} {t : List UCS4} {junk fuel : Nat} {R : Nat → Prop} (hR : Safe P R)
    (hf : 14 * (P.nfa.length + 5) ≤ fuel) (s off : Nat) (hs : R s) :
    matchRun P t junk fuel s off = .error .assertion ∨ ∃ o, matchRun P t junk fuel s off = .ok o := by
  unfold matchRun matchFrom
  rcases addthread_safe (t := t) (junk := junk) hR off fuel true ⟨s, RVal.new P.maxCounter P.maxCapture⟩ [] [] hs (by simp)
    (by unfold need; simp only [List.length_nil, if_true]; omega) with h | ⟨out, h, h2⟩
  · simp only [h]; exact .inl rfl
  · simp only [h, res_bind_ok]
    exact matchLoop_safe hR hf _ _ _ _ fun x hx => (h2 x hx).resolve_left (by simp)

/-- The stations of a compiled expression are safe -/
theorem Compiled.safe {r : Re} {P : Prog} (h : Compiled r P) (hr : r.counted = false) : ∃ R, Safe P R ∧ R P.startStation ∧ R P.searchStation := by
  obtain ⟨bs, a, j, n, hc, hat, hS, d1, d2, d3, ga, gj⟩ := h.parts
  replace hc := hc.uncounted hr
  have hst := decode_capStart hat.left.left
  have hb : At P (P.startStation + 2) bs := hat.left.right
  have hacc : At P (P.startStation + 2 + bs.length) [opAccept] := by
    have := hat.right
    rwa [List.length_append, ← Nat.add_assoc] at this
  obtain ⟨L, K, hF⟩ := code_frame h.len hc _ hb
  have hd := decode_accept hacc
  have hcl : ∀ s, s ∈ L.map Prod.fst ∨ s = P.startStation + 2 + bs.length →
      s ∈ L.map Prod.fst ∨ s = P.startStation + 2 + bs.length ∨ s = P.startStation ∨ s = P.searchStation ∨ s = a ∨ s = j :=
    fun s h => h.imp_right .inl
  refine ⟨fun s => s ∈ L.map Prod.fst ∨ s = P.startStation + 2 + bs.length ∨ s = P.startStation ∨ s = P.searchStation ∨ s = a ∨ s = j,
    ?_, .inr (.inr (.inl rfl)), .inr (.inr (.inr (.inl rfl)))⟩
  rintro s (h | rfl | rfl | rfl | rfl | rfl)
  · obtain ⟨x, hx, rfl⟩ := List.mem_map.1 h
    obtain ⟨-, -, h3, h4, h5⟩ := hF.mem x hx
    exact ⟨x.2, h3, h4, fun n hn => hcl n (h5 n hn)⟩
  · exact ⟨_, hd, trivial, by simp [Instr.succs]⟩
  · refine ⟨_, hst, ⟨rfl, by omega⟩, ?_⟩
    simp only [Instr.succs, List.mem_singleton]
    rintro n rfl
    exact hcl _ hF.start
  · refine ⟨_, d1, trivial, ?_⟩
    simp only [Instr.succs, List.mem_cons, List.not_mem_nil, or_false]
    rintro n (rfl | rfl)
    · exact .inr (.inr (.inl rfl))
    · exact .inr (.inr (.inr (.inr (.inl rfl))))
  · refine ⟨_, d2, trivial, ?_⟩
    simp only [Instr.succs, List.mem_singleton]
    rintro n rfl
    exact .inr (.inr (.inr (.inr (.inr rfl))))
  · refine ⟨_, d3, .inr ⟨_, _, d1⟩, ?_⟩
    simp only [Instr.succs, List.mem_singleton]
    rintro n rfl
    exact .inr (.inr (.inr (.inl rfl)))

/-- `matchAt` ends, with a result or a failed assertion -/
theorem Compiled.matchAt_safe {r : Re} {P : Prog} (h : Compiled r P) (hr : r.counted = false) (t : List UCS4) (junk fuel off : Nat)
    (hf : 14 * (P.nfa.length + 5) ≤ fuel) :
    P.matchAt junk fuel t off = .error .assertion ∨ ∃ res, P.matchAt junk fuel t off = .ok res := by
  obtain ⟨R, hR, h1, -⟩ := h.safe hr
  unfold Prog.matchAt
  rcases matchRun_safe (t := t) (junk := junk) hR hf P.startStation off h1 with h | ⟨o, h⟩
  · rw [h]; exact .inl rfl
  · rw [h]; exact .inr ⟨_, rfl⟩

theorem Compiled.matchAfter_safe {r : Re} {P : Prog} (h : Compiled r P) (hr : r.counted = false) (t : List UCS4) (junk fuel off : Nat)
    (hf : 14 * (P.nfa.length + 5) ≤ fuel) :
    P.matchAfter junk fuel t off = .error .assertion ∨ ∃ res, P.matchAfter junk fuel t off = .ok res := by
  obtain ⟨R, hR, -, h1⟩ := h.safe hr
  unfold Prog.matchAfter
  rcases matchRun_safe (t := t) (junk := junk) hR hf P.searchStation off h1 with h | ⟨o, h⟩
  · rw [h]; exact .inl rfl
  · rw [h]; exact .inr ⟨_, rfl⟩

end Strpp.Rx
