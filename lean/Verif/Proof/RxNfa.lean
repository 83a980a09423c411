import Verif.Model.RxMatch
/-! What the stations of a program without counters and lookahead can reach; `addthread` computes exactly that. -/
namespace Strpp.Rx

/-- Instructions without counter or lookahead, and which do not change the start of the match -/
def Instr.simple : Instr → Bool
  | .char .. | .prop .. | .cls .. | .bol _ | .eol _ | .any _ | .accept _ | .jump .. | .split .. | .capEnd .. => true
  | .capStart k _ => decide (1 ≤ k)
  | _ => false

/-- counter instructions -/
def Instr.counts : Instr → Bool
  | .zero _ | .count .. => true
  | _ => false

/-- simple, or a counter instruction if these are allowed -/
def Instr.fine (cnt : Bool) (i : Instr) : Bool := i.simple || (cnt && i.counts)

theorem fine_false {i : Instr} : i.fine false = true ↔ i.simple = true := by
  unfold Instr.fine
  rw [Bool.false_and, Bool.or_false]

/-- Where a thread may go from an instruction, whatever the text -/
def Instr.succs : Instr → List Nat
  | .char _ n | .prop _ n | .cls _ _ n | .bol n | .eol n | .any n | .capStart _ n => [n]
  | .jump a _ => [a]
  | .split a n => [a, n]
  | .zero n => [n]
  | .count _ _ a n => [a, n]
  | _ => []

/-- A set of stations which threads do not leave -/
def Closed (P : Prog) (R : Nat → Prop) : Prop :=
  ∀ s, R s → ∃ i, P.decode s = .ok i ∧ i.simple = true ∧ ∀ n ∈ i.succs, R n

/-- at the beginning of a line -/
def atBOL (t : List UCS4) (off : Nat) : Bool := off == 0 || chAt t (off - 1) == 0x0A#32
/-- at the end of a line -/
def atEOL (t : List UCS4) (off : Nat) : Bool := off == t.length || chAt t off == 0x0A#32

/-- The moves that consume no text -/
def Instr.eps (t : List UCS4) (off : Nat) : Instr → List Nat
  | .bol n => if atBOL t off then [n] else []
  | .eol n => if atEOL t off then [n] else []
  | .jump a _ => [a]
  | .split a n => [a, n]
  | .capStart _ n => [n]
  | _ => []

/-- Instructions at which a thread waits for a character -/
def Instr.isStation : Instr → Bool
  | .char .. | .prop .. | .cls .. | .any _ | .accept _ => true
  | _ => false

def EStep (P : Prog) (t : List UCS4) (off s s' : Nat) : Prop := ∃ i, P.decode s = .ok i ∧ s' ∈ i.eps t off

def Station (P : Prog) (s : Nat) : Prop := ∃ i, P.decode s = .ok i ∧ i.isStation = true

/-- a path of moves from `s` to `s'` which avoids the stations `A` -/
inductive EPath (P : Prog) (t : List UCS4) (off : Nat) (A : Nat → Prop) : Nat → Nat → Nat → Prop
  | nil (s : Nat) : ¬ A s → EPath P t off A 0 s s
  | cons (n s s1 s' : Nat) : ¬ A s → EStep P t off s s1 → EPath P t off A n s1 s' → EPath P t off A (n + 1) s s'

theorem EPath.mono {P t off} {A B : Nat → Prop} (h : ∀ x, B x → A x) {n s s' : Nat} (p : EPath P t off A n s s') :
    EPath P t off B n s s' := by
  induction p with
  | nil s hs => exact .nil s (fun hb => hs (h _ hb))
  | cons n s s1 s' hs e _ ih => exact .cons n s s1 s' (fun hb => hs (h _ hb)) e ih

/-- a path avoids `x`, or a part of it starts at `x` -/
theorem EPath.avoid {P t off} {A : Nat → Prop} (x : Nat) {n s s' : Nat} (p : EPath P t off A n s s') :
    EPath P t off (fun y => A y ∨ y = x) n s s' ∨ ∃ m ≤ n, EPath P t off A m x s' := by
  induction p with
  | nil s hs =>
    by_cases h : s = x
    · subst h; exact .inr ⟨0, Nat.le_refl _, .nil _ hs⟩
    · exact .inl (.nil s (fun hh => hh.elim hs h))
  | cons n s s1 s' hs e p ih =>
    by_cases h : s = x
    · subst h; exact .inr ⟨n + 1, Nat.le_refl _, .cons n s s1 s' hs e p⟩
    · rcases ih with ih | ⟨m, hm, ih⟩
      · exact .inl (.cons n s s1 s' (fun hh => hh.elim hs h) e ih)
      · exact .inr ⟨m, by omega, ih⟩

/-- a path can be chosen not to come back to its beginning -/
theorem EPath.norm {P t off} {A : Nat → Prop} {n s s' : Nat} (p : EPath P t off A n s s') :
    s = s' ∨ ∃ m s1, m < n ∧ EStep P t off s s1 ∧ EPath P t off (fun y => A y ∨ y = s) m s1 s' := by
  induction n using Nat.strongRecOn generalizing s with
  | _ n ih =>
    cases p with
    | nil _ _ => exact .inl rfl
    | cons n _ s1 _ hs e p =>
      rcases p.avoid s with q | ⟨m, hm, q⟩
      · exact .inr ⟨n, s1, by omega, e, q⟩
      · rcases ih m (by omega) q with h | ⟨m', s2, hm', e2, q2⟩
        · exact .inl h
        · exact .inr ⟨m', s2, by omega, e2, q2⟩

theorem EPath.closed {P t off} {A R : Nat → Prop} (hR : Closed P R) {n s s' : Nat} (p : EPath P t off A n s s') (h : R s) :
    R s' := by
  induction p with
  | nil => exact h
  | cons n s s1 s' hs e _ ih =>
    apply ih
    obtain ⟨i, hi, hm⟩ := e
    obtain ⟨i', hi', -, hsu⟩ := hR s h
    rw [hi] at hi'; cases hi'
    apply hsu
    revert hm
    cases i <;> simp only [Instr.eps, Instr.succs] <;> (try split) <;> simp

theorem isDuplicate_zero (th : Thr) (ns : List Thr) (k : Nat) :
    isDuplicate th 0 ns k = .ok (ns.any fun n => n.station == th.station) := by
  induction ns with
  | nil => rfl
  | cons n ns ih =>
    unfold isDuplicate
    by_cases h : n.station == th.station
    · simp [h]
    · rw [if_neg h, ih]; simp [h]

/-- setting a group's capture does not change the start of the match -/
theorem captureSet_cap0 (r r' : RVal) (k : Int) (v : Nat) (hk : 1 ≤ k) (h : r.captureSet (k * 2) v = .ok r') :
    r'.cap0 = r.cap0 := by
  unfold RVal.captureSet at h
  rw [if_neg (by omega)] at h
  split at h
  · cases h
  · obtain ⟨c, -, hc⟩ := hbind h
    cases hc; rfl

/-- What `addthread` may add: waiting stations it can reach, with the start of the match of the thread it was given -/
def Adds (P : Prog) (t : List UCS4) (off : Nat) (th : Thr) (ns out : List Thr) : Prop :=
  ∃ new, out = ns ++ new ∧ ∀ x ∈ new, x.res.cap0 = th.res.cap0 ∧ Station P x.station ∧
    ∃ n, EPath P t off (fun _ => False) n th.station x.station

theorem Adds.refl {P t off th ns} : Adds P t off th ns ns := ⟨[], by simp, by simp⟩

theorem Adds.step {P t off th th' ns out} (e : EStep P t off th.station th'.station) (hc : th'.res.cap0 = th.res.cap0)
    (h : Adds P t off th' ns out) : Adds P t off th ns out := by
  obtain ⟨new, h1, h2⟩ := h
  refine ⟨new, h1, fun x hx => ?_⟩
  obtain ⟨a, b, n, p⟩ := h2 x hx
  exact ⟨a.trans hc, b, n + 1, .cons n _ _ _ (fun h => h) e p⟩

theorem Adds.trans {P t off th ns m out} (h1 : Adds P t off th ns m) (h2 : Adds P t off th m out) :
    Adds P t off th ns out := by
  obtain ⟨a, rfl, ha⟩ := h1
  obtain ⟨b, rfl, hb⟩ := h2
  refine ⟨a ++ b, by simp, fun x hx => ?_⟩
  rcases List.mem_append.1 hx with h | h
  · exact ha x h
  · exact hb x h

theorem Adds.sub {P t off th ns out} (h : Adds P t off th ns out) : ∀ x ∈ ns, x ∈ out := by
  obtain ⟨a, rfl, -⟩ := h; simp +contextual

theorem Station.noEps {P t off s s1} (h : Station P s) (e : EStep P t off s s1) : False := by
  obtain ⟨i, hi, hs⟩ := h
  obtain ⟨i', hi', hm⟩ := e
  rw [hi] at hi'; cases hi'
  cases i <;> simp [Instr.isStation, Instr.eps] at hs hm

theorem Adds.stations {P t off th ns out} (h : Adds P t off th ns out) (hn : ∀ x ∈ ns, Station P x.station) :
    ∀ x ∈ out, Station P x.station := by
  obtain ⟨a, rfl, ha⟩ := h
  intro x hx
  rcases List.mem_append.1 hx with h | h
  · exact hn x h
  · exact (ha x h).2.1

/-- Soundness and completeness of `addthread`, on stations without counter and lookahead: everything added is reachable
without consuming text, and everything reachable that avoids the stations in progress is there afterwards. -/
theorem addthread_spec {P : Prog} {t : List UCS4} {junk : Nat} {R : Nat → Prop} (hR : Closed P R) (off : Nat) :
    ∀ (fuel : Nat) (entry : Bool) (th : Thr) (shunts : List Nat) (ns out : List Thr), R th.station →
      (∀ x ∈ ns, Station P x.station) →
      addthread P t junk fuel entry th off shunts 0 ns = .ok out →
      Adds P t off th ns out ∧
      ∀ n s', EPath P t off (fun y => y ∈ shunts) n th.station s' ∨
          (entry = false ∧ ∃ m s1, EStep P t off th.station s1 ∧ EPath P t off (fun y => y ∈ shunts) m s1 s') ∨
          (entry = false ∧ th.station = s') →
        Station P s' → ∃ x ∈ out, x.station = s' := by
  intro fuel
  induction fuel with
  | zero => intro entry th shunts ns out _ _ h; cases entry <;> cases h
  | succ fuel ih =>
    intro entry th shunts ns out hr hns h
    cases entry with
    | true =>
      rw [addthread] at h
      split at h
      · rename_i hin
        cases h
        refine ⟨Adds.refl, ?_⟩
        rintro n s' (p | ⟨h, -⟩ | ⟨h, -⟩) hs
        · cases p with
          | nil _ ha => exact absurd (by simpa using hin) ha
          | cons _ _ _ _ ha => exact absurd (by simpa using hin) ha
        · cases h
        · cases h
      · obtain ⟨_, -, h⟩ := hbind h
        rw [isDuplicate_zero] at h
        simp only [res_bind_ok] at h
        split at h
        · rename_i hd
          cases h
          refine ⟨Adds.refl, ?_⟩
          obtain ⟨x, hx, hxs⟩ := List.any_eq_true.1 hd
          have hxs : x.station = th.station := by simpa using hxs
          rintro n s' (p | ⟨h, -⟩ | ⟨h, -⟩) hs
          · cases p with
            | nil _ ha => exact ⟨x, hx, hxs⟩
            | cons _ _ _ _ ha e => exact ((hxs ▸ hns x hx : Station P th.station).noEps e).elim
          · cases h
          · cases h
        · obtain ⟨h1, h2⟩ := ih false th (shunts ++ [th.station]) ns out hr hns h
          refine ⟨h1, ?_⟩
          rintro n s' (p | ⟨h, -⟩ | ⟨h, -⟩) hs
          · rcases p.norm with rfl | ⟨m, s1, -, e, q⟩
            · exact h2 0 th.station (.inr (.inr ⟨rfl, rfl⟩)) hs
            · refine h2 0 s' (.inr (.inl ⟨rfl, m, s1, e, q.mono ?_⟩)) hs
              intro x hx
              simpa using hx
          · cases h
          · cases h
    | false =>
      rw [addthread] at h
      obtain ⟨i, hi, h⟩ := hbind h
      obtain ⟨i', hi', hsim, hsu⟩ := hR _ hr
      rw [hi] at hi'; cases hi'
      -- it is enough to look at the first move
      suffices hmain : Adds P t off th ns out ∧ ∀ s', Station P s' → (th.station = s' ∨
          ∃ m s1, EStep P t off th.station s1 ∧ EPath P t off (fun y => y ∈ shunts) m s1 s') →
          ∃ x ∈ out, x.station = s' by
        refine ⟨hmain.1, fun n s' hp hs => hmain.2 s' hs ?_⟩
        rcases hp with p | ⟨-, p⟩ | ⟨-, p⟩
        · cases p with
          | nil => exact .inl rfl
          | cons m _ s1 _ _ e q => exact .inr ⟨m, s1, e, q⟩
        · exact .inr p
        · exact .inl p
      -- an instruction that leads to one other
      have single : ∀ (th' : Thr), i.isStation = false → i.eps t off = [th'.station] → th'.res.cap0 = th.res.cap0 →
          R th'.station → addthread P t junk fuel false th' off shunts 0 ns = .ok out →
          Adds P t off th ns out ∧ ∀ s', Station P s' → (th.station = s' ∨
          ∃ m s1, EStep P t off th.station s1 ∧ EPath P t off (fun y => y ∈ shunts) m s1 s') →
          ∃ x ∈ out, x.station = s' := by
        intro th' hst he hc hr' hadd
        obtain ⟨h1, h2⟩ := ih false th' shunts ns out hr' hns hadd
        refine ⟨h1.step ⟨i, hi, by rw [he]; simp⟩ hc, ?_⟩
        rintro s' hs (rfl | ⟨m, s1, ⟨i', hi', hm⟩, q⟩)
        · obtain ⟨i', hi', hst'⟩ := hs
          rw [hi] at hi'; cases hi'; rw [hst] at hst'; cases hst'
        · rw [hi] at hi'; cases hi'
          rw [he] at hm
          cases List.mem_singleton.1 hm
          exact h2 m s' (.inl q) hs
      -- an instruction that leads nowhere
      have none' : i.isStation = false → i.eps t off = [] → ns = out →
          Adds P t off th ns out ∧ ∀ s', Station P s' → (th.station = s' ∨
          ∃ m s1, EStep P t off th.station s1 ∧ EPath P t off (fun y => y ∈ shunts) m s1 s') →
          ∃ x ∈ out, x.station = s' := by
        rintro hst he rfl
        refine ⟨Adds.refl, ?_⟩
        rintro s' hs (rfl | ⟨m, s1, ⟨i', hi', hm⟩, q⟩)
        · obtain ⟨i', hi', hst'⟩ := hs
          rw [hi] at hi'; cases hi'; rw [hst] at hst'; cases hst'
        · rw [hi] at hi'; cases hi'
          rw [he] at hm; cases hm
      -- a waiting station
      have wait : i.isStation = true → (assert (decide (ns.length < P.maxStation)) >>= fun _ => .ok (ns ++ [th])) = .ok out →
          Adds P t off th ns out ∧ ∀ s', Station P s' → (th.station = s' ∨
          ∃ m s1, EStep P t off th.station s1 ∧ EPath P t off (fun y => y ∈ shunts) m s1 s') →
          ∃ x ∈ out, x.station = s' := by
        intro hst h
        obtain ⟨_, -, h⟩ := hbind h
        cases h
        have hS : Station P th.station := ⟨i, hi, hst⟩
        refine ⟨⟨[th], rfl, ?_⟩, ?_⟩
        · intro x hx
          cases List.mem_singleton.1 hx
          exact ⟨rfl, hS, 0, .nil _ (fun h => h)⟩
        · rintro s' hs (rfl | ⟨m, s1, e, q⟩)
          · exact ⟨th, by simp, rfl⟩
          · exact (hS.noEps e).elim
      cases i with
      | bol n =>
        dsimp only at h
        split at h
        · rename_i hb
          exact single ⟨n, th.res⟩ rfl (if_pos hb) rfl (hsu n (by simp [Instr.succs])) h
        · rename_i hb
          cases h
          exact none' rfl (if_neg hb) rfl
      | eol n =>
        dsimp only at h
        split at h
        · rename_i hb
          exact single ⟨n, th.res⟩ rfl (if_pos hb) rfl (hsu n (by simp [Instr.succs])) h
        · rename_i hb
          cases h
          exact none' rfl (if_neg hb) rfl
      | jump a n => exact single ⟨a, th.res⟩ rfl rfl rfl (hsu a (by simp [Instr.succs])) h
      | split a n =>
        obtain ⟨n1, h1, h⟩ := hbind h
        obtain ⟨a1, a2⟩ := ih true ⟨a, th.res⟩ shunts ns n1 (hsu a (by simp [Instr.succs])) hns h1
        obtain ⟨b1, b2⟩ := ih true ⟨n, th.res⟩ shunts n1 out (hsu n (by simp [Instr.succs])) (a1.stations hns) h
        have ea : EStep P t off th.station a := ⟨_, hi, by simp [Instr.eps]⟩
        have en : EStep P t off th.station n := ⟨_, hi, by simp [Instr.eps]⟩
        refine ⟨(Adds.step (th' := ⟨a, th.res⟩) ea rfl a1).trans (Adds.step (th' := ⟨n, th.res⟩) en rfl b1), ?_⟩
        rintro s' hs (rfl | ⟨m, s1, ⟨i', hi', hm⟩, q⟩)
        · exact (hs.noEps ea).elim
        · rw [hi] at hi'; cases hi'
          rcases (by simpa [Instr.eps] using hm : s1 = a ∨ s1 = n) with rfl | rfl
          · obtain ⟨x, hx, hxs⟩ := a2 m s' (.inl q) hs
            exact ⟨x, b1.sub x hx, hxs⟩
          · exact b2 m s' (.inl q) hs
      | capStart k n =>
        obtain ⟨r, hr1, h⟩ := hbind h
        exact single ⟨n, r⟩ rfl rfl (captureSet_cap0 _ _ _ _ (by simpa [Instr.simple] using hsim) hr1)
          (hsu n (by simp [Instr.succs])) h
      | capEnd k n =>
        obtain ⟨r, hr1, h⟩ := hbind h
        cases h
        exact none' rfl rfl rfl
      | char c n => exact wait rfl h
      | prop x n => exact wait rfl h
      | cls b x n => exact wait rfl h
      | any n => exact wait rfl h
      | accept n => exact wait rfl h
      | start | zero | negLook | count | null | token => simp [Instr.simple] at hsim
end Strpp.Rx
