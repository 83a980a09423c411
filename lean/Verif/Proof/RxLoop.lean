import Verif.Proof.RxNfa
/-! The matcher's loop computes the leftmost, then longest, of the runs of a program without counters and lookahead. -/
namespace Strpp.Rx

/-- The program can go from station `s` at offset `i` to acceptance at offset `e` -/
inductive Acc (P : Prog) (t : List UCS4) : Nat → Nat → Nat → Prop
  | acc (i s n : Nat) : P.decode s = .ok (.accept n) → i ≤ t.length → Acc P t i s i
  | eps (i s s' e : Nat) : EStep P t i s s' → Acc P t i s' e → Acc P t i s e
  | step (i s n e : Nat) (ins : Instr) : P.decode s = .ok ins → consume ins (chAt t i) = .ok (.goesOn n) →
      i ≤ t.length → Acc P t (i + 1) n e → Acc P t i s e

/-- The same, from a station where a thread waits -/
def AccS (P : Prog) (t : List UCS4) (i s e : Nat) : Prop :=
  Station P s ∧ i ≤ t.length ∧ ((∃ n, P.decode s = .ok (.accept n) ∧ e = i) ∨
    ∃ ins n, P.decode s = .ok ins ∧ consume ins (chAt t i) = .ok (.goesOn n) ∧ Acc P t (i + 1) n e)

abbrev Reach (P : Prog) (t : List UCS4) (off s s' : Nat) : Prop := ∃ n, EPath P t off (fun _ => False) n s s'

theorem consume_station {ins : Instr} {ch : UCS4} {st : Status} (h : consume ins ch = .ok st) : ins.isStation = true := by
  cases ins <;> first | rfl | cases h

theorem Acc.le {P t i s e} (h : Acc P t i s e) : i ≤ e ∧ e ≤ t.length := by
  induction h with
  | acc i s n h hi => exact ⟨Nat.le_refl _, hi⟩
  | eps i s s' e h _ ih => exact ih
  | step i s n e ins _ _ hi _ ih => exact ⟨by omega, ih.2⟩

theorem AccS.le {P t i s e} (h : AccS P t i s e) : i ≤ e ∧ e ≤ t.length := by
  obtain ⟨-, hi, (⟨n, -, rfl⟩ | ⟨ins, n, -, -, h⟩)⟩ := h
  · exact ⟨Nat.le_refl _, hi⟩
  · have := h.le; exact ⟨by omega, this.2⟩

theorem Acc.reach {P t i s e} (h : Acc P t i s e) : ∃ s', Reach P t i s s' ∧ AccS P t i s' e := by
  induction h with
  | acc i s n h hi => exact ⟨s, ⟨0, .nil _ (fun h => h)⟩, ⟨_, h, rfl⟩, hi, .inl ⟨n, h, rfl⟩⟩
  | eps i s s' e h _ ih =>
    obtain ⟨s'', ⟨n, p⟩, a⟩ := ih
    exact ⟨s'', ⟨n + 1, .cons _ _ _ _ (fun h => h) h p⟩, a⟩
  | step i s n e ins h hc hi h' ih =>
    exact ⟨s, ⟨0, .nil _ (fun h => h)⟩, ⟨_, h, consume_station hc⟩, hi, .inr ⟨ins, n, h, hc, h'⟩⟩

theorem AccS.acc {P t i s e} (h : AccS P t i s e) : Acc P t i s e := by
  obtain ⟨-, hi, (⟨n, h, rfl⟩ | ⟨ins, n, h, hc, h'⟩)⟩ := h
  · exact .acc _ _ _ h hi
  · exact .step _ _ _ _ _ h hc hi h'

theorem Reach.acc {P t i s s' e} (h : Reach P t i s s') (a : Acc P t i s' e) : Acc P t i s e := by
  obtain ⟨n, p⟩ := h
  induction p with
  | nil => exact a
  | cons n s s1 s' _ e _ ih => exact .eps _ _ _ _ e (ih a)

/-- The result is the best of the outcomes `E` (start, end): the leftmost, and the longest of those. -/
def BestLL (r : RVal) (E : Nat → Nat → Prop) : Prop :=
  match r.cap1 with
  | none => ∀ c j, ¬ E c j
  | some e => E r.cap0 e ∧ ∀ c j, E c j → r.cap0 < c ∨ (r.cap0 = c ∧ j ≤ e)

theorem BestLL.congr {r : RVal} {E F : Nat → Nat → Prop} (h : BestLL r E) (he : ∀ c j, E c j ↔ F c j) : BestLL r F := by
  have : E = F := by funext c j; exact propext (he c j)
  rwa [← this]

/-- A smaller set of outcomes has the same best one if it has for each a better one -/
theorem BestLL.dominated {r : RVal} {E F : Nat → Nat → Prop} (h : BestLL r F) (h1 : ∀ c j, F c j → E c j)
    (h2 : ∀ c j, E c j → ∃ c', c' ≤ c ∧ F c' j) : BestLL r E := by
  unfold BestLL at *
  cases hr : r.cap1 with
  | none =>
    rw [hr] at h
    intro c j he
    obtain ⟨c', -, hf⟩ := h2 c j he
    exact h c' j hf
  | some e =>
    rw [hr] at h
    refine ⟨h1 _ _ h.1, fun c j he => ?_⟩
    obtain ⟨c', hc, hf⟩ := h2 c j he
    rcases h.2 c' j hf with h | ⟨h, h'⟩
    · exact .inl (by omega)
    · by_cases hcc : r.cap0 = c
      · exact .inr ⟨hcc, h'⟩
      · exact .inl (by omega)

/-- What the threads waiting at offset `i` can still lead to -/
def Outs (P : Prog) (t : List UCS4) (i : Nat) (L : List Thr) (c j : Nat) : Prop :=
  ∃ th ∈ L, c = th.res.cap0 ∧ AccS P t i th.station j

/-- threads waiting at `i`, in the order of the starts of their matches -/
structure Waiting (P : Prog) (R : Nat → Prop) (i : Nat) (L : List Thr) : Prop where
  st : ∀ th ∈ L, Station P th.station
  inR : ∀ th ∈ L, R th.station
  le : ∀ th ∈ L, th.res.cap0 ≤ i
  sorted : L.Pairwise fun a b => a.res.cap0 ≤ b.res.cap0

theorem better_iff {r th : RVal} {i e : Nat} (hr : r.cap1 = some e) :
    better r th i = true ↔ th.cap0 < r.cap0 ∨ (i - th.cap0 > e - r.cap0 ∧ th.cap0 = r.cap0) := by
  have hs : r.succeeded = true := by simp [RVal.succeeded, hr]
  have hl : r.length = e - r.cap0 := by simp [RVal.length, hr]
  unfold better
  rw [hs, hl, Bool.or_eq_true, Bool.or_eq_true, Bool.and_eq_true, decide_eq_true_iff, decide_eq_true_iff, beq_iff_eq]
  simp [RVal.offset]

/-- A successful replacement -/
theorem best_accept {r th : RVal} {D : Nat → Nat → Prop} {i : Nat} (hD : BestLL r D) (hle : ∀ c j, D c j → c ≤ j ∧ j ≤ i)
    (hth : th.cap0 ≤ i) :
    BestLL (if better r th i then { th with cap1 := some i } else r) (fun c j => D c j ∨ (c = th.cap0 ∧ j = i)) := by
  unfold BestLL at hD
  cases hr : r.cap1 with
  | none =>
    rw [hr] at hD
    have hb : better r th i = true := by simp [better, RVal.succeeded, hr]
    rw [if_pos hb]
    refine ⟨.inr ⟨rfl, rfl⟩, ?_⟩
    rintro c j (h | ⟨rfl, rfl⟩)
    · exact (hD c j h).elim
    · exact .inr ⟨rfl, Nat.le_refl _⟩
  | some e =>
    rw [hr] at hD
    have h1 := hle _ _ hD.1
    by_cases hb : better r th i
    · rw [if_pos hb]
      have hb' : th.cap0 < r.cap0 ∨ (i - th.cap0 > e - r.cap0 ∧ th.cap0 = r.cap0) :=
        (better_iff hr).1 hb
      refine ⟨.inr ⟨rfl, rfl⟩, ?_⟩
      show ∀ c j, _ → th.cap0 < c ∨ th.cap0 = c ∧ j ≤ i
      rintro c j (h | ⟨rfl, rfl⟩)
      · have h2 := hle c j h
        rcases hD.2 c j h with h | ⟨h, h'⟩ <;> omega
      · exact .inr ⟨rfl, Nat.le_refl _⟩
    · rw [if_neg hb]
      have hb' : ¬ (th.cap0 < r.cap0 ∨ (i - th.cap0 > e - r.cap0 ∧ th.cap0 = r.cap0)) :=
        fun h => hb ((better_iff hr).2 h)
      unfold BestLL
      rw [hr]
      refine ⟨.inl hD.1, ?_⟩
      rintro c j (h | ⟨rfl, rfl⟩)
      · exact hD.2 c j h
      · omega

theorem captureSet_one (th r : RVal) (i : Nat) (h : th.captureSet 1 i = .ok r) : r = { th with cap1 := some i } := by
  unfold RVal.captureSet at h
  simpa using h.symm

theorem consume_accepts {ins : Instr} {ch : UCS4} (h : consume ins ch = .ok .accepts) : ∃ n, ins = .accept n := by
  cases ins with
  | accept n => exact ⟨n, rfl⟩
  | any n => simp only [consume] at h; split at h <;> cases h
  | char c n => simp only [consume] at h; split at h <;> cases h
  | cls b x n =>
    simp only [consume] at h
    split at h
    · cases h
    · obtain ⟨_, -, h⟩ := hbind h
      split at h <;> cases h
  | prop x n =>
    simp only [consume] at h
    split at h
    · cases h
    · obtain ⟨_, -, h⟩ := hbind h
      split at h <;> cases h
  | _ => cases h

theorem consume_succ {ins : Instr} {ch : UCS4} {n : Nat} (h : consume ins ch = .ok (.goesOn n)) : n ∈ ins.succs := by
  cases ins with
  | accept n => cases h
  | any n => simp only [consume] at h; split at h <;> cases h <;> simp [Instr.succs]
  | char c n => simp only [consume] at h; split at h <;> cases h <;> simp [Instr.succs]
  | cls b x n =>
    simp only [consume] at h
    split at h
    · cases h
    · obtain ⟨_, -, h⟩ := hbind h
      split at h <;> cases h <;> simp [Instr.succs]
  | prop x n =>
    simp only [consume] at h
    split at h
    · cases h
    · obtain ⟨_, -, h⟩ := hbind h
      split at h <;> cases h <;> simp [Instr.succs]
  | _ => cases h

/-- What `cycle` leaves after the threads `L`: the best of what was accepted, and the threads for the next offset. -/
structure Cycled (P : Prog) (t : List UCS4) (R : Nat → Prop) (i : Nat) (L ns out : List Thr) : Prop where
  wait : Waiting P R (i + 1) out
  sub : ∀ x ∈ ns, x ∈ out
  sound : ∀ x ∈ out, x ∈ ns ∨ ∃ th ∈ L, x.res.cap0 = th.res.cap0 ∧ ∃ ins n, P.decode th.station = .ok ins ∧
    consume ins (chAt t i) = .ok (.goesOn n) ∧ Reach P t (i + 1) n x.station
  complete : ∀ th ∈ L, ∀ ins n s', P.decode th.station = .ok ins → consume ins (chAt t i) = .ok (.goesOn n) →
    Reach P t (i + 1) n s' → Station P s' → ∃ x ∈ out, x.station = s' ∧ x.res.cap0 ≤ th.res.cap0

/-- accepted at `i` -/
def Now (P : Prog) (i : Nat) (L : List Thr) (c j : Nat) : Prop :=
  ∃ th ∈ L, c = th.res.cap0 ∧ j = i ∧ ∃ n, P.decode th.station = .ok (.accept n)

theorem cycle_spec {P : Prog} {t : List UCS4} {junk fuel : Nat} {R : Nat → Prop} (hR : Closed P R) (i : Nat) :
    ∀ (L ns : List Thr) (r : RVal) (D : Nat → Nat → Prop) (out : List Thr × RVal),
      Waiting P R i L → Waiting P R (i + 1) ns → (∀ x ∈ ns, ∀ th ∈ L, x.res.cap0 ≤ th.res.cap0) →
      BestLL r D → (∀ c j, D c j → c ≤ j ∧ j ≤ i) →
      cycle P t (fun th off ns => addthread P t junk fuel true th off [] 0 ns) i L ns r = .ok out →
      BestLL out.2 (fun c j => D c j ∨ Now P i L c j) ∧ Cycled P t R i L ns out.1 := by
  intro L
  induction L with
  | nil =>
    intro ns r D out _ hns _ hD _ h
    cases h
    refine ⟨hD.congr fun c j => ?_, hns, fun x h => h, fun x h => .inl h, by simp⟩
    simp [Now]
  | cons th L ih =>
    intro ns r D out hL hns hord hD hle h
    rw [cycle] at h
    obtain ⟨r1, h1, h⟩ := hbind h
    have hL' : Waiting P R i L :=
      ⟨fun x hx => hL.st x (by simp [hx]), fun x hx => hL.inR x (by simp [hx]), fun x hx => hL.le x (by simp [hx]),
        (List.pairwise_cons.1 hL.sorted).2⟩
    have hfst := (List.pairwise_cons.1 hL.sorted).1
    have hrth := hL.inR th (by simp)
    have hcth := hL.le th (by simp)
    unfold stepThread at h1
    obtain ⟨ins, hi, h2⟩ := hbind h1
    clear h1
    obtain ⟨st, hc, h1⟩ := hbind h2
    clear h2
    cases st with
    | stops =>
      cases h1
      obtain ⟨b, cy⟩ := ih ns r D out hL' hns (fun x hx y hy => hord x hx y (by simp [hy])) hD hle h
      refine ⟨b.congr fun c j => ?_, cy.wait, cy.sub, ?_, ?_⟩
      · constructor
        · rintro (h | ⟨y, hy, h⟩)
          · exact .inl h
          · exact .inr ⟨y, by simp [hy], h⟩
        · rintro (h | ⟨y, hy, h2, h3, n, h4⟩)
          · exact .inl h
          · rcases List.mem_cons.1 hy with rfl | hy
            · rw [hi] at h4; cases h4; cases hc
            · exact .inr ⟨y, hy, h2, h3, n, h4⟩
      · intro x hx
        rcases cy.sound x hx with h | ⟨y, hy, h⟩
        · exact .inl h
        · exact .inr ⟨y, by simp [hy], h⟩
      · intro y hy ins' n s' hi' hc' hr' hs'
        rcases List.mem_cons.1 hy with rfl | hy
        · rw [hi] at hi'; cases hi'; rw [hc] at hc'; cases hc'
        · exact cy.complete y hy ins' n s' hi' hc' hr' hs'
    | accepts =>
      obtain ⟨n, rfl⟩ := consume_accepts hc
      have hr1 : r1 = (ns, if better r th.res i then { th.res with cap1 := some i } else r) := by
        dsimp only at h1
        split at h1
        · rename_i hb
          obtain ⟨r', hr', h1⟩ := hbind h1
          rw [captureSet_one _ _ _ hr'] at h1
          cases h1; rw [if_pos hb]
        · rename_i hb
          cases h1; rw [if_neg hb]
      have hD' := best_accept hD hle hcth
      rw [hr1] at h
      obtain ⟨b, cy⟩ := ih ns _ _ out hL' hns (fun x hx y hy => hord x hx y (by simp [hy])) hD'
        (by rintro c j (h | ⟨rfl, rfl⟩)
            · exact hle c j h
            · exact ⟨hcth, Nat.le_refl _⟩) h
      refine ⟨b.congr fun c j => ?_, cy.wait, cy.sub, ?_, ?_⟩
      · constructor
        · rintro ((h | ⟨h1, h2⟩) | ⟨y, hy, h⟩)
          · exact .inl h
          · exact .inr ⟨th, by simp, h1, h2, n, hi⟩
          · exact .inr ⟨y, by simp [hy], h⟩
        · rintro (h | ⟨y, hy, h2, h3, n, h4⟩)
          · exact .inl (.inl h)
          · rcases List.mem_cons.1 hy with rfl | hy
            · exact .inl (.inr ⟨h2, h3⟩)
            · exact .inr ⟨y, hy, h2, h3, n, h4⟩
      · intro x hx
        rcases cy.sound x hx with h | ⟨y, hy, h⟩
        · exact .inl h
        · exact .inr ⟨y, by simp [hy], h⟩
      · intro y hy ins' n s' hi' hc' hr' hs'
        rcases List.mem_cons.1 hy with rfl | hy
        · rw [hi] at hi'; cases hi'; cases hc'
        · exact cy.complete y hy ins' n s' hi' hc' hr' hs'
    | goesOn n =>
      obtain ⟨ns', hadd, h1⟩ := hbind h1
      cases h1
      have hRn : R n := by
        obtain ⟨i', hi', -, hsu⟩ := hR _ hrth
        rw [hi] at hi'; cases hi'
        exact hsu n (consume_succ hc)
      obtain ⟨hA, hC⟩ := addthread_spec hR (i + 1) fuel true ⟨n, th.res⟩ [] ns ns' hRn hns.st hadd
      have hns' : Waiting P R (i + 1) ns' := by
        obtain ⟨new, rfl, hnew⟩ := hA
        refine ⟨fun x hx => ?_, fun x hx => ?_, fun x hx => ?_, ?_⟩
        · rcases List.mem_append.1 hx with hx | hx
          · exact hns.st x hx
          · exact (hnew x hx).2.1
        · rcases List.mem_append.1 hx with hx | hx
          · exact hns.inR x hx
          · obtain ⟨-, -, m, p⟩ := hnew x hx
            exact p.closed hR hRn
        · rcases List.mem_append.1 hx with hx | hx
          · exact hns.le x hx
          · rw [(hnew x hx).1]; show th.res.cap0 ≤ _; omega
        · refine List.pairwise_append.2 ⟨hns.sorted, ?_, ?_⟩
          · refine List.Pairwise.imp_of_mem (R := fun _ _ => True) ?_ ?_
            · intro a b ha hb _
              rw [(hnew a ha).1, (hnew b hb).1]; exact Nat.le_refl _
            · exact List.pairwise_of_forall (fun _ _ => trivial)
          · intro a ha b hb
            rw [(hnew b hb).1]
            exact hord a ha th (by simp)
      have hord' : ∀ x ∈ ns', x.res.cap0 ≤ th.res.cap0 := by
        obtain ⟨new, rfl, hnew⟩ := hA
        intro x hx
        rcases List.mem_append.1 hx with hx | hx
        · exact hord x hx th (by simp)
        · exact Nat.le_of_eq (hnew x hx).1
      obtain ⟨b, cy⟩ := ih ns' r D out hL' hns' (fun x hx y hy => Nat.le_trans (hord' x hx) (hfst y hy)) hD hle h
      refine ⟨b.congr fun c j => ?_, cy.wait, fun x hx => cy.sub x (hA.sub x hx), ?_, ?_⟩
      · constructor
        · rintro (h | ⟨y, hy, h⟩)
          · exact .inl h
          · exact .inr ⟨y, by simp [hy], h⟩
        · rintro (h | ⟨y, hy, h2, h3, n, h4⟩)
          · exact .inl h
          · rcases List.mem_cons.1 hy with rfl | hy
            · rw [hi] at h4; cases h4; cases hc
            · exact .inr ⟨y, hy, h2, h3, n, h4⟩
      · intro x hx
        rcases cy.sound x hx with h | ⟨y, hy, h⟩
        · obtain ⟨new, rfl, hnew⟩ := hA
          rcases List.mem_append.1 h with h | h
          · exact .inl h
          · exact .inr ⟨th, by simp, (hnew x h).1, ins, n, hi, hc, (hnew x h).2.2⟩
        · exact .inr ⟨y, by simp [hy], h⟩
      · intro y hy ins' n' s' hi' hc' hr' hs'
        rcases List.mem_cons.1 hy with rfl | hy
        · rw [hi] at hi'; cases hi'; rw [hc] at hc'; cases hc'
          obtain ⟨m, p⟩ := hr'
          obtain ⟨x, hx, hxs⟩ := hC m s' (.inl (p.mono (by simp))) hs'
          exact ⟨x, cy.sub x hx, hxs, hord' x hx⟩
        · exact cy.complete y hy ins' n' s' hi' hc' hr' hs'

/-- The outcomes of the threads before a cycle are those accepted in it and those of the threads after it -/
theorem Cycled.outs {P t R i L out} (h : Cycled P t R i L [] out) (hL : Waiting P R i L) (hi : i ≤ t.length) :
    (∀ c j, Now P i L c j ∨ Outs P t (i + 1) out c j → Outs P t i L c j) ∧
    (∀ c j, Outs P t i L c j → Now P i L c j ∨ ∃ c', c' ≤ c ∧ Outs P t (i + 1) out c' j) := by
  constructor
  · rintro c j (⟨th, hth, rfl, rfl, n, hn⟩ | ⟨x, hx, rfl, ha⟩)
    · exact ⟨th, hth, rfl, hL.st th hth, hi, .inl ⟨n, hn, rfl⟩⟩
    · rcases h.sound x hx with h | ⟨th, hth, hc, ins, n, hd, hco, hr⟩
      · cases h
      · exact ⟨th, hth, hc, hL.st th hth, hi, .inr ⟨ins, n, hd, hco, hr.acc ha.acc⟩⟩
  · rintro c j ⟨th, hth, rfl, hst, -, (⟨n, hn, rfl⟩ | ⟨ins, n, hd, hco, ha⟩)⟩
    · exact .inl ⟨th, hth, rfl, rfl, n, hn⟩
    · obtain ⟨s', hr, ha'⟩ := ha.reach
      obtain ⟨x, hx, rfl, hxc⟩ := h.complete th hth ins n s' hd hco hr ha'.1
      exact .inr ⟨_, hxc, x, hx, rfl, ha'⟩

/-- The loop, for a match at a given place -/
theorem matchLoop_spec {P : Prog} {t : List UCS4} {junk fuel : Nat} {R : Nat → Prop} (hR : Closed P R) :
    ∀ (n i : Nat) (L : List Thr) (r : RVal) (D : Nat → Nat → Prop) (out : RVal × Nat), n = t.length + 1 - i →
      Waiting P R i L → BestLL r D → (∀ c j, D c j → c ≤ j ∧ j ≤ i) →
      matchLoop P t (fun th off ns => addthread P t junk fuel true th off [] 0 ns) n i L r = .ok out →
      BestLL out.1 (fun c j => D c j ∨ Outs P t i L c j) := by
  intro n
  induction n with
  | zero =>
    intro i L r D out hn _ hD _ h
    cases h
    refine hD.congr fun c j => ⟨.inl, ?_⟩
    rintro (h | ⟨th, -, -, h⟩)
    · exact h
    · have := h.le; omega
  | succ n ih =>
    intro i L r D out hn hL hD hle h
    rw [matchLoop] at h
    split at h
    · rename_i he
      cases h
      have : L = [] := by simpa using he
      subst this
      refine hD.congr fun c j => ⟨.inl, ?_⟩
      rintro (h | ⟨th, hth, -⟩)
      · exact h
      · cases hth
    · obtain ⟨r1, h1, h⟩ := hbind h
      obtain ⟨b, cy⟩ := cycle_spec hR i L [] r D r1 hL ⟨by simp, by simp, by simp, by simp⟩ (by simp) hD hle h1
      have hb := ih (i + 1) r1.1 r1.2 _ out (by omega) cy.wait b
        (by rintro c j (h | ⟨th, hth, rfl, rfl, -⟩)
            · have := hle c j h; omega
            · have := hL.le th hth; omega) h
      obtain ⟨o1, o2⟩ := cy.outs hL (by omega)
      refine hb.dominated ?_ ?_
      · rintro c j ((h | h) | h)
        · exact .inl h
        · exact .inr (o1 c j (.inl h))
        · exact .inr (o1 c j (.inr h))
      · rintro c j (h | h)
        · exact ⟨c, Nat.le_refl _, .inl (.inl h)⟩
        · rcases o2 c j h with h | ⟨c', hc, h⟩
          · exact ⟨c, Nat.le_refl _, .inl (.inr h)⟩
          · exact ⟨c', hc, .inr h⟩

end Strpp.Rx
