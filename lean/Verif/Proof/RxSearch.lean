import Verif.Proof.RxLoop
/-! `matchAt` and `matchAfter` of a program without counters and lookahead. -/
namespace Strpp.Rx

/-- The code around a regular expression: the search loop and the start, rx/rxcompile.cpp (`RxOp::RxoStart`). -/
structure Shape (P : Prog) (R : Nat → Prop) (S a j st b : Nat) : Prop where
  closed : Closed P R
  hS : P.decode S = .ok (.split st a)
  ha : P.decode a = .ok (.any j)
  hj : ∃ n, P.decode j = .ok (.jump S n)
  hst : P.decode st = .ok (.capStart 0 b)
  hb : R b
  nS : ¬ R S
  na : ¬ R a
  nj : ¬ R j

theorem Closed.not_start {P R st b} (h : Closed P R) (hst : P.decode st = .ok (.capStart 0 b)) : ¬ R st := by
  intro hr
  obtain ⟨i, hi, hs, -⟩ := h st hr
  rw [hst] at hi; cases hi
  simp [Instr.simple] at hs

theorem EPath.outside {P t off} {R : Nat → Prop} (hR : Closed P R) {A : Nat → Prop} (hA : ∀ x, A x → ¬ R x) {n s s' : Nat}
    (p : EPath P t off (fun _ => False) n s s') (h : R s) : EPath P t off A n s s' := by
  induction p with
  | nil s _ => exact .nil s (fun ha => hA _ ha h)
  | cons n s s1 s' _ e _ ih =>
    refine .cons n s s1 s' (fun ha => hA _ ha h) e (ih ?_)
    exact EPath.closed hR (A := fun _ => False) (.cons 0 s s1 s1 (fun h => h) e (.nil _ (fun h => h))) h

theorem not_dup {ns : List Thr} {s : Nat} (h : ∀ x ∈ ns, x.station ≠ s) :
    (ns.any fun n => n.station == s) = false := by
  rw [List.any_eq_false]
  intro x hx
  simpa using h x hx

/-- Adding a thread at the start of the expression -/
theorem add_start {P : Prog} {t : List UCS4} {junk : Nat} {R : Nat → Prop} {st b : Nat} (hR : Closed P R)
    (hst : P.decode st = .ok (.capStart 0 b)) (hb : R b) (fuel : Nat) (res : RVal) (off : Nat) (shunts : List Nat)
    (ns out : List Thr) (hns : ∀ x ∈ ns, Station P x.station) (hsh : st ∉ shunts) (hshR : ∀ x ∈ shunts, ¬ R x)
    (h : addthread P t junk fuel true ⟨st, res⟩ off shunts 0 ns = .ok out) :
    (∃ new, out = ns ++ new ∧ ∀ x ∈ new, x.res.cap0 = off ∧ Station P x.station ∧ Reach P t off b x.station) ∧
    ∀ s', Reach P t off b s' → Station P s' → ∃ x ∈ out, x.station = s' := by
  match fuel with
  | 0 => cases h
  | 1 =>
    rw [addthread] at h
    rw [if_neg (by simpa using hsh)] at h
    obtain ⟨_, -, h⟩ := hbind h
    obtain ⟨d, hd, h⟩ := hbind h
    rw [isDuplicate_zero, not_dup] at hd
    · cases hd; cases h
    · rintro x hx heq
      obtain ⟨i, hi, hs⟩ := hns x hx
      rw [heq, hst] at hi; cases hi; cases hs
  | fuel + 2 =>
    rw [addthread] at h
    rw [if_neg (by simpa using hsh)] at h
    obtain ⟨_, -, h⟩ := hbind h
    obtain ⟨d, hd, h⟩ := hbind h
    rw [isDuplicate_zero, not_dup] at hd
    · cases hd
      simp only [Bool.false_eq_true, if_false] at h
      rw [addthread] at h
      obtain ⟨i, hi, h⟩ := hbind h
      rw [hst] at hi; cases hi
      obtain ⟨r, hr, h⟩ := hbind h
      have hrv : r = { res with cap0 := off } := by
        have : (0 : Int) * 2 = 0 := rfl
        rw [this] at hr
        simpa [RVal.captureSet] using hr.symm
      obtain ⟨⟨new, hn, hA⟩, hC⟩ := addthread_spec hR off fuel false ⟨b, r⟩ (shunts ++ [st]) ns out hb hns h
      refine ⟨⟨new, hn, fun x hx => ?_⟩, fun s' hp hs => ?_⟩
      · obtain ⟨h1, h2, h3⟩ := hA x hx
        refine ⟨h1.trans ?_, h2, h3⟩
        rw [hrv]
      · obtain ⟨n, p⟩ := hp
        refine hC n s' (.inl (p.outside hR ?_ hb)) hs
        intro x hx
        rcases List.mem_append.1 hx with hx | hx
        · exact hshR x hx
        · cases List.mem_singleton.1 hx
          exact hR.not_start hst
    · rintro x hx heq
      obtain ⟨i, hi, hs⟩ := hns x hx
      rw [heq, hst] at hi; cases hi; cases hs

/-- `matchAt`: the longest run from the offset, of those that begin there -/
theorem matchAt_spec {P : Prog} {t : List UCS4} {junk fuel : Nat} {R : Nat → Prop} {b : Nat} (hR : Closed P R)
    (hst : P.decode P.startStation = .ok (.capStart 0 b)) (hb : R b) (off : Nat) (r : RVal)
    (h : P.matchAt junk fuel t off = .ok r) :
    BestLL r (fun c j => c = off ∧ Acc P t off b j) := by
  unfold Prog.matchAt matchRun matchFrom at h
  obtain ⟨x, hrun, hx⟩ := hbind h
  clear h
  cases hx
  obtain ⟨cur, hcur, h⟩ := hbind hrun
  clear hrun
  obtain ⟨⟨new, hnw, hnew⟩, hC⟩ := add_start hR hst hb fuel _ off [] [] _ (by simp) (by simp) (by simp) hcur
  rw [List.nil_append] at hnw
  subst new
  have hw : Waiting P R off cur := by
    refine ⟨fun x hx => (hnew x hx).2.1, fun x hx => ?_, fun x hx => Nat.le_of_eq (hnew x hx).1, ?_⟩
    · obtain ⟨n, p⟩ := (hnew x hx).2.2
      exact p.closed hR hb
    · refine List.Pairwise.imp_of_mem (R := fun _ _ => True) ?_ (List.pairwise_of_forall (fun _ _ => trivial))
      intro a b ha hb _
      rw [(hnew a ha).1, (hnew b hb).1]; exact Nat.le_refl _
  have := matchLoop_spec hR _ off cur .fail (fun _ _ => False) x rfl hw (by simp [BestLL, RVal.fail]) (by simp) h
  refine this.congr fun c j => ?_
  constructor
  · rintro (h | ⟨th, hth, rfl, ha⟩)
    · exact h.elim
    · exact ⟨(hnew th hth).1, (hnew th hth).2.2.acc ha.acc⟩
  · rintro ⟨rfl, ha⟩
    obtain ⟨s', hr, has⟩ := ha.reach
    obtain ⟨x, hx, rfl⟩ := hC s' hr has.1
    exact .inr ⟨x, hx, (hnew x hx).1.symm, has⟩

/-- No NUL among the characters from `i` up to `k` -/
def NoNul (t : List UCS4) (i k : Nat) : Prop := ∀ m, i ≤ m → m < k → chAt t m ≠ 0#32

/-- Adding the threads of the search loop, after its `Split` -/
theorem add_split {P : Prog} {t : List UCS4} {junk : Nat} {R : Nat → Prop} {S a j st b : Nat} (hs : Shape P R S a j st b)
    (fuel : Nat) (res : RVal) (off : Nat) (shunts : List Nat) (ns out : List Thr)
    (hns : ∀ x ∈ ns, Station P x.station ∧ R x.station) (hsh : st ∉ shunts ∧ a ∉ shunts) (hshR : ∀ x ∈ shunts, ¬ R x)
    (h : addthread P t junk fuel false ⟨S, res⟩ off shunts 0 ns = .ok out) :
    ∃ new, out = ns ++ new ++ [⟨a, res⟩] ∧
      (∀ x ∈ new, x.res.cap0 = off ∧ Station P x.station ∧ Reach P t off b x.station) ∧
      ∀ s', Reach P t off b s' → Station P s' → ∃ x ∈ ns ++ new, x.station = s' := by
  match fuel with
  | 0 => cases h
  | fuel + 1 =>
    rw [addthread] at h
    obtain ⟨i, hi, h⟩ := hbind h
    rw [hs.hS] at hi; cases hi
    obtain ⟨n1, h1, h⟩ := hbind h
    obtain ⟨⟨new, rfl, hnew⟩, hC⟩ := add_start hs.closed hs.hst hs.hb fuel res off shunts ns n1 (fun x hx => (hns x hx).1)
      hsh.1 hshR h1
    refine ⟨new, ?_, hnew, hC⟩
    have hna : ∀ x ∈ ns ++ new, x.station ≠ a := by
      intro x hx he
      rcases List.mem_append.1 hx with hx | hx
      · exact hs.na (he ▸ (hns x hx).2)
      · obtain ⟨n, p⟩ := (hnew x hx).2.2
        exact hs.na (he ▸ p.closed hs.closed hs.hb)
    match fuel with
    | 0 => cases h
    | fuel + 1 =>
      rw [addthread] at h
      rw [if_neg (by simpa using hsh.2)] at h
      obtain ⟨_, -, h⟩ := hbind h
      obtain ⟨d, hd, h⟩ := hbind h
      rw [isDuplicate_zero, not_dup hna] at hd
      cases hd
      simp only [Bool.false_eq_true, if_false] at h
      match fuel with
      | 0 => cases h
      | fuel + 1 =>
        rw [addthread] at h
        obtain ⟨i, hi, h⟩ := hbind h
        rw [hs.ha] at hi; cases hi
        obtain ⟨_, -, h⟩ := hbind h
        cases h
        rfl

theorem Shape.ne {P R S a j st b} (hs : Shape P R S a j st b) : st ≠ S ∧ a ≠ S ∧ st ≠ j ∧ a ≠ j := by
  obtain ⟨n, hj⟩ := hs.hj
  refine ⟨?_, ?_, ?_, ?_⟩ <;> rintro rfl
  · have h := hs.hst; rw [hs.hS] at h; cases h
  · have h := hs.ha; rw [hs.hS] at h; cases h
  · have h := hs.hst; rw [hj] at h; cases h
  · have h := hs.ha; rw [hj] at h; cases h

/-- the threads of a search: those which have started, and the one that looks for later starts -/
theorem waiting_add {P : Prog} {t : List UCS4} {R : Nat → Prop} {b : Nat} (hR : Closed P R) (hb : R b) {off : Nat}
    {ns new : List Thr} (h : Waiting P R off ns)
    (hnew : ∀ x ∈ new, x.res.cap0 = off ∧ Station P x.station ∧ Reach P t off b x.station) : Waiting P R off (ns ++ new) := by
  refine ⟨fun x hx => ?_, fun x hx => ?_, fun x hx => ?_, ?_⟩
  · rcases List.mem_append.1 hx with hx | hx
    · exact h.st x hx
    · exact (hnew x hx).2.1
  · rcases List.mem_append.1 hx with hx | hx
    · exact h.inR x hx
    · obtain ⟨m, p⟩ := (hnew x hx).2.2
      exact p.closed hR hb
  · rcases List.mem_append.1 hx with hx | hx
    · exact h.le x hx
    · exact Nat.le_of_eq (hnew x hx).1
  · refine List.pairwise_append.2 ⟨h.sorted, ?_, ?_⟩
    · refine List.Pairwise.imp_of_mem (R := fun _ _ => True) ?_ (List.pairwise_of_forall (fun _ _ => trivial))
      intro a b ha hb _
      rw [(hnew a ha).1, (hnew b hb).1]; exact Nat.le_refl _
    · intro a ha b hb
      rw [(hnew b hb).1]
      exact h.le a ha

theorem cycle_append (P : Prog) (t : List UCS4) (add : Thr → Nat → List Thr → Res (List Thr)) (off : Nat) (b : List Thr) :
    ∀ (a ns : List Thr) (r : RVal), cycle P t add off (a ++ b) ns r =
      (cycle P t add off a ns r >>= fun x => cycle P t add off b x.1 x.2) := by
  intro a
  induction a with
  | nil => intro ns r; rfl
  | cons th a ih =>
    intro ns r
    rw [List.cons_append, cycle, cycle]
    cases stepThread P t add off th ns r with
    | error e => rfl
    | ok x => exact ih x.1 x.2

/-- outcomes of later starts -/
def Later (P : Prog) (t : List UCS4) (b i c j : Nat) : Prop := i < c ∧ NoNul t i c ∧ Acc P t c b j

theorem searchLoop_spec {P : Prog} {t : List UCS4} {junk fuel : Nat} {R : Nat → Prop} {S a j st b : Nat}
    (hs : Shape P R S a j st b) :
    ∀ (n i : Nat) (L : List Thr) (res r : RVal) (D : Nat → Nat → Prop) (out : RVal × Nat), n = t.length + 1 - i →
      Waiting P R i L → BestLL r D → (∀ c j, D c j → c ≤ j ∧ j ≤ i) →
      matchLoop P t (fun th off ns => addthread P t junk fuel true th off [] 0 ns) n i (L ++ [⟨a, res⟩]) r = .ok out →
      BestLL out.1 (fun c j => D c j ∨ Outs P t i L c j ∨ Later P t b i c j) := by
  intro n
  induction n with
  | zero =>
    intro i L res r D out hn _ hD _ h
    cases h
    refine hD.congr fun c j => ⟨.inl, ?_⟩
    rintro (h | ⟨th, -, -, h⟩ | ⟨h1, -, h⟩)
    · exact h
    · have := h.le; omega
    · have := h.le; omega
  | succ n ih =>
    intro i L res r D out hn hL hD hle h
    rw [matchLoop, if_neg (by simp), cycle_append] at h
    obtain ⟨r2, h2, h⟩ := hbind h
    obtain ⟨r1, h1, h2⟩ := hbind h2
    obtain ⟨bb, cy⟩ := cycle_spec hs.closed i L [] r D r1 hL ⟨by simp, by simp, by simp, by simp⟩ (by simp) hD hle h1
    have hle' : ∀ c j, D c j ∨ Now P i L c j → c ≤ j ∧ j ≤ i + 1 := by
      rintro c j (h | ⟨th, hth, rfl, rfl, -⟩)
      · have := hle c j h; omega
      · have := hL.le th hth; omega
    obtain ⟨o1, o2⟩ := cy.outs hL (by omega)
    rw [cycle] at h2
    obtain ⟨r3, h3, h2⟩ := hbind h2
    cases h2
    unfold stepThread at h3
    obtain ⟨ins, hi, h4⟩ := hbind h3
    clear h3
    rw [hs.ha] at hi; cases hi
    by_cases h0 : chAt t i = 0#32
    · have hcon : consume (.any j) (chAt t i) = .ok .stops := by simp [consume, h0]
      rw [hcon] at h4
      cases h4
      have hb := matchLoop_spec hs.closed n (i + 1) r1.1 r1.2 _ out (by omega) cy.wait bb hle' h
      refine hb.dominated ?_ ?_
      · rintro c j ((h | h) | h)
        · exact .inl h
        · exact .inr (.inl (o1 c j (.inl h)))
        · exact .inr (.inl (o1 c j (.inr h)))
      · rintro c j (h | h | ⟨h1, h2, -⟩)
        · exact ⟨c, Nat.le_refl _, .inl (.inl h)⟩
        · rcases o2 c j h with h | ⟨c', hc, h⟩
          · exact ⟨c, Nat.le_refl _, .inl (.inr h)⟩
          · exact ⟨c', hc, .inr h⟩
        · exact (h2 i (Nat.le_refl _) h1 h0).elim
    · have hcon : consume (.any j) (chAt t i) = .ok (.goesOn j) := by simp [consume, h0]
      rw [hcon] at h4
      simp only [res_bind_ok] at h4
      obtain ⟨ns', hadd, h5⟩ := hbind h4
      clear h4
      cases h5
      -- the thread that looks for later starts, at the jump back
      obtain ⟨nj, hj⟩ := hs.hj
      have hne := hs.ne
      have hsp : ∃ fuel', addthread P t junk fuel' false ⟨S, res⟩ (i + 1) [j] 0 r1.1 = .ok ns' := by
        match fuel with
        | 0 => cases hadd
        | 1 =>
          rw [addthread, if_neg (by simp)] at hadd
          obtain ⟨_, -, hadd⟩ := hbind hadd
          obtain ⟨d, hd, hadd⟩ := hbind hadd
          rw [isDuplicate_zero, not_dup] at hd
          · cases hd; cases hadd
          · intro x hx he
            have he : x.station = j := he
            exact hs.nj (he ▸ cy.wait.inR x hx)
        | fuel + 2 =>
          rw [addthread, if_neg (by simp)] at hadd
          obtain ⟨_, -, hadd⟩ := hbind hadd
          obtain ⟨d, hd, hadd⟩ := hbind hadd
          rw [isDuplicate_zero, not_dup] at hd
          · cases hd
            simp only [Bool.false_eq_true, if_false] at hadd
            rw [addthread] at hadd
            obtain ⟨ii, hii, hadd⟩ := hbind hadd
            rw [hj] at hii; cases hii
            exact ⟨fuel, hadd⟩
          · intro x hx he
            have he : x.station = j := he
            exact hs.nj (he ▸ cy.wait.inR x hx)
      obtain ⟨fuel', hsp⟩ := hsp
      obtain ⟨new, rfl, hnew, hC⟩ := add_split hs fuel' res (i + 1) [j] r1.1 ns'
        (fun x hx => ⟨cy.wait.st x hx, cy.wait.inR x hx⟩) (by simp [hne]) (by simpa using hs.nj) hsp
      have hb := ih (i + 1) (r1.1 ++ new) res r1.2 _ out (by omega) (waiting_add hs.closed hs.hb cy.wait hnew) bb hle' h
      refine hb.dominated ?_ ?_
      · rintro c j ((h | h) | ⟨x, hx, rfl, ha⟩ | ⟨h1, h2, h3⟩)
        · exact .inl h
        · exact .inr (.inl (o1 c j (.inl h)))
        · rcases List.mem_append.1 hx with hx | hx
          · exact .inr (.inl (o1 _ j (.inr ⟨x, hx, rfl, ha⟩)))
          · refine .inr (.inr ?_)
            have hx1 := (hnew x hx).1
            rw [hx1]
            refine ⟨by omega, fun m hm hm' => ?_, (hnew x hx).2.2.acc ha.acc⟩
            have : m = i := by omega
            rw [this]; exact h0
        · refine .inr (.inr ⟨by omega, fun m hm hm' => ?_, h3⟩)
          by_cases hmi : m = i
          · rw [hmi]; exact h0
          · exact h2 m (by omega) hm'
      · rintro c j (h | h | ⟨h1, h2, h3⟩)
        · exact ⟨c, Nat.le_refl _, .inl (.inl h)⟩
        · rcases o2 c j h with h | ⟨c', hc, x, hx, hx1, hx2⟩
          · exact ⟨c, Nat.le_refl _, .inl (.inr h)⟩
          · exact ⟨c', hc, .inr (.inl ⟨x, by simp [hx], hx1, hx2⟩)⟩
        · by_cases hc : c = i + 1
          · subst hc
            obtain ⟨s', hr, has⟩ := h3.reach
            obtain ⟨x, hx, rfl⟩ := hC s' hr has.1
            refine ⟨x.res.cap0, ?_, .inr (.inl ⟨x, hx, rfl, has⟩)⟩
            exact (waiting_add hs.closed hs.hb cy.wait hnew).le x hx
          · exact ⟨c, Nat.le_refl _, .inr (.inr ⟨by omega, fun m hm hm' => h2 m (by omega) hm', h3⟩)⟩

/-- `matchAfter`: the longest of the runs that begin at the first possible place, up to the first NUL -/
theorem matchAfter_spec {P : Prog} {t : List UCS4} {junk fuel : Nat} {R : Nat → Prop} {a j b : Nat}
    (hs : Shape P R P.searchStation a j P.startStation b) (off : Nat) (r : RVal)
    (h : P.matchAfter junk fuel t off = .ok r) :
    BestLL r (fun c j => off ≤ c ∧ NoNul t off c ∧ Acc P t c b j) := by
  unfold Prog.matchAfter matchRun matchFrom at h
  obtain ⟨x, hrun, hx⟩ := hbind h
  clear h
  cases hx
  obtain ⟨cur, hcur, h⟩ := hbind hrun
  clear hrun
  have hsp : ∃ fuel', addthread P t junk fuel' false ⟨P.searchStation, RVal.new P.maxCounter P.maxCapture⟩ off
      [P.searchStation] 0 [] = .ok cur := by
    match fuel with
    | 0 => cases hcur
    | fuel + 1 =>
      dsimp only at hcur
      rw [addthread, if_neg (by simp)] at hcur
      obtain ⟨_, -, hcur⟩ := hbind hcur
      exact ⟨fuel, hcur⟩
  obtain ⟨fuel', hsp⟩ := hsp
  have hne := hs.ne
  obtain ⟨new, rfl, hnew, hC⟩ := add_split hs fuel' _ off [P.searchStation] [] cur (by simp) (by simp [hne])
    (by simpa using hs.nS) hsp
  have hw := waiting_add hs.closed hs.hb (ns := []) ⟨by simp, by simp, by simp, by simp⟩ hnew
  simp only [List.nil_append] at h hC hw
  have := searchLoop_spec hs _ off new _ .fail (fun _ _ => False) x rfl hw (by simp [BestLL, RVal.fail]) (by simp) h
  refine this.congr fun c j => ?_
  constructor
  · rintro (h | ⟨th, hth, rfl, ha⟩ | ⟨h1, h2, h3⟩)
    · exact h.elim
    · rw [(hnew th hth).1]
      exact ⟨Nat.le_refl _, fun m h1 h2 => by omega, (hnew th hth).2.2.acc ha.acc⟩
    · exact ⟨by omega, h2, h3⟩
  · rintro ⟨h1, h2, h3⟩
    by_cases hc : c = off
    · subst hc
      obtain ⟨s', hr, has⟩ := h3.reach
      obtain ⟨x, hx, rfl⟩ := hC s' hr has.1
      exact .inr (.inl ⟨x, hx, (hnew x hx).1.symm, has⟩)
    · exact .inr (.inr ⟨by omega, h2, h3⟩)

end Strpp.Rx
