import Verif.Spec.RxDump
import Verif.Proof.RxTotal
/-! The disassembly of a program. -/
set_option linter.unusedSimpArgs false
set_option linter.unusedVariables false
namespace Strpp.Rx
open Spec

theorem same32_wrap (z : Int) : Same32 z (wrap32 z) := by
  unfold Same32 wrap32; omega

theorem same16_byte (b : Byte) : Same16 ((b.toNat : Int) - 1) (byteMinus1 b) := by
  unfold Same16 byteMinus1
  have := b.isLt
  split <;> omega

theorem getStation_of {m p r} (h : getOffset m p = .ok r) : getStation m p = .ok (wrap32 (p + r.1), r.2) := by
  unfold getStation; rw [h]; rfl

theorem getStation_ok {m p r} (h : getStation m p = .ok r) : ∃ o, getOffset m p = .ok (o, r.2) ∧ r.1 = wrap32 (p + o) := by
  unfold getStation at h
  obtain ⟨a, h1, h⟩ := hbind h
  cases h
  exact ⟨a.1, h1, rfl⟩

/-! ### Names -/

theorem getNames_len {m : List Byte} : ∀ (n p : Nat) (r : List (List Byte) × Nat), getNames m n p = .ok r → r.1.length = n := by
  intro n
  induction n with
  | zero => intro p r h; cases h; rfl
  | succ n ih =>
    intro p r h
    unfold getNames at h
    obtain ⟨t, h1, h⟩ := hbind h
    obtain ⟨q, h2, h⟩ := hbind h
    cases h
    rw [List.length_cons, ih _ _ h2]

theorem skip_names {m : List Byte} : ∀ (n p : Nat) (r : List (List Byte) × Nat), getNames m n p = .ok r → ∀ k, k < n →
    ∃ q t q', skipNames m k p = .ok q ∧ getText m q = .ok (t, q') ∧ r.1[k]? = some t := by
  intro n
  induction n with
  | zero => intro p r h k hk; omega
  | succ n ih =>
    intro p r h k hk
    unfold getNames at h
    obtain ⟨t, h1, h⟩ := hbind h
    obtain ⟨q, h2, h⟩ := hbind h
    cases h
    cases k with
    | zero => exact ⟨p, t.1, t.2, rfl, h1, rfl⟩
    | succ k =>
      obtain ⟨a, b, c, e1, e2, e3⟩ := ih _ _ h2 k (by omega)
      unfold getText at h1
      obtain ⟨u, h3, h1⟩ := hbind h1
      split at h1
      · cases h1
        refine ⟨a, b, c, ?_, e2, by simpa using e3⟩
        unfold skipNames
        rw [h3, res_bind_ok]; exact e1
      · cases h1

/-- what `RxProgram` read -/
theorem load_parts {m : List Byte} {P : Prog} (h : Prog.load m = .ok P) :
    ∃ (search start : Int × Nat) (st : UCS4 × Nat) (mc mcap nn : Byte) (names : List (List Byte) × Nat),
      rd m 0 = .ok opStart ∧ getOffset m 1 = .ok search ∧ getOffset m search.2 = .ok start ∧ utf8Get m start.2 = .ok st ∧
      rd m st.2 = .ok mc ∧ rd m (st.2 + 1) = .ok mcap ∧ rd m (st.2 + 2) = .ok nn ∧
      getNames m (nn.toNat - 1) (st.2 + 3) = .ok names ∧ wrap32 (search.2 + start.1) = names.2 ∧
      P = { nfa := m, startStation := wrap32 (search.2 + start.1), searchStation := wrap32 (1 + search.1), maxStation := st.1.toNat,
            maxCounter := mc.toNat, maxCapture := mcap.toNat, names := names.1 } := by
  unfold Prog.load at h
  obtain ⟨op, h0, h⟩ := hbind h
  obtain ⟨_, ha, h⟩ := hbind h
  obtain ⟨se, h1, h⟩ := hbind h
  obtain ⟨stt, h2, h⟩ := hbind h
  obtain ⟨ms, h3, h⟩ := hbind h
  obtain ⟨mc, h4, h⟩ := hbind h
  obtain ⟨mcap, h5, h⟩ := hbind h
  obtain ⟨nn, h6, h⟩ := hbind h
  obtain ⟨names, h7, h⟩ := hbind h
  obtain ⟨_, hb, h⟩ := hbind h
  cases h
  obtain ⟨o1, g1, e1⟩ := getStation_ok h1
  obtain ⟨o2, g2, e2⟩ := getStation_ok h2
  have hop : op = opStart := by
    unfold assert at ha
    split at ha
    · rename_i hh; simpa using hh
    · cases ha
  have hst : stt.1 = names.2 := by
    unfold assert at hb
    split at hb
    · rename_i hh; simpa using hh
    · cases hb
  subst hop
  refine ⟨(o1, se.2), (o2, stt.2), ms, mc, mcap, nn, names, h0, g1, g2, h3, h4, h5, h6, h7, ?_, ?_⟩
  · rw [← hst, e2]
  · simp only [e1, e2]; rfl

theorem load_nfa {m : List Byte} {P : Prog} (h : Prog.load m = .ok P) : P.nfa = m := by
  obtain ⟨_, _, _, _, _, _, _, -, -, -, -, -, -, -, -, -, rfl⟩ := load_parts h
  rfl

/-- the name shown is the one the matcher has -/
theorem dumpName_of {m : List Byte} {P : Prog} (hP : Prog.load m = .ok P) {k : Int} {name : List Byte} (h : dumpName m k = .ok name) :
    NameOf P k name := by
  obtain ⟨se, stt, st, mc, mcap, nn, names, h0, h1, h2, h3, h4, h5, h6, h7, -, rfl⟩ := load_parts hP
  unfold NameOf
  unfold dumpName at h
  by_cases hk : k = 0
  · rw [if_pos hk] at h ⊢; cases h; rfl
  rw [if_neg hk] at h ⊢
  rw [h0, res_bind_ok, show assert (opStart == opStart) = .ok () from rfl, res_bind_ok, h1, res_bind_ok, h2, res_bind_ok, h3,
    res_bind_ok, h6, res_bind_ok] at h
  have hl := getNames_len _ _ _ h7
  simp only [hl]
  by_cases hc : k ≤ 0 ∨ (nn.toNat : Int) - 1 < k
  · rw [if_pos hc] at h
    cases h
    rw [if_neg (by omega)]
    decide +kernel
  · rw [if_neg hc] at h
    rw [if_pos (by omega)]
    obtain ⟨p, hp, h⟩ := hbind h
    obtain ⟨r, hr, h⟩ := hbind h
    obtain ⟨_, ha, h⟩ := hbind h
    obtain ⟨q, t, q', e1, e2, e3⟩ := skip_names _ _ _ h7 (k.toNat - 1) (by omega)
    rw [hp] at e1; cases e1
    unfold getText at e2
    rw [hr, res_bind_ok] at e2
    split at e2
    · rename_i hlen
      rw [if_pos hlen] at h
      cases h; cases e2
      exact e3
    · cases e2

/-! ### An instruction -/

/-- what is known when a line was printed -/
structure Printed (P : Prog) (s : Nat) (l : Line) (n : Nat) (c : Bool) (i : Instr) : Prop where
  dec : P.decode s = .ok i
  shows_ : ShowsInstr P s l i
  null : c = false ↔ l = .null
  next : c = true → (s = 0 ∨ ∀ a b, i ≠ .start a b) → i ≠ .token → following i = some n
  good : ∀ op, l ≠ .illegal op

set_option maxHeartbeats 1000000 in
theorem dump_shows {m : List Byte} {P : Prog} (hP : Prog.load m = .ok P) {s : Nat} {l : Line} {n : Nat} {c : Bool}
    (h : dumpInstruction m s = .ok (l, n, c)) :
    (∃ i, Printed P s l n c i) ∨ (∃ op, l = .illegal op ∧ m[s]? = some op ∧ c = false ∧ P.decode s = .error .assertion) := by
  have hn := load_nfa hP
  unfold dumpInstruction at h
  obtain ⟨op, hop, h⟩ := hbind h
  have hop' : rd P.nfa s = .ok op := by rw [hn]; exact hop
  simp only at h
  by_cases o1 : op = opNull
  · subst o1
    replace h : (Except.ok (Line.null, s + 1, false) : Res _) = .ok (l, n, c) := h
    cases h
    refine .inl ⟨.null (s + 1), ⟨?_, trivial, by simp, by simp, by simp⟩⟩
    unfold Prog.decode; rw [hop']; rfl
  by_cases o2 : op = opStart
  · subst o2
    replace h : dumpStart m (s + 1) = .ok (l, n, c) := h
    unfold dumpStart at h
    obtain ⟨se, g1, h⟩ := hbind h
    obtain ⟨stt, g2, h⟩ := hbind h
    obtain ⟨st, g3, h⟩ := hbind h
    obtain ⟨mc, g4, h⟩ := hbind h
    obtain ⟨mcap, g5, h⟩ := hbind h
    obtain ⟨nn, g6, h⟩ := hbind h
    obtain ⟨names, g7, h⟩ := hbind h
    cases h
    refine .inl ⟨.start P.startStation P.searchStation, ⟨?_, ?_, by simp, ?_, by simp⟩⟩
    · unfold Prog.decode; rw [hop']; rfl
    · rintro rfl
      obtain ⟨se', stt', st', mc', mcap', nn', names', -, h1, h2, h3, h4, h5, h6, h7, he, rfl⟩ := load_parts hP
      rw [show 0 + 1 = 1 from rfl, h1] at g1; cases g1
      rw [h2] at g2; cases g2
      rw [h3] at g3; cases g3
      rw [h4] at g4; cases g4
      rw [h5] at g5; cases g5
      rw [h6] at g6; cases g6
      rw [h7] at g7; cases g7
      exact ⟨same32_wrap _, same32_wrap _, rfl, rfl, rfl, rfl⟩
    · rintro - (rfl | h) -
      · obtain ⟨se', stt', st', mc', mcap', nn', names', -, h1, h2, h3, h4, h5, h6, h7, he, rfl⟩ := load_parts hP
        rw [show 0 + 1 = 1 from rfl, h1] at g1; cases g1
        rw [h2] at g2; cases g2
        rw [h3] at g3; cases g3
        rw [h6] at g6; cases g6
        rw [h7] at g7; cases g7
        exact congrArg some he
      · exact absurd rfl (h _ _)
  by_cases o3 : op = opAccept
  · subst o3
    replace h : (Except.ok (Line.accept, s + 1, true) : Res _) = .ok (l, n, c) := h
    cases h
    refine .inl ⟨.accept (s + 1), ⟨?_, trivial, by simp, fun _ _ _ => rfl, by simp⟩⟩
    unfold Prog.decode; rw [hop']; rfl
  by_cases o4 : op = opChar
  · subst o4
    replace h : (utf8Get m (s + 1) >>= fun r => (Except.ok (Line.char r.1 ((m.drop (s + 1)).take (r.2 - (s + 1))), r.2, true) : Res _)) = .ok (l, n, c) := h
    obtain ⟨r, g, h⟩ := hbind h
    cases h
    refine .inl ⟨.char r.1 r.2, ⟨?_, ⟨rfl, by rw [hn]⟩, by simp, fun _ _ _ => rfl, by simp⟩⟩
    unfold Prog.decode; rw [hop', res_bind_ok, hn]
    show (utf8Get m (s + 1) >>= fun r => (.ok (.char r.1 r.2) : Res Instr)) = _
    rw [g]; rfl
  by_cases o5 : op = opBOL
  · subst o5
    replace h : (Except.ok (Line.bol, s + 1, true) : Res _) = .ok (l, n, c) := h
    cases h
    refine .inl ⟨.bol (s + 1), ⟨?_, trivial, by simp, fun _ _ _ => rfl, by simp⟩⟩
    unfold Prog.decode; rw [hop']; rfl
  by_cases o6 : op = opEOL
  · subst o6
    replace h : (Except.ok (Line.eol, s + 1, true) : Res _) = .ok (l, n, c) := h
    cases h
    refine .inl ⟨.eol (s + 1), ⟨?_, trivial, by simp, fun _ _ _ => rfl, by simp⟩⟩
    unfold Prog.decode; rw [hop']; rfl
  by_cases o7 : op = opAny
  · subst o7
    replace h : (Except.ok (Line.any, s + 1, true) : Res _) = .ok (l, n, c) := h
    cases h
    refine .inl ⟨.any (s + 1), ⟨?_, trivial, by simp, fun _ _ _ => rfl, by simp⟩⟩
    unfold Prog.decode; rw [hop']; rfl
  by_cases o8 : op = opJump
  · subst o8
    replace h : (getOffset m (s + 1) >>= fun r => (Except.ok (Line.jump r.1 (s + 1 + r.1), r.2, true) : Res _)) = .ok (l, n, c) := h
    obtain ⟨r, g, h⟩ := hbind h
    cases h
    refine .inl ⟨.jump (wrap32 (s + 1 + r.1)) r.2, ⟨?_, ⟨rfl, same32_wrap _⟩, by simp, fun _ _ _ => rfl, by simp⟩⟩
    unfold Prog.decode; rw [hop', res_bind_ok, hn]
    show (getStation m (s + 1) >>= fun r => (.ok (.jump r.1 r.2) : Res Instr)) = _
    rw [getStation_of g]; rfl
  by_cases o9 : op = opSplit
  · subst o9
    replace h : (getOffset m (s + 1) >>= fun r => (Except.ok (Line.split r.1 (s + 1 + r.1), r.2, true) : Res _)) = .ok (l, n, c) := h
    obtain ⟨r, g, h⟩ := hbind h
    cases h
    refine .inl ⟨.split (wrap32 (s + 1 + r.1)) r.2, ⟨?_, ⟨rfl, same32_wrap _⟩, by simp, fun _ _ _ => rfl, by simp⟩⟩
    unfold Prog.decode; rw [hop', res_bind_ok, hn]
    show (getStation m (s + 1) >>= fun r => (.ok (.split r.1 r.2) : Res Instr)) = _
    rw [getStation_of g]; rfl
  by_cases o10 : op = opCapStart
  · subst o10
    replace h : (rd m (s + 1) >>= fun n => dumpName m ((n.toNat : Int) - 1) >>= fun name =>
      (Except.ok (Line.capStart name ((n.toNat : Int) - 1), s + 1 + 1, true) : Res _)) = .ok (l, n, c) := h
    obtain ⟨b, g, h⟩ := hbind h
    obtain ⟨name, g2, h⟩ := hbind h
    cases h
    refine .inl ⟨.capStart ((b.toNat : Int) - 1) (s + 1 + 1), ⟨?_, ⟨rfl, dumpName_of hP g2⟩, by simp, fun _ _ _ => rfl, by simp⟩⟩
    unfold Prog.decode; rw [hop', res_bind_ok, hn]
    show (rd m (s + 1) >>= fun n => (.ok (.capStart ((n.toNat : Int) - 1) (s + 1 + 1)) : Res Instr)) = _
    rw [g]; rfl
  by_cases o11 : op = opCapEnd
  · subst o11
    replace h : (rd m (s + 1) >>= fun n => dumpName m ((n.toNat : Int) - 1) >>= fun name =>
      (Except.ok (Line.capEnd name ((n.toNat : Int) - 1), s + 1 + 1, true) : Res _)) = .ok (l, n, c) := h
    obtain ⟨b, g, h⟩ := hbind h
    obtain ⟨name, g2, h⟩ := hbind h
    cases h
    refine .inl ⟨.capEnd ((b.toNat : Int) - 1) (s + 1 + 1), ⟨?_, ⟨rfl, dumpName_of hP g2⟩, by simp, fun _ _ _ => rfl, by simp⟩⟩
    unfold Prog.decode; rw [hop', res_bind_ok, hn]
    show (rd m (s + 1) >>= fun n => (.ok (.capEnd ((n.toNat : Int) - 1) (s + 1 + 1)) : Res Instr)) = _
    rw [g]; rfl
  by_cases o12 : op = opNegLook
  · subst o12
    replace h : (getOffset m (s + 1) >>= fun r => (Except.ok (Line.negLook r.1 (s + 1 + r.1), r.2, true) : Res _)) = .ok (l, n, c) := h
    obtain ⟨r, g, h⟩ := hbind h
    cases h
    refine .inl ⟨.negLook (wrap32 (s + 1 + r.1)) r.2, ⟨?_, ⟨rfl, same32_wrap _⟩, by simp, fun _ _ _ => rfl, by simp⟩⟩
    unfold Prog.decode; rw [hop', res_bind_ok, hn]
    show (getStation m (s + 1) >>= fun r => (.ok (.negLook r.1 r.2) : Res Instr)) = _
    rw [getStation_of g]; rfl
  by_cases o13 : op = opProp
  · subst o13
    replace h : (getText m (s + 1) >>= fun r => (Except.ok (Line.prop r.1, r.2, true) : Res _)) = .ok (l, n, c) := h
    obtain ⟨r, g, h⟩ := hbind h
    cases h
    refine .inl ⟨.prop r.1 r.2, ⟨?_, rfl, by simp, fun _ _ _ => rfl, by simp⟩⟩
    unfold Prog.decode; rw [hop', res_bind_ok, hn]
    show (getText m (s + 1) >>= fun r => (.ok (.prop r.1 r.2) : Res Instr)) = _
    rw [g]; rfl
  by_cases o14 : op = opClass
  · subst o14
    replace h : (getText m (s + 1) >>= fun r => (Except.ok (Line.cls false r.1, r.2, true) : Res _)) = .ok (l, n, c) := h
    obtain ⟨r, g, h⟩ := hbind h
    cases h
    refine .inl ⟨.cls false r.1 r.2, ⟨?_, ⟨rfl, rfl⟩, by simp, fun _ _ _ => rfl, by simp⟩⟩
    unfold Prog.decode; rw [hop', res_bind_ok, hn]
    show (getText m (s + 1) >>= fun r => (.ok (.cls false r.1 r.2) : Res Instr)) = _
    rw [g]; rfl
  by_cases o15 : op = opNegClass
  · subst o15
    replace h : (getText m (s + 1) >>= fun r => (Except.ok (Line.cls true r.1, r.2, true) : Res _)) = .ok (l, n, c) := h
    obtain ⟨r, g, h⟩ := hbind h
    cases h
    refine .inl ⟨.cls true r.1 r.2, ⟨?_, ⟨rfl, rfl⟩, by simp, fun _ _ _ => rfl, by simp⟩⟩
    unfold Prog.decode; rw [hop', res_bind_ok, hn]
    show (getText m (s + 1) >>= fun r => (.ok (.cls true r.1 r.2) : Res Instr)) = _
    rw [g]; rfl
  by_cases o16 : op = opZero
  · subst o16
    replace h : (Except.ok (Line.zero, s + 1, true) : Res _) = .ok (l, n, c) := h
    cases h
    refine .inl ⟨.zero (s + 1), ⟨?_, trivial, by simp, fun _ _ _ => rfl, by simp⟩⟩
    unfold Prog.decode; rw [hop']; rfl
  by_cases o17 : op = opCount
  · subst o17
    replace h : (rd m (s + 1) >>= fun mn => rd m (s + 1 + 1) >>= fun mx => getOffset m (s + 1 + 2) >>= fun r =>
      (Except.ok (Line.count ((mn.toNat : Int) - 1) ((mx.toNat : Int) - 1) r.1 (s + 3 + r.1), r.2, true) : Res _)) = .ok (l, n, c) := h
    obtain ⟨mn, g1, h⟩ := hbind h
    obtain ⟨mx, g2, h⟩ := hbind h
    obtain ⟨r, g, h⟩ := hbind h
    cases h
    refine .inl ⟨.count (byteMinus1 mn) (byteMinus1 mx) (wrap32 (s + 3 + r.1)) r.2,
      ⟨?_, ⟨same16_byte _, same16_byte _, rfl, same32_wrap _⟩, by simp, fun _ _ _ => rfl, by simp⟩⟩
    unfold Prog.decode; rw [hop', res_bind_ok, hn]
    show (rd m (s + 1) >>= fun a => rd m (s + 1 + 1) >>= fun b => getStation m (s + 1 + 2) >>= fun r =>
      (.ok (.count (byteMinus1 a) (byteMinus1 b) r.1 r.2) : Res Instr)) = _
    rw [g1, res_bind_ok, g2, res_bind_ok, getStation_of g]
    rfl
  have hdec : P.decode s = if op.toNat ≤ 6 then .ok .token else .error .assertion := by
    unfold Prog.decode; rw [hop', res_bind_ok]
    simp only [beq_iff_eq, o1, o2, o3, o4, o5, o6, o7, o8, o9, o10, o11, o12, o13, o14, o15, o16, o17, if_false]
  simp only [beq_iff_eq, o1, o2, o3, o4, o5, o6, o7, o8, o9, o10, o11, o12, o13, o14, o15, o16, o17, if_false] at h
  by_cases h6 : op.toNat ≤ 6
  · rw [if_pos h6] at h hdec
    have ht : l = .error op ∧ c = true := by
      unfold dumpToken at h
      split at h
      · cases h; exact ⟨rfl, rfl⟩
      split at h
      · obtain ⟨_, -, h⟩ := hbind h; cases h; exact ⟨rfl, rfl⟩
      split at h
      · obtain ⟨_, -, h⟩ := hbind h; obtain ⟨_, -, h⟩ := hbind h; obtain ⟨_, -, h⟩ := hbind h; cases h; exact ⟨rfl, rfl⟩
      split at h
      · obtain ⟨_, -, h⟩ := hbind h; cases h; exact ⟨rfl, rfl⟩
      · obtain ⟨_, -, h⟩ := hbind h; obtain ⟨_, -, h⟩ := hbind h; cases h; exact ⟨rfl, rfl⟩
    obtain ⟨rfl, rfl⟩ := ht
    refine .inl ⟨.token, ⟨hdec, ?_, by simp, by simp, by simp⟩⟩
    show P.nfa[s]? = some op
    exact rd_eq_ok.1 hop'
  · rw [if_neg h6] at h hdec
    cases h
    exact .inr ⟨op, rfl, rd_eq_ok.1 hop, rfl, hdec⟩

/-! ### Progress -/

theorem getFall_gt {m : List Byte} {sp : Nat} {b0 : Byte} : ∀ (k : Nat) (ch : UCS4) (cp : Nat) (r : UCS4 × Nat), sp ≤ cp →
    utf8GetFall m sp b0 k ch cp = .ok r → sp < r.2 := by
  intro k
  induction k with
  | zero => intro ch cp r hc h; simp only [utf8GetFall] at h; cases h; exact Nat.lt_succ_self _
  | succ k ih =>
    intro ch cp r hc h
    cases k with
    | zero => simp only [utf8GetFall] at h; cases h; show sp < cp + 1; omega
    | succ k =>
      unfold utf8GetFall at h
      obtain ⟨b, -, h⟩ := hbind h
      split at h
      · cases h; exact Nat.lt_succ_self _
      · exact ih _ _ _ (by omega) h

theorem get_gt {m : List Byte} {p : Nat} {r : UCS4 × Nat} (h : utf8Get m p = .ok r) : p < r.2 := by
  unfold utf8Get at h
  obtain ⟨b, -, h⟩ := hbind h
  exact getFall_gt _ _ _ _ (Nat.le_refl _) h

theorem get_lt {m : List Byte} {p : Nat} {r : UCS4 × Nat} (h : utf8Get m p = .ok r) : p < m.length := by
  unfold utf8Get at h
  obtain ⟨b, h, -⟩ := hbind h
  rw [rd_eq_ok] at h
  by_cases hp : p < m.length
  · exact hp
  · rw [List.getElem?_eq_none (by omega)] at h; cases h

theorem rd_pos {m : List Byte} {p : Nat} {b : Byte} (h : rd m p = .ok b) : p < m.length := by
  rw [rd_eq_ok] at h
  by_cases hp : p < m.length
  · exact hp
  · rw [List.getElem?_eq_none (by omega)] at h; cases h

theorem zagzig_small (v : UCS4) : (zagzig v).natAbs ≤ 2 ^ 30 := by
  unfold zagzig
  have h1 := BitVec.toInt_lt (x := v)
  have h2 := BitVec.le_toInt (x := v)
  simp only [Nat.reduceSub] at h1 h2
  split <;> omega

theorem getOffset_step {m : List Byte} {p : Nat} {r : Int × Nat} (h : getOffset m p = .ok r) :
    p < r.2 ∧ p < m.length ∧ -(2 ^ 30 : Int) ≤ r.1 ∧ r.1 ≤ 2 ^ 30 := by
  unfold getOffset at h
  obtain ⟨a, h1, h⟩ := hbind h
  cases h
  have := zagzig_small a.1
  refine ⟨get_gt h1, get_lt h1, ?_, ?_⟩
  · show _ ≤ zagzig a.1; omega
  · show zagzig a.1 ≤ _; omega

theorem getText_gt {m : List Byte} {p : Nat} {r : List Byte × Nat} (h : getText m p = .ok r) : p < r.2 := by
  unfold getText at h
  obtain ⟨a, h1, h⟩ := hbind h
  have := get_gt h1
  split at h
  · cases h; show p < a.2 + _; omega
  · cases h

theorem getNames_ge {m : List Byte} : ∀ (n p : Nat) (r : List (List Byte) × Nat), getNames m n p = .ok r → p ≤ r.2 := by
  intro n
  induction n with
  | zero => intro p r h; cases h; exact Nat.le_refl _
  | succ n ih =>
    intro p r h
    unfold getNames at h
    obtain ⟨t, h1, h⟩ := hbind h
    obtain ⟨q, h2, h⟩ := hbind h
    cases h
    have := getText_gt h1
    have := ih _ _ h2
    show p ≤ q.2
    omega

theorem ite_elim {α : Type} {c : Prop} [Decidable c] {a b x : α} {Q : Prop} (h : (if c then a else b) = x) (ha : a = x → Q) (hb : b = x → Q) : Q := by
  split at h
  · exact ha h
  · exact hb h

/-- the next line is further on, and the places shown are numbers near the program -/
theorem dump_step {m : List Byte} {s : Nat} {l : Line} {n : Nat} {c : Bool} (h : dumpInstruction m s = .ok (l, n, c)) :
    s < n ∧ ∀ t ∈ targets l, -(2 ^ 30 : Int) ≤ t ∧ t ≤ m.length + 3 + 2 ^ 30 := by
  unfold dumpInstruction at h
  obtain ⟨op, hop, h⟩ := hbind h
  have hs := rd_pos hop
  refine ite_elim h (fun h => ?_) fun h => ?_
  · cases h; exact ⟨by omega, by simp [targets]⟩
  refine ite_elim h (fun h => ?_) fun h => ?_
  · unfold dumpStart at h
    obtain ⟨se, g1, h⟩ := hbind h
    obtain ⟨stt, g2, h⟩ := hbind h
    obtain ⟨st, g3, h⟩ := hbind h
    obtain ⟨mc, g4, h⟩ := hbind h
    obtain ⟨mcap, g5, h⟩ := hbind h
    obtain ⟨nn, g6, h⟩ := hbind h
    obtain ⟨names, g7, h⟩ := hbind h
    cases h
    have := getOffset_step g1
    have := getOffset_step g2
    have := get_gt g3
    have := getNames_ge _ _ _ g7
    refine ⟨by omega, ?_⟩
    intro t ht
    simp only [targets, List.mem_cons, List.not_mem_nil, or_false] at ht
    rcases ht with rfl | rfl
    · constructor <;> omega
    · constructor <;> omega
  refine ite_elim h (fun h => ?_) fun h => ?_
  · cases h; exact ⟨by omega, by simp [targets]⟩
  refine ite_elim h (fun h => ?_) fun h => ?_
  · obtain ⟨r, g, h⟩ := hbind h
    cases h
    have := get_gt g
    exact ⟨by omega, by simp [targets]⟩
  refine ite_elim h (fun h => ?_) fun h => ?_
  · cases h; exact ⟨by omega, by simp [targets]⟩
  refine ite_elim h (fun h => ?_) fun h => ?_
  · cases h; exact ⟨by omega, by simp [targets]⟩
  refine ite_elim h (fun h => ?_) fun h => ?_
  · cases h; exact ⟨by omega, by simp [targets]⟩
  refine ite_elim h (fun h => ?_) fun h => ?_
  · obtain ⟨r, g, h⟩ := hbind h
    cases h
    have := getOffset_step g
    refine ⟨by omega, ?_⟩
    simp only [targets, List.mem_cons, List.not_mem_nil, or_false]
    rintro t rfl; constructor <;> omega
  refine ite_elim h (fun h => ?_) fun h => ?_
  · obtain ⟨r, g, h⟩ := hbind h
    cases h
    have := getOffset_step g
    refine ⟨by omega, ?_⟩
    simp only [targets, List.mem_cons, List.not_mem_nil, or_false]
    rintro t rfl; constructor <;> omega
  refine ite_elim h (fun h => ?_) fun h => ?_
  · obtain ⟨r, g, h⟩ := hbind h
    obtain ⟨_, -, h⟩ := hbind h
    cases h; exact ⟨by omega, by simp [targets]⟩
  refine ite_elim h (fun h => ?_) fun h => ?_
  · obtain ⟨r, g, h⟩ := hbind h
    obtain ⟨_, -, h⟩ := hbind h
    cases h; exact ⟨by omega, by simp [targets]⟩
  refine ite_elim h (fun h => ?_) fun h => ?_
  · obtain ⟨r, g, h⟩ := hbind h
    cases h
    have := getOffset_step g
    refine ⟨by omega, ?_⟩
    simp only [targets, List.mem_cons, List.not_mem_nil, or_false]
    rintro t rfl; constructor <;> omega
  refine ite_elim h (fun h => ?_) fun h => ?_
  · obtain ⟨r, g, h⟩ := hbind h
    cases h
    have := getText_gt g
    exact ⟨by omega, by simp [targets]⟩
  refine ite_elim h (fun h => ?_) fun h => ?_
  · obtain ⟨r, g, h⟩ := hbind h
    cases h
    have := getText_gt g
    exact ⟨by omega, by simp [targets]⟩
  refine ite_elim h (fun h => ?_) fun h => ?_
  · obtain ⟨r, g, h⟩ := hbind h
    cases h
    have := getText_gt g
    exact ⟨by omega, by simp [targets]⟩
  refine ite_elim h (fun h => ?_) fun h => ?_
  · cases h; exact ⟨by omega, by simp [targets]⟩
  refine ite_elim h (fun h => ?_) fun h => ?_
  · obtain ⟨_, -, h⟩ := hbind h
    obtain ⟨_, -, h⟩ := hbind h
    obtain ⟨r, g, h⟩ := hbind h
    cases h
    have := getOffset_step g
    refine ⟨by omega, ?_⟩
    simp only [targets, List.mem_cons, List.not_mem_nil, or_false]
    rintro t rfl; constructor <;> omega
  refine ite_elim h (fun h => ?_) fun h => ?_
  · unfold dumpToken at h
    split at h
    · cases h; exact ⟨by omega, by simp [targets]⟩
    split at h
    · obtain ⟨r, g, h⟩ := hbind h; cases h; have := get_gt g; exact ⟨by omega, by simp [targets]⟩
    split at h
    · obtain ⟨r, g, h⟩ := hbind h; obtain ⟨_, -, h⟩ := hbind h; obtain ⟨_, -, h⟩ := hbind h; cases h
      have := get_gt g; exact ⟨by omega, by simp [targets]⟩
    split at h
    · obtain ⟨r, g, h⟩ := hbind h; cases h; have := getText_gt g; exact ⟨by omega, by simp [targets]⟩
    · obtain ⟨_, -, h⟩ := hbind h; obtain ⟨_, -, h⟩ := hbind h; cases h; exact ⟨by omega, by simp [targets]⟩
  · cases h; exact ⟨by omega, by simp [targets]⟩

/-! ### The loop -/

/-- the lines of the loop -/
theorem dumpFrom_lines {m : List Byte} : ∀ (fuel s : Nat) (ls : List (Nat × Line)), dumpFrom m fuel s = .ok ls →
    (∀ x, ls[0]? = some x → x.1 = s) ∧
    ∀ (k : Nat) (x : Nat × Line), ls[k]? = some x → ∃ n c, dumpInstruction m x.1 = .ok (x.2, n, c) ∧
      (c = false → k + 1 = ls.length) ∧ ∀ (y : Nat × Line), ls[k + 1]? = some y → c = true ∧ y.1 = n := by
  intro fuel
  induction fuel with
  | zero => intro s ls h; cases h
  | succ fuel ih =>
    intro s ls h
    unfold dumpFrom at h
    split at h
    · obtain ⟨r, h1, h⟩ := hbind h
      split at h
      · rename_i hc
        obtain ⟨ls', h2, h⟩ := hbind h
        cases h
        obtain ⟨i1, i2⟩ := ih _ _ h2
        refine ⟨by rintro x hx; cases hx; rfl, ?_⟩
        intro k x hx
        cases k with
        | zero =>
          cases hx
          exact ⟨r.2.1, r.2.2, h1, (fun e => by rw [hc] at e; cases e), fun y hy => ⟨hc, i1 y hy⟩⟩
        | succ k =>
          obtain ⟨n, c, a1, a2, a3⟩ := i2 k x (by simpa using hx)
          exact ⟨n, c, a1, (fun e => by rw [List.length_cons, ← a2 e]), fun y hy => a3 y (by simpa using hy)⟩
      · cases h
        refine ⟨by rintro x hx; cases hx; rfl, ?_⟩
        intro k x hx
        cases k with
        | zero =>
          cases hx
          exact ⟨r.2.1, r.2.2, h1, fun _ => rfl, fun y hy => by cases hy⟩
        | succ k => cases hx
    · cases h
      exact ⟨(fun x hx => by cases hx), fun k x hx => by cases hx⟩

theorem ends_get (m : List Byte) (p : Nat) : Ends (utf8Get m p) := (ends_rd m p).bind fun b _ => ends_getFall m p b _ _ _

theorem ends_getText (m : List Byte) (p : Nat) : Ends (getText m p) :=
  (ends_get m p).bind fun _ _ => ends_ite (fun _ => ends_ok _) fun _ => ends_ub

theorem ends_getNames (m : List Byte) : ∀ (n p : Nat), Ends (getNames m n p)
  | 0, _ => ends_ok _
  | n + 1, p => (ends_getText m p).bind fun _ _ => (ends_getNames m n _).bind fun _ _ => ends_ok _

theorem ends_skipNames (m : List Byte) : ∀ (n p : Nat), Ends (skipNames m n p)
  | 0, _ => ends_ok _
  | n + 1, p => (ends_get m p).bind fun _ _ => ends_skipNames m n _

theorem ends_dumpName (m : List Byte) (i : Int) : Ends (dumpName m i) :=
  ends_ite (fun _ => ends_ok _) fun _ => (ends_rd m 0).bind fun _ _ => (ends_assert _).bind fun _ _ =>
    (ends_getOffset m 1).bind fun _ _ => (ends_getOffset m _).bind fun _ _ => (ends_get m _).bind fun _ _ =>
    (ends_rd m _).bind fun _ _ => ends_ite (fun _ => ends_ok _) fun _ => (ends_skipNames m _ _).bind fun _ _ =>
    (ends_get m _).bind fun _ _ => (ends_assert _).bind fun _ _ => ends_ite (fun _ => ends_ok _) fun _ => ends_ub

theorem ends_dumpStart (m : List Byte) (p : Nat) : Ends (dumpStart m p) :=
  (ends_getOffset m p).bind fun _ _ => (ends_getOffset m _).bind fun _ _ => (ends_get m _).bind fun _ _ =>
    (ends_rd m _).bind fun _ _ => (ends_rd m _).bind fun _ _ => (ends_rd m _).bind fun _ _ =>
    (ends_getNames m _ _).bind fun _ _ => ends_ok _

theorem ends_dumpToken (m : List Byte) (op : Byte) (p : Nat) : Ends (dumpToken m op p) :=
  ends_ite (fun _ => ends_ok _) fun _ => ends_ite (fun _ => (ends_get m _).bind fun _ _ => ends_ok _) fun _ =>
    ends_ite (fun _ => (ends_get m _).bind fun _ _ => (ends_rd m _).bind fun _ _ => (ends_dumpName m _).bind fun _ _ => ends_ok _) fun _ =>
    ends_ite (fun _ => (ends_getText m _).bind fun _ _ => ends_ok _) fun _ =>
    (ends_rd m _).bind fun _ _ => (ends_rd m _).bind fun _ _ => ends_ok _

theorem ends_dumpInstruction (m : List Byte) (s : Nat) : Ends (dumpInstruction m s) :=
  (ends_rd m s).bind fun _ _ =>
  ends_ite (fun _ => ends_ok _) fun _ =>
  ends_ite (fun _ => ends_dumpStart m _) fun _ =>
  ends_ite (fun _ => ends_ok _) fun _ =>
  ends_ite (fun _ => (ends_get m _).bind fun _ _ => ends_ok _) fun _ =>
  ends_ite (fun _ => ends_ok _) fun _ =>
  ends_ite (fun _ => ends_ok _) fun _ =>
  ends_ite (fun _ => ends_ok _) fun _ =>
  ends_ite (fun _ => (ends_getOffset m _).bind fun _ _ => ends_ok _) fun _ =>
  ends_ite (fun _ => (ends_getOffset m _).bind fun _ _ => ends_ok _) fun _ =>
  ends_ite (fun _ => (ends_rd m _).bind fun _ _ => (ends_dumpName m _).bind fun _ _ => ends_ok _) fun _ =>
  ends_ite (fun _ => (ends_rd m _).bind fun _ _ => (ends_dumpName m _).bind fun _ _ => ends_ok _) fun _ =>
  ends_ite (fun _ => (ends_getOffset m _).bind fun _ _ => ends_ok _) fun _ =>
  ends_ite (fun _ => (ends_getText m _).bind fun _ _ => ends_ok _) fun _ =>
  ends_ite (fun _ => (ends_getText m _).bind fun _ _ => ends_ok _) fun _ =>
  ends_ite (fun _ => (ends_getText m _).bind fun _ _ => ends_ok _) fun _ =>
  ends_ite (fun _ => ends_ok _) fun _ =>
  ends_ite (fun _ => (ends_rd m _).bind fun _ _ => (ends_rd m _).bind fun _ _ => (ends_getOffset m _).bind fun _ _ => ends_ok _) fun _ =>
  ends_ite (fun _ => ends_dumpToken m _ _) fun _ => ends_ok _

/-- The loop ends: there are at most as many lines as bytes -/
theorem dumpFrom_ends (m : List Byte) : ∀ (fuel s : Nat), m.length ≤ fuel + s → Ends (dumpFrom m (fuel + 1) s) := by
  intro fuel
  induction fuel with
  | zero =>
    intro s hl
    unfold dumpFrom
    rw [if_neg (by omega)]
    exact ends_ok _
  | succ fuel ih =>
    intro s hl
    unfold dumpFrom
    refine ends_ite (fun hs => (ends_dumpInstruction m s).bind fun r hr => ends_ite (fun _ => Ends.bind (ih _ ?_) fun _ _ => ends_ok _) fun _ => ends_ok _) fun _ => ends_ok _
    have := (dump_step (l := r.1) (n := r.2.1) (c := r.2.2) hr).1
    omega

/-! ### The instructions of an expression, one after the other -/

/-- instructions in the code of expressions -/
def Instr.lists : Instr → Bool
  | .char .. | .prop .. | .cls .. | .bol _ | .eol _ | .any _ | .accept _ | .jump .. | .split .. | .zero _ | .count .. => true
  | .capStart k _ => decide (k = 0)
  | _ => false

/-- they are printed -/
theorem dump_of_decode {P : Prog} (hP : Prog.load P.nfa = .ok P) {s : Nat} {i : Instr} (h : P.decode s = .ok i) (hi : i.lists = true) :
    ∃ l n, dumpInstruction P.nfa s = .ok (l, n, true) ∧ following i = some n ∧ ShowsInstr P s l i ∧ l ≠ .null ∧ ∀ op, l ≠ .error op := by
  have key : ∃ l n, dumpInstruction P.nfa s = .ok (l, n, true) := by
    have h0 := h
    unfold Prog.decode at h
    obtain ⟨op, hop, h⟩ := hbind h
    unfold dumpInstruction
    rw [hop, res_bind_ok]
    simp only at h ⊢
    by_cases o2 : op = opStart
    · subst o2
      replace h : (.ok (.start P.startStation P.searchStation) : Res Instr) = .ok i := h
      cases h; cases hi
    rw [if_neg (by simpa using o2)] at h
    by_cases o4 : op = opChar
    · subst o4
      obtain ⟨r, g, h⟩ := hbind (show (utf8Get P.nfa (s + 1) >>= fun r => (.ok (.char r.1 r.2) : Res Instr)) = .ok i from h)
      exact ⟨_, r.2, by show (utf8Get P.nfa (s + 1) >>= fun r => _) = _; rw [g]; rfl⟩
    rw [if_neg (by simpa using o4)] at h
    by_cases o13 : op = opProp
    · subst o13
      obtain ⟨r, g, h⟩ := hbind (show (getText P.nfa (s + 1) >>= fun r => (.ok (.prop r.1 r.2) : Res Instr)) = .ok i from h)
      exact ⟨_, r.2, by show (getText P.nfa (s + 1) >>= fun r => _) = _; rw [g]; rfl⟩
    rw [if_neg (by simpa using o13)] at h
    by_cases o14 : op = opClass
    · subst o14
      obtain ⟨r, g, h⟩ := hbind (show (getText P.nfa (s + 1) >>= fun r => (.ok (.cls false r.1 r.2) : Res Instr)) = .ok i from h)
      exact ⟨_, r.2, by show (getText P.nfa (s + 1) >>= fun r => _) = _; rw [g]; rfl⟩
    rw [if_neg (by simpa using o14)] at h
    by_cases o15 : op = opNegClass
    · subst o15
      obtain ⟨r, g, h⟩ := hbind (show (getText P.nfa (s + 1) >>= fun r => (.ok (.cls true r.1 r.2) : Res Instr)) = .ok i from h)
      exact ⟨_, r.2, by show (getText P.nfa (s + 1) >>= fun r => _) = _; rw [g]; rfl⟩
    rw [if_neg (by simpa using o15)] at h
    by_cases o5 : op = opBOL
    · subst o5; exact ⟨_, _, rfl⟩
    rw [if_neg (by simpa using o5)] at h
    by_cases o6 : op = opEOL
    · subst o6; exact ⟨_, _, rfl⟩
    rw [if_neg (by simpa using o6)] at h
    by_cases o7 : op = opAny
    · subst o7; exact ⟨_, _, rfl⟩
    rw [if_neg (by simpa using o7)] at h
    by_cases o3 : op = opAccept
    · subst o3; exact ⟨_, _, rfl⟩
    rw [if_neg (by simpa using o3)] at h
    by_cases o16 : op = opZero
    · subst o16; exact ⟨_, _, rfl⟩
    rw [if_neg (by simpa using o16)] at h
    by_cases o12 : op = opNegLook
    · subst o12
      obtain ⟨r, g, h⟩ := hbind (show (getStation P.nfa (s + 1) >>= fun r => (.ok (.negLook r.1 r.2) : Res Instr)) = .ok i from h)
      cases h; cases hi
    rw [if_neg (by simpa using o12)] at h
    by_cases o8 : op = opJump
    · subst o8
      obtain ⟨r, g, h⟩ := hbind (show (getStation P.nfa (s + 1) >>= fun r => (.ok (.jump r.1 r.2) : Res Instr)) = .ok i from h)
      obtain ⟨o, g, -⟩ := getStation_ok g
      exact ⟨_, r.2, by show (getOffset P.nfa (s + 1) >>= fun r => _) = _; rw [g]; rfl⟩
    rw [if_neg (by simpa using o8)] at h
    by_cases o9 : op = opSplit
    · subst o9
      obtain ⟨r, g, h⟩ := hbind (show (getStation P.nfa (s + 1) >>= fun r => (.ok (.split r.1 r.2) : Res Instr)) = .ok i from h)
      obtain ⟨o, g, -⟩ := getStation_ok g
      exact ⟨_, r.2, by show (getOffset P.nfa (s + 1) >>= fun r => _) = _; rw [g]; rfl⟩
    rw [if_neg (by simpa using o9)] at h
    by_cases o17 : op = opCount
    · subst o17
      obtain ⟨a, g1, h⟩ := hbind (show (rd P.nfa (s + 1) >>= fun a => rd P.nfa (s + 1 + 1) >>= fun b => getStation P.nfa (s + 1 + 2) >>= fun r =>
        (.ok (.count (byteMinus1 a) (byteMinus1 b) r.1 r.2) : Res Instr)) = .ok i from h)
      obtain ⟨b, g2, h⟩ := hbind h
      obtain ⟨r, g, h⟩ := hbind h
      obtain ⟨o, g, -⟩ := getStation_ok g
      exact ⟨_, r.2, by
        show (rd P.nfa (s + 1) >>= fun a => rd P.nfa (s + 1 + 1) >>= fun b => getOffset P.nfa (s + 1 + 2) >>= fun r => _) = _
        rw [g1, res_bind_ok, g2, res_bind_ok, g]; rfl⟩
    rw [if_neg (by simpa using o17)] at h
    by_cases o10 : op = opCapStart
    · subst o10
      obtain ⟨b, g, h⟩ := hbind (show (rd P.nfa (s + 1) >>= fun n => (.ok (.capStart ((n.toNat : Int) - 1) (s + 1 + 1)) : Res Instr)) = .ok i from h)
      cases h
      have hz : (b.toNat : Int) - 1 = 0 := by simpa [Instr.lists] using hi
      exact ⟨_, s + 1 + 1, by
        show (rd P.nfa (s + 1) >>= fun n => dumpName P.nfa ((n.toNat : Int) - 1) >>= fun name => _) = _
        rw [g, res_bind_ok, hz]; rfl⟩
    rw [if_neg (by simpa using o10)] at h
    by_cases o11 : op = opCapEnd
    · subst o11
      obtain ⟨b, g, h⟩ := hbind (show (rd P.nfa (s + 1) >>= fun n => (.ok (.capEnd ((n.toNat : Int) - 1) (s + 1 + 1)) : Res Instr)) = .ok i from h)
      cases h; cases hi
    rw [if_neg (by simpa using o11)] at h
    split at h
    · cases h; cases hi
    split at h
    · cases h; cases hi
    · cases h
  obtain ⟨l, n, hd⟩ := key
  rcases dump_shows hP hd with ⟨i', hp⟩ | ⟨op, -, -, hc, -⟩
  · have := hp.dec
    rw [h] at this; cases this
    refine ⟨l, n, hd, hp.next rfl (.inr ?_) ?_, hp.shows_, (fun e => by have := hp.null.2 e; cases this), ?_⟩
    · rintro a b rfl; cases hi
    · rintro rfl; cases hi
    · rintro op rfl
      have := hp.shows_
      cases i <;> first | exact this | cases hi
  · cases hc

end Strpp.Rx
