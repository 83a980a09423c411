import Verif.Proof.RxPass1
import Verif.Proof.RxProg
/-! The compiler as a whole. -/
set_option linter.unusedSimpArgs false
set_option linter.unusedVariables false
namespace Strpp.Rx
open Spec

/-- all the tokens of an expression -/
def allToks (r : Re) : List Ev := .tok .start :: ((toks r []).1 ++ flush (toks r []).2) ++ [.tok .accept]

theorem allToks_noerr (r : Re) : (allToks r).any Ev.isErr = false := by
  unfold allToks
  simp only [List.cons_append, List.any_cons, List.any_append, toks_noerr, flush_noerr]; rfl

/-- what the first pass leaves for the second -/
structure Counted (r : Re) (p : P1) : Prop where
  names : p.names = []
  stack : p.stack = []
  lo : 11 + bcost r ≤ p.bytes
  off : 5 + ocost r ≤ p.offsets
  up : p.bytes + 4 * p.offsets ≤ 31 + weight r
  st : p.stations + 10 ≤ p.bytes + r.excess
  sc : r.chars + (if r.plain then 0 else 1) + 1 ≤ p.stations

theorem first_all (r : Re) (hw : r.wf true) : Pass1 (allToks r) P1.init (depth r ≤ 11) (Counted r) := by
  have e1 : allToks r = [.tok .start] ++ ((toks r []).1 ++ (flush (toks r []).2 ++ [.tok .accept])) := by
    simp [allToks, List.append_assoc]
  rw [e1]
  refine Pass1.append (ok1 := True) (ok2 := depth r ≤ 11) rfl (Pass1.some (Q := fun s => s = ⟨6, 3, 0, 1, [], false, [(.start, true)]⟩) rfl rfl)
    (by simp) fun s1 h1 => ?_
  subst h1
  refine Pass1.append (ok2 := True) (toks_noerr r []) ((first_spec r).1 true hw _ [] .start true [] rfl (by simp))
    (by simp; omega) fun s2 h2 => ?_
  obtain ⟨h2, b', hs2, -⟩ := h2
  refine Pass1.append (ok1 := True) (ok2 := True) (flush_noerr _) (pass1_flush s2 _) (by simp) fun s3 h3 => ?_
  obtain ⟨h3, hs3⟩ := h3
  have h := h2.trans h3 (l := bcost r) (o := ocost r) (u := weight r) (c := places true r) (x := r.excess) (by omega) (by omega) (by omega) (by omega) (by omega)
  refine Pass1.some (s' := { s3 with bytes := s3.bytes + 1 + 4, offsets := s3.offsets + 2, stations := s3.stations + 1, repeatable := false, stack := s3.stack.drop 1 }) rfl ⟨h.names, ?_, ?_, ?_, ?_, ?_, ?_⟩
  · simp only [hs3, hs2]; rfl
  · have := h.lo; simp only at this ⊢; omega
  · have := h.off; simp only at this ⊢; omega
  · have := h.up; simp only at this ⊢; omega
  · have := h.st; simp only at this ⊢; omega
  · have := h.sc
    simp only [List.length_nil] at this ⊢
    have h1 := places_chars r true
    have h2 := places_more r true hw
    cases hp : r.plain with
    | true => simp only [if_true]; omega
    | false => have := h2 hp; simp only [Bool.false_eq_true, if_false]; omega

theorem push_nest {s s' : P1} {k : GKind} (h : s.push k = some s') (hs : s.maxNest ≤ 12) : s'.maxNest ≤ 12 := by
  unfold P1.push at h
  split at h
  · cases h
  · rename_i hl
    cases h
    have : maxNesting = 12 := rfl
    show max s.maxNest (s.stack.length + 1) ≤ 12
    omega

/-- the number of counters -/
theorem firstPass_nest {s s' : P1} {t : Tok} (h : firstPass s t = .ok (some s')) (hs : s.maxNest ≤ 12) : s'.maxNest ≤ 12 := by
  cases t with
  | start =>
    unfold firstPass at h
    dsimp only at h
    generalize hp : P1.push _ GKind.start = o at h
    cases o with
    | none => cases h; exact hs
    | some s1 => cases h; exact push_nest hp hs
  | accept | lit | bol | eol | any | cls | prop => cases h; exact hs
  | group =>
    have h : P1.push { s with bytes := s.bytes + 1, repeatable := false } .group = some s' := by injection h
    exact push_nest h hs
  | negLook =>
    have h : (P1.push { s with bytes := s.bytes + 1, repeatable := false, stations := s.stations + 1 } .negLook).map (fun s => { s with offsets := s.offsets + 1 }) = some s' := by injection h
    obtain ⟨s1, h1, rfl⟩ := Option.map_eq_some_iff.1 h
    exact push_nest (s' := s1) h1 hs
  | capture name =>
    unfold firstPass at h
    dsimp only at h
    split at h
    · cases h
    · split at h
      · cases h
      · injection h with h
        obtain ⟨s1, h1, rfl⟩ := Option.map_eq_some_iff.1 h
        exact push_nest (s' := s1) h1 hs
  | endGroup =>
    unfold firstPass at h
    dsimp only at h
    split at h <;> cases h <;> exact hs
  | alternate =>
    unfold firstPass at h
    dsimp only at h
    split at h <;> cases h <;> exact hs
  | rep mn mx =>
    unfold firstPass at h
    dsimp only at h
    repeat' split at h
    all_goals cases h <;> exact hs

theorem runPass_nest : ∀ (evs : List Ev) (s : P1) (p : P1 × Bool), runPass firstPass evs s = .ok p → s.maxNest ≤ 12 → p.1.maxNest ≤ 12
  | [], s, p, h, hs => by cases h; exact hs
  | .err _ :: evs, s, p, h, hs => by
    rw [runPass] at h
    obtain ⟨q, h1, h⟩ := hbind h
    cases h
    exact runPass_nest evs s q h1 hs
  | .tok t :: evs, s, p, h, hs => by
    rw [runPass] at h
    obtain ⟨o, h1, h⟩ := hbind h
    cases o with
    | none => cases h; exact hs
    | some s1 => exact runPass_nest evs s1 p h (firstPass_nest h1 hs)

theorem lenOf_small (n : Nat) (h : n < 2048) : lenOf n = if n < 128 then 1 else 2 := by
  unfold lenOf
  have hn : (BitVec.ofNat 32 n).toNat = n := by rw [BitVec.toNat_ofNat, Nat.mod_eq_of_lt (by omega)]
  rw [utf8LenCh_small _ (by omega), hn]
  by_cases h1 : n < 128
  · rw [if_pos (by omega), if_pos h1]
  · rw [if_neg (by omega), if_pos (by omega), if_neg h1]

/-- the space that is reserved -/
theorem env_of (p : P1) (h : p.bytes + 4 * p.offsets ≤ 1023) :
    EnvOK (Env.of p) ∧ p.bytes ≤ (Env.of p).bytes ∧
      ((p.bytes + 4 * p.offsets ≤ 63 ∨ 128 ≤ p.bytes + 2 * p.offsets) → (Env.of p).bytes = p.bytes + p.offsets * (Env.of p).omb) := by
  unfold Env.of EnvOK
  simp only
  have a1 : ∃ k, lenOf (2 * (p.bytes + p.offsets * 4)) = k ∧ 1 ≤ k ∧ k ≤ 2 := by
    refine ⟨_, rfl, ?_, ?_⟩ <;> rw [lenOf_small _ (by omega)] <;> split <;> omega
  obtain ⟨k, hk, hk1, hk2⟩ := a1
  rw [hk]
  have hok : p.offsets ≤ p.offsets * k ∧ p.offsets * k ≤ 2 * p.offsets := by
    constructor
    · exact Nat.le_mul_of_pos_right _ hk1
    · rw [Nat.mul_comm]; exact Nat.mul_le_mul_right _ hk2
  rw [lenOf_small (2 * (p.bytes + p.offsets * k)) (by omega)]
  by_cases h1 : 2 * (p.bytes + p.offsets * k) < 128
  · rw [if_pos h1, lenOf_small _ (by omega), if_pos (by omega)]
    refine ⟨.inl ⟨rfl, by omega⟩, by omega, fun _ => rfl⟩
  · rw [if_neg h1, lenOf_small _ (by omega)]
    refine ⟨.inr ⟨rfl, ?_⟩, ?_, ?_⟩
    · split <;> omega
    · split <;> omega
    · rintro (hh | hh)
      · omega
      · rw [if_neg (by omega)]

/-! ### The header -/

/-- the header after the search offset -/
def headRest (ot : Int) (st mn : Nat) : List Byte :=
  offsetBytes ot ++ offsetBytes st ++ [BitVec.ofNat 8 mn, 1#8, 1#8] ++ [opCapStart, 1#8]

theorem runs_start (e : Env) (he : EnvOK e) (hn : e.names = []) :
    Runs ((offsetBytes (e.stations : Int)).length ≤ e.omb ∧ 6 + 3 * e.omb < e.bytes) (genTok e ⟨[], [], 0, 0⟩ .start) (fun s' => (∃ ot : Int,
      ot = (offsetBytes ot).length + (offsetBytes (e.stations : Int)).length + 3 ∧ ot.natAbs < 2 ^ 30 ∧ (offsetBytes ot).length ≤ e.omb ∧
      s'.buf = opStart :: paddedOffset e 0 ++ headRest ot e.stations e.maxNest ∧
      s'.stack = [⟨.start, 0, 0, s'.buf.length, 0⟩]) ∧ s'.buf.length < e.bytes) := by
  refine Runs.tok ?_
  show Runs _ (genStart e ⟨[], [], 0, 0⟩ >>= fun r => .ok r) _
  unfold genStart
  simp only [hn, emitStrings, res_bind_ok, List.length_nil]
  rw [res_assoc]
  refine Runs.bind (runs_emit e _ _) (fun hr => by simp) fun b1 h1 => ?_
  obtain ⟨rfl, h1⟩ := h1
  rw [res_assoc]
  refine Runs.bind (runs_emit e _ _) (fun hr => by simp only [List.length_append, List.length_cons, List.length_nil, padded_len]; omega) fun b2 h2 => ?_
  obtain ⟨rfl, h2⟩ := h2
  rw [res_assoc]
  refine Runs.bind (runs_emit e _ _) (fun hr => by simp only [List.length_append, List.length_cons, List.length_nil, padded_len]; omega) fun b3 h3 => ?_
  obtain ⟨rfl, h3⟩ := h3
  rw [res_assoc]
  refine Runs.bind (runs_emit e _ _) (fun hr => by simp only [List.length_append, List.length_cons, List.length_nil, padded_len]; omega) fun b4 h4 => ?_
  obtain ⟨rfl, h4⟩ := h4
  rw [res_assoc]
  refine Runs.bind (runs_emit e _ _) (fun hr => by simp only [List.length_append, List.length_cons, List.length_nil, padded_len]; omega) fun b5 h5 => ?_
  obtain ⟨rfl, h5⟩ := h5
  simp only [List.length_append, List.length_cons, List.length_nil, padded_len] at h5
  obtain ⟨ot, hp, o1, o2, o3, o4, -⟩ := patch_exact e he ([] ++ [opStart] ++ paddedOffset e 0) (paddedOffset e 0)
    (offsetBytes (e.stations : Int) ++ [BitVec.ofNat 8 e.maxNest, 1#8, 1#8]) (1 + e.omb)
    ([] ++ [opStart] ++ paddedOffset e 0 ++ paddedOffset e 0 ++ offsetBytes (e.stations : Int) ++ [BitVec.ofNat 8 e.maxNest, 1#8, 1#8]).length
    ((offsetBytes (e.stations : Int)).length + 3)
    (by simp only [List.length_append, List.length_cons, List.length_nil, padded_len]) (padded_len e 0)
    (by simp only [List.length_append, List.length_cons, List.length_nil, padded_len]; omega) (by omega)
  have e1 : [] ++ [opStart] ++ paddedOffset e 0 ++ paddedOffset e 0 ++ (offsetBytes (e.stations : Int) ++ [BitVec.ofNat 8 e.maxNest, 1#8, 1#8]) =
    [] ++ [opStart] ++ paddedOffset e 0 ++ paddedOffset e 0 ++ offsetBytes (e.stations : Int) ++ [BitVec.ofNat 8 e.maxNest, 1#8, 1#8] := by
    simp [List.append_assoc]
  rw [e1] at hp
  show Runs _ ((patchOffset e ([] ++ [opStart] ++ paddedOffset e 0 ++ paddedOffset e 0 ++ offsetBytes (e.stations : Int) ++
    [BitVec.ofNat 8 e.maxNest, 1#8, 1#8]) (1 + e.omb) _ >>= _) >>= _) _
  rw [hp, res_bind_ok, res_assoc]
  refine Runs.bind (runs_emit e _ _) (fun hr => by simp only [List.length_append, List.length_cons, List.length_nil, padded_len]; omega) fun b6 h6 => ?_
  obtain ⟨rfl, h6⟩ := h6
  have e2 : [] ++ [opStart] ++ paddedOffset e 0 ++ offsetBytes ot ++ (offsetBytes (e.stations : Int) ++ [BitVec.ofNat 8 e.maxNest, 1#8, 1#8]) ++ [opCapStart, 1#8] =
    opStart :: paddedOffset e 0 ++ headRest ot e.stations e.maxNest := by simp [headRest, List.append_assoc]
  simp only [e2]
  refine Runs.ok ⟨⟨ot, by omega, o4, o3, rfl, rfl⟩, fun hr => ?_⟩
  show (opStart :: paddedOffset e 0 ++ headRest ot e.stations e.maxNest).length < _
  simp only [headRest, List.length_append, List.length_cons, List.length_nil, padded_len]; omega

/-- the finished program -/
def finished (os ot w1 w2 : Int) (st mn : Nat) (bs : List Byte) : List Byte :=
  opStart :: offsetBytes os ++ headRest ot st mn ++ bs ++ [opAccept] ++ (opSplit :: offsetBytes w1) ++ [opAny] ++ (opJump :: offsetBytes w2)

structure Fin (e : Env) (r : Re) (nfa : List Byte) : Prop where
  ex : ∃ (os ot w1 w2 : Int) (mn : Nat) (bs : List Byte), nfa = finished os ot w1 w2 e.stations mn bs ∧ mn ≤ 12 ∧ Code true r bs ∧
    os = (offsetBytes os).length + (headRest ot e.stations mn).length + bs.length + 1 ∧ os.natAbs < 2 ^ 30 ∧
    ot = (offsetBytes ot).length + (offsetBytes (e.stations : Int)).length + 3 ∧ ot.natAbs < 2 ^ 30 ∧
    w1 = -(2 + bs.length + 1 + 1 : Int) ∧ w1.natAbs < 2 ^ 30 ∧ w2 = -(1 + (offsetBytes w1).length + 2 : Int) ∧ w2.natAbs < 2 ^ 30

theorem runs_accept (e : Env) (he : EnvOK e) (r : Re) (s : P2) (f : Frame) (fs : List Frame) (cs : List Re)
    (X y : List Byte) (r' : Re) (ot : Int) (mn : Nat) (hs : s.stack = f :: fs)
    (hot : ot = (offsetBytes ot).length + (offsetBytes (e.stations : Int)).length + 3) (hot2 : ot.natAbs < 2 ^ 30)
    (hot3 : (offsetBytes ot).length ≤ e.omb) (hmn : mn ≤ 12)
    (hc : f.contents = (opStart :: paddedOffset e 0 ++ headRest ot e.stations mn).length)
    (hR : Region e (opStart :: paddedOffset e 0 ++ headRest ot e.stations mn).length cs X f.lastJump)
    (hb : s.buf = (opStart :: paddedOffset e 0 ++ headRest ot e.stations mn) ++ X ++ y) (hy : Code true r' y) (hr : cs.foldr .alt r' = r)
    (hl : s.buf.length ≤ e.bytes + 1) :
    Runs ((offsetBytes (e.stations : Int)).length ≤ e.omb ∧ 10 + 5 * e.omb + X.length + y.length < e.bytes) (genTok e s .accept) (fun s' => Fin e r s'.buf ∧ s'.buf.length < e.bytes) := by
  refine Runs.tok ?_
  show Runs _ (genAccept e { s with lastAtom := s.buf.length }) _
  unfold genAccept
  simp only [hs]
  have homb : e.omb ≤ 2 := by rcases he with h | h <;> omega
  have hH : (opStart :: paddedOffset e 0 ++ headRest ot e.stations mn).length =
      1 + e.omb + ((offsetBytes ot).length + (offsetBytes (e.stations : Int)).length + 5) := by
    simp only [headRest, List.length_append, List.length_cons, List.length_nil, padded_len]; omega
  have hlen := hl
  rw [hb, List.length_append, List.length_append] at hlen
  obtain ⟨bs, q1, q2, q3⟩ := runs_fixup e he (opStart :: paddedOffset e 0 ++ headRest ot e.stations mn) (by omega) f cs X y r' hc hR hy (by omega)
  rw [hr] at q2
  rw [hb, q1, res_bind_ok]
  refine Runs.bind (runs_emit e _ _) (fun hroom => by
    rw [List.length_append, hH]; simp only [List.length_cons, List.length_nil]; omega) fun b1 h1 => ?_
  obtain ⟨rfl, h1⟩ := h1
  rw [List.length_append, hH] at h1
  simp only [List.length_cons, List.length_nil] at h1
  obtain ⟨os, hp, o1, o2, o3, o4, -⟩ := patch_exact e he [opStart] (paddedOffset e 0) (headRest ot e.stations mn ++ bs ++ [opAccept]) 1
    (opStart :: paddedOffset e 0 ++ headRest ot e.stations mn ++ bs ++ [opAccept]).length
    ((headRest ot e.stations mn).length + bs.length + 1) (by simp) (padded_len e 0)
    (by simp only [List.length_append, List.length_cons, List.length_nil, padded_len]; omega)
    (by simp only [headRest, List.length_append, List.length_cons, List.length_nil]; omega)
  have e1 : [opStart] ++ paddedOffset e 0 ++ (headRest ot e.stations mn ++ bs ++ [opAccept]) =
    opStart :: paddedOffset e 0 ++ headRest ot e.stations mn ++ bs ++ [opAccept] := by simp [List.append_assoc]
  rw [e1] at hp
  rw [hp, res_bind_ok]
  have hcp : 1 + e.omb - (e.omb - (offsetBytes os).length) = 1 + (offsetBytes os).length := by omega
  simp only [hcp]
  have hget : getOffset ([opStart] ++ offsetBytes os ++ (headRest ot e.stations mn ++ bs ++ [opAccept])) (1 + (offsetBytes os).length) =
      .ok (ot, 1 + (offsetBytes os).length + (offsetBytes ot).length) := by
    have := getOffset_put ([opStart] ++ offsetBytes os) ot ((offsetBytes (e.stations : Int) ++ [BitVec.ofNat 8 mn, 1#8, 1#8] ++
      [opCapStart, 1#8]) ++ bs ++ [opAccept]) hot2
    have hl2 : ([opStart] ++ offsetBytes os).length = 1 + (offsetBytes os).length := by simp only [List.length_append, List.length_cons, List.length_nil]
    rw [hl2] at this
    rw [← this]
    congr 1
    simp [headRest, List.append_assoc]
  rw [hget, res_bind_ok]
  have hb2 : ([opStart] ++ offsetBytes os ++ (headRest ot e.stations mn ++ bs ++ [opAccept])).length =
      1 + (offsetBytes os).length + ((offsetBytes ot).length + (offsetBytes (e.stations : Int)).length + 5) + bs.length + 1 := by
    simp only [headRest, List.length_append, List.length_cons, List.length_nil]; omega
  refine Runs.bind (runs_emit e _ _) (fun hroom => by
    rw [hb2]; simp only [List.length_cons, List.length_nil]; omega) fun b3 h3 => ?_
  obtain ⟨rfl, h3⟩ := h3
  rw [hb2] at h3
  simp only [List.length_cons, List.length_nil] at h3
  have hw1 : ((1 + (offsetBytes os).length : Nat) : Int) + ot -
      ([opStart] ++ offsetBytes os ++ (headRest ot e.stations mn ++ bs ++ [opAccept]) ++ [opSplit]).length = -(2 + bs.length + 1 + 1 : Int) := by
    rw [List.length_append, hb2]; simp only [List.length_cons, List.length_nil]; omega
  rw [hw1]
  have hw1l := off_le e he (-(2 + bs.length + 1 + 1 : Int)) (by omega)
  refine Runs.bind (runs_emit e _ _) (fun hroom => by
    rw [List.length_append, hb2]; simp only [List.length_cons, List.length_nil]; omega) fun b4 h4 => ?_
  obtain ⟨rfl, h4⟩ := h4
  refine Runs.bind (runs_emit e _ _) (fun hroom => by
    rw [List.length_append, List.length_append, hb2]; simp only [List.length_cons, List.length_nil]; omega) fun b5 h5 => ?_
  obtain ⟨rfl, h5⟩ := h5
  have hw2 : (([opStart] ++ offsetBytes os ++ (headRest ot e.stations mn ++ bs ++ [opAccept])).length : Int) -
      ([opStart] ++ offsetBytes os ++ (headRest ot e.stations mn ++ bs ++ [opAccept]) ++ [opSplit] ++
        offsetBytes (-(2 + bs.length + 1 + 1 : Int)) ++ [opAny, opJump]).length =
      -(1 + (offsetBytes (-(2 + bs.length + 1 + 1 : Int))).length + 2 : Int) := by
    simp only [headRest, List.length_append, List.length_cons, List.length_nil]; omega
  rw [hw2]
  have hw2l := off_le e he (-(1 + (offsetBytes (-(2 + bs.length + 1 + 1 : Int))).length + 2 : Int)) (by
    simp only [List.length_append, List.length_cons, List.length_nil] at h5
    omega)
  refine Runs.bind (runs_emit e _ _) (fun hroom => by
    simp only [headRest, List.length_append, List.length_cons, List.length_nil] at hb2 ⊢; omega) fun b6 h6 => ?_
  obtain ⟨rfl, h6⟩ := h6
  refine Runs.ok ⟨⟨os, ot, _, _, mn, bs, ?_, hmn, q2, by omega, o4, hot, hot2, rfl, hw1l.2.2, rfl, hw2l.2.2⟩, fun hroom => ?_⟩
  · show _ ++ _ = _
    unfold finished
    simp [List.append_assoc]
  · show (_ ++ _ : List Byte).length < _
    simp only [headRest, List.length_append, List.length_cons, List.length_nil] at hb2 ⊢; omega

/-! ### Loading -/

theorem rd_app (A : List Byte) (x : Byte) (B : List Byte) (i : Nat) (h : i = A.length) : rd (A ++ x :: B) i = .ok x := by
  subst h; rw [rd_eq_ok]; simp

theorem fin_load (e : Env) (he : EnvOK e) (hst : e.stations < 2 ^ 30) (r : Re) (hsc : r.chars + (if r.plain then 0 else 1) + 1 ≤ e.stations) (nfa : List Byte) (h : Fin e r nfa) (hl : nfa.length < e.bytes) :
    ∃ P, Prog.load (nfa ++ [opNull]) = .ok P ∧ P.nfa = nfa ++ [opNull] ∧ Compiled r P := by
  obtain ⟨os, ot, w1, w2, mn, bs, rfl, hmn, hc, a1, a2, b1, b2, c1, c2, d1, d2⟩ := h.ex
  have hbytes : e.bytes ≤ 1023 := by rcases he with h | h <;> omega
  have hR : (headRest ot e.stations mn).length = (offsetBytes ot).length + (offsetBytes (e.stations : Int)).length + 5 := by
    simp only [headRest, List.length_append, List.length_cons, List.length_nil]
  -- the parts of the program
  generalize hN : finished os ot w1 w2 e.stations mn bs ++ [opNull] = N
  have hlen : N.length < 1025 := by rw [← hN, List.length_append]; simp only [List.length_cons, List.length_nil]; omega
  have n0 : N = [] ++ opStart :: (offsetBytes os ++ headRest ot e.stations mn ++ bs ++ [opAccept] ++ (opSplit :: offsetBytes w1) ++ [opAny] ++
      (opJump :: offsetBytes w2) ++ [opNull]) := by rw [← hN]; simp [finished, List.append_assoc]
  have n1 : N = [opStart] ++ offsetBytes os ++ (headRest ot e.stations mn ++ bs ++ [opAccept] ++ (opSplit :: offsetBytes w1) ++ [opAny] ++
      (opJump :: offsetBytes w2) ++ [opNull]) := by rw [n0]; simp [List.append_assoc]
  have n2 : N = ([opStart] ++ offsetBytes os) ++ offsetBytes ot ++ (offsetBytes (e.stations : Int) ++ [BitVec.ofNat 8 mn, 1#8, 1#8] ++
      [opCapStart, 1#8] ++ bs ++ [opAccept] ++ (opSplit :: offsetBytes w1) ++ [opAny] ++ (opJump :: offsetBytes w2) ++ [opNull]) := by
    rw [n0]; simp [headRest, List.append_assoc]
  have n3 : N = ([opStart] ++ offsetBytes os ++ offsetBytes ot) ++ utf8Put (zigzag (e.stations : Int)) ++ ([BitVec.ofNat 8 mn, 1#8, 1#8] ++
      [opCapStart, 1#8] ++ bs ++ [opAccept] ++ (opSplit :: offsetBytes w1) ++ [opAny] ++ (opJump :: offsetBytes w2) ++ [opNull]) := by
    rw [n2]; simp [offsetBytes, List.append_assoc]
  have n4 : N = ([opStart] ++ offsetBytes os ++ offsetBytes ot ++ offsetBytes (e.stations : Int)) ++ BitVec.ofNat 8 mn :: (1#8 :: 1#8 ::
      ([opCapStart, 1#8] ++ bs ++ [opAccept] ++ (opSplit :: offsetBytes w1) ++ [opAny] ++ (opJump :: offsetBytes w2) ++ [opNull])) := by
    rw [n2]; simp [List.append_assoc]
  have n5 : N = ([opStart] ++ offsetBytes os ++ offsetBytes ot ++ offsetBytes (e.stations : Int) ++ [BitVec.ofNat 8 mn]) ++ 1#8 :: (1#8 ::
      ([opCapStart, 1#8] ++ bs ++ [opAccept] ++ (opSplit :: offsetBytes w1) ++ [opAny] ++ (opJump :: offsetBytes w2) ++ [opNull])) := by
    rw [n4]; simp [List.append_assoc]
  have n6 : N = ([opStart] ++ offsetBytes os ++ offsetBytes ot ++ offsetBytes (e.stations : Int) ++ [BitVec.ofNat 8 mn, 1#8]) ++ 1#8 ::
      ([opCapStart, 1#8] ++ bs ++ [opAccept] ++ (opSplit :: offsetBytes w1) ++ [opAny] ++ (opJump :: offsetBytes w2) ++ [opNull]) := by
    rw [n4]; simp [List.append_assoc]
  have n7 : N = ([opStart] ++ offsetBytes os ++ offsetBytes ot ++ offsetBytes (e.stations : Int) ++ [BitVec.ofNat 8 mn, 1#8, 1#8]) ++
      ([opCapStart, 1#8] ++ bs ++ [opAccept]) ++ ((opSplit :: offsetBytes w1) ++ [opAny] ++ (opJump :: offsetBytes w2) ++ [opNull]) := by
    rw [n4]; simp [List.append_assoc]
  have n8 : N = ([opStart] ++ offsetBytes os ++ offsetBytes ot ++ offsetBytes (e.stations : Int) ++ [BitVec.ofNat 8 mn, 1#8, 1#8] ++
      ([opCapStart, 1#8] ++ bs ++ [opAccept])) ++ ((opSplit :: offsetBytes w1) ++ [opAny] ++ (opJump :: offsetBytes w2)) ++ [opNull] := by
    rw [n7]; simp [List.append_assoc]
  have hNl : N.length = 1 + (offsetBytes os).length + ((offsetBytes ot).length + (offsetBytes (e.stations : Int)).length + 5) + bs.length + 1 +
      (1 + (offsetBytes w1).length) + 1 + (1 + (offsetBytes w2).length) + 1 := by
    rw [n8]; simp only [List.length_append, List.length_cons, List.length_nil]; omega
  -- stations
  let S := 1 + (offsetBytes os).length + (offsetBytes ot).length + (offsetBytes (e.stations : Int)).length + 3
  let T := S + 2 + bs.length + 1
  have g1 : getStation N 1 = .ok (T, 1 + (offsetBytes os).length) := by
    have := getStation_put [opStart] os (headRest ot e.stations mn ++ bs ++ [opAccept] ++ (opSplit :: offsetBytes w1) ++ [opAny] ++
      (opJump :: offsetBytes w2) ++ [opNull]) a2 (by simp; omega) (by simp; omega)
    rw [← n1] at this
    simp only [List.length_cons, List.length_nil, Nat.zero_add] at this
    rw [this]
    congr 2
    omega
  have g2 : getStation N (1 + (offsetBytes os).length) = .ok (S, 1 + (offsetBytes os).length + (offsetBytes ot).length) := by
    have := getStation_put ([opStart] ++ offsetBytes os) ot (offsetBytes (e.stations : Int) ++ [BitVec.ofNat 8 mn, 1#8, 1#8] ++
      [opCapStart, 1#8] ++ bs ++ [opAccept] ++ (opSplit :: offsetBytes w1) ++ [opAny] ++ (opJump :: offsetBytes w2) ++ [opNull]) b2
      (by omega) (by simp; omega)
    rw [← n2] at this
    simp only [List.length_append, List.length_cons, List.length_nil, Nat.zero_add] at this
    rw [this]
    congr 2
    omega
  have g3 : utf8Get N (1 + (offsetBytes os).length + (offsetBytes ot).length) =
      .ok (zigzag (e.stations : Int), 1 + (offsetBytes os).length + (offsetBytes ot).length + (offsetBytes (e.stations : Int)).length) := by
    have := get_put ([opStart] ++ offsetBytes os ++ offsetBytes ot) (zigzag (e.stations : Int)) ([BitVec.ofNat 8 mn, 1#8, 1#8] ++
      [opCapStart, 1#8] ++ bs ++ [opAccept] ++ (opSplit :: offsetBytes w1) ++ [opAny] ++ (opJump :: offsetBytes w2) ++ [opNull])
      (zigzag_legal _ (by omega))
    rw [← n3] at this
    simp only [List.length_append, List.length_cons, List.length_nil, Nat.zero_add] at this
    exact this
  have hload : Prog.load N = .ok { nfa := N, startStation := S, searchStation := T, maxStation := (zigzag (e.stations : Int)).toNat, maxCounter := (BitVec.ofNat 8 mn).toNat, maxCapture := 1, names := [] } := by
    unfold Prog.load
    have r0 : rd N 0 = .ok opStart := by rw [n0]; exact rd_app _ _ _ _ rfl
    have r4 : rd N (1 + (offsetBytes os).length + (offsetBytes ot).length + (offsetBytes (e.stations : Int)).length) = .ok (BitVec.ofNat 8 mn) := by
      conv => lhs; rw [n4]
      exact rd_app _ _ _ _ (by simp only [List.length_append, List.length_cons, List.length_nil])
    have r5 : rd N (1 + (offsetBytes os).length + (offsetBytes ot).length + (offsetBytes (e.stations : Int)).length + 1) = .ok 1#8 := by
      conv => lhs; rw [n5]
      exact rd_app _ _ _ _ (by simp only [List.length_append, List.length_cons, List.length_nil])
    have r6 : rd N (1 + (offsetBytes os).length + (offsetBytes ot).length + (offsetBytes (e.stations : Int)).length + 2) = .ok 1#8 := by
      conv => lhs; rw [n6]
      exact rd_app _ _ _ _ (by simp only [List.length_append, List.length_cons, List.length_nil])
    rw [r0]
    simp only [res_bind_ok, beq_self_eq_true, assert_true]
    rw [g1]
    simp only [res_bind_ok]
    rw [g2]
    simp only [res_bind_ok]
    rw [g3]
    simp only [res_bind_ok]
    rw [r4, res_bind_ok, r5, res_bind_ok, r6, res_bind_ok]
    have hz : (1#8 : Byte).toNat - 1 = 0 := rfl
    rw [hz]
    simp only [getNames, res_bind_ok]
    have hS : (S == 1 + (offsetBytes os).length + (offsetBytes ot).length + (offsetBytes (e.stations : Int)).length + 3) = true := by
      simp [S]
    rw [hS]; rfl
  generalize hP : Prog.mk N S T (zigzag (e.stations : Int)).toNat (BitVec.ofNat 8 mn).toNat 1 [] = P at hload
  have pn : P.nfa = N := by rw [← hP]
  have ps : P.startStation = S := by rw [← hP]
  have pt : P.searchStation = T := by rw [← hP]
  have hat : At P T ((opSplit :: offsetBytes w1) ++ [opAny] ++ (opJump :: offsetBytes w2)) :=
    ⟨_, _, by rw [pn]; exact n8, by simp only [List.length_append, List.length_cons, List.length_nil, S, T]; omega⟩
  have D1 : P.decode T = .ok (.split S (T + 1 + (offsetBytes w1).length)) := by
    rw [decode_split hat.left.left c2 (by omega) (by omega)]
    congr 2
    simp only [T]; omega
  have D2 : P.decode (T + 1 + (offsetBytes w1).length) = .ok (.any (T + 1 + (offsetBytes w1).length + 1)) := by
    have := hat.left.right
    rw [List.length_cons, show T + ((offsetBytes w1).length + 1) = T + 1 + (offsetBytes w1).length by omega] at this
    exact decode_any this
  have D3 : P.decode (T + 1 + (offsetBytes w1).length + 1) = .ok (.jump T (T + 1 + (offsetBytes w1).length + 1 + 1 + (offsetBytes w2).length)) := by
    have := hat.right
    rw [List.length_append, List.length_cons, List.length_cons, List.length_nil,
      show T + ((offsetBytes w1).length + 1 + (0 + 1)) = T + 1 + (offsetBytes w1).length + 1 by omega] at this
    rw [decode_jump this d2 (by omega) (by omega)]
    congr 2
    omega
  refine ⟨P, hload, pn, ⟨by rw [pn]; omega, by rw [← hP]; show (BitVec.ofNat 8 mn).toNat ≤ 12; rw [BitVec.toNat_ofNat]; omega, by rw [← hP], by rw [← hP], ?_, ?_, ?_⟩⟩
  · rw [← hP]
    show 2 * (r.chars + (if r.plain then 0 else 1) + 1) ≤ (zigzag (e.stations : Int)).toNat
    rw [zigzag_toNat _ (by omega)]
    omega
  all_goals try rw [ps, pt]
  case refine_2 =>
    refine ⟨bs, T + 1 + (offsetBytes w1).length, T + 1 + (offsetBytes w1).length + 1,
      T + 1 + (offsetBytes w1).length + 1 + 1 + (offsetBytes w2).length, hc, ⟨_, _, by rw [pn]; exact n7, ?_⟩, rfl, D1, D2, D3, ?_, ?_⟩
    · simp only [List.length_append, List.length_cons, List.length_nil, S]
    · omega
    · omega
  case refine_3 =>
    intro a j n h1 h2 h3
    rw [D1] at h1; cases h1
    rw [D2] at h2; cases h2
    rw [D3] at h3; cases h3
    rw [pn]
    constructor
    · rw [hNl]; simp only [S, T]; omega
    · conv => lhs; rw [n8]
      exact rd_app _ _ _ _ (by simp only [List.length_append, List.length_cons, List.length_nil, S, T]; omega)

/-! ### The compiler -/

theorem excess_le (r : Re) : ∀ top, r.wf top → r.excess ≤ 254 * weight r := by
  induction r with
  | seq a b iha ihb => intro top hw; have := iha _ hw.1; have := ihb _ hw.2.1; simp only [Re.excess, weight]; omega
  | alt a b iha ihb => intro top hw; have := iha _ hw.2.1; have := ihb _ hw.2.2.1; simp only [Re.excess, weight]; omega
  | star a ih | plus a ih | opt a ih => intro top hw; have := ih _ hw.2; simp only [Re.excess, weight]; omega
  | grp nc a ih => intro top hw; have := ih _ hw; simp only [Re.excess, weight]; omega
  | rep w mn mx a ih =>
    intro top hw
    have := ih _ hw.2.1
    have := (braces_le hw.2.2.1).1
    have : 1 ≤ (if mn = 0 ∧ mx = none then 2 else 1) := by split <;> omega
    simp only [Re.excess, weight]; omega
  | _ => intros; simp [Re.excess]


/-- The compiler on a written expression -/
theorem compile_spec (r : Re) (hw : r.wf true) (hsize : weight r ≤ 992) :
    (11 < depth r → compile .default r.write = .ok none) ∧
    (depth r ≤ 11 → Runs (r.excess ≤ 30 ∧ (weight r ≤ 32 ∨ 107 ≤ bcost r + 2 * ocost r)) (compile .default r.write)
      (fun o => ∃ nfa P, o = some nfa ∧ Prog.load nfa = .ok P ∧ Compiled r P)) := by
  have hscan : scan .default r.write = .ok (allToks r) := scan_spec r hw
  have hfirst := first_all r hw
  constructor
  · intro hd
    obtain ⟨s', hs'⟩ := hfirst.2 (by omega)
    unfold compile
    rw [hscan, res_bind_ok, hs', res_bind_ok]
    rfl
  · intro hd
    obtain ⟨p, hp, hC⟩ := hfirst.1 hd
    have hup := hC.up
    have hlo := hC.lo
    have hoff := hC.off
    obtain ⟨he, hb1, hb2⟩ := env_of p (by omega)
    unfold compile
    rw [hscan, res_bind_ok, hp, res_bind_ok]
    have hcond : (!(p, true).2 || decide (p.stack.length > 0)) = false := by rw [hC.stack]; rfl
    rw [if_neg (by rw [hcond]; simp)]
    simp only
    rw [runPass_gen _ _ _ (allToks_noerr r)]
    generalize hE : Env.of p = e at he hb1 hb2
    have hnames : e.names = [] := by rw [← hE]; exact hC.names
    have hps : e.stations = p.stations := by rw [← hE]; rfl
    have hCst := hC.st
    have hst : e.stations < 2 ^ 30 := by have := excess_le r true hw; omega
    -- room
    have homb : e.omb ≤ 2 := by rcases he with h | h <;> omega
    have hroom : (r.excess ≤ 30 ∧ (weight r ≤ 32 ∨ 107 ≤ bcost r + 2 * ocost r)) →
        (offsetBytes (e.stations : Int)).length ≤ e.omb ∧ 11 + 5 * e.omb + cost e.omb r ≤ e.bytes := by
      intro hr
      have hbe := hb2 (by omega)
      refine ⟨?_, ?_⟩
      · rw [offsetBytes_len (e.stations : Int) (by omega)]
        rcases he with ⟨h1, h2⟩ | ⟨h1, h2⟩
        · rw [h1] at hbe
          rw [if_pos (by omega)]; omega
        · rw [h1]; split <;> omega
      rw [hbe, cost_eq]
      have : (5 + ocost r) * e.omb ≤ p.offsets * e.omb := Nat.mul_le_mul_right _ hoff
      rw [Nat.add_mul, Nat.mul_comm (ocost r)] at this
      omega
    have e1 : allToks r = [.tok .start] ++ (((toks r []).1 ++ flush (toks r []).2) ++ [.tok .accept]) := by
      simp [allToks, List.append_assoc]
    rw [e1, genAll_append, genAll_one, res_assoc, res_assoc]
    refine Runs.bind (runs_start e he hnames) (fun hr => by have := hroom hr; omega) fun s1 h1 => ?_
    obtain ⟨⟨ot, t1, t2, t3, t5, t6⟩, t7⟩ := h1
    rw [genAll_append, res_assoc]
    have hH : s1.buf.length = 1 + e.omb + ((offsetBytes ot).length + (offsetBytes (e.stations : Int)).length + 5) := by
      rw [t5]; simp only [headRest, List.length_append, List.length_cons, List.length_nil, padded_len]; omega
    refine Runs.bind ((gen_spec e he r).2.2 hw s1 s1.buf [] [] _ _ t6 rfl (by omega) .nil (by simp) (by rw [t6]; simp; omega) (by omega))
      (fun hr => by have := hroom hr; simp; omega) fun s2 h2 => ?_
    obtain ⟨f', cs', X', y, r', k1, k2, k3, k4, k5, k6, k7, k8, k9, k10⟩ := h2
    rw [genAll_one]
    have hlen : (opStart :: paddedOffset e 0 ++ headRest ot e.stations e.maxNest).length = s1.buf.length := by rw [t5]
    refine Runs.bind (runs_accept e he r s2 f' [] cs' X' y r' ot e.maxNest k1 t1 t2 t3 (by rw [← hE]; exact runPass_nest _ _ _ hp (by show 0 ≤ 12; omega)) (by rw [k4, hlen]) (by rw [hlen]; exact k5)
      (by rw [← t5]; exact k6) k7 k8 k10) (fun hr => by have := hroom hr; simp at k9; omega) fun s3 h3 => ?_
    obtain ⟨h3, h4⟩ := h3
    simp only [res_bind_ok, if_true]
    refine Runs.bind (runs_emit e _ _) (fun hr => by simp; omega) fun b hb => ?_
    obtain ⟨rfl, -⟩ := hb
    have hsc : r.chars + (if r.plain then 0 else 1) + 1 ≤ e.stations := by rw [← hE]; exact hC.sc
    obtain ⟨P, hP, hn, hc⟩ := fin_load e he hst r hsc s3.buf h3 h4
    exact ⟨_, P, rfl, hP, hc⟩

end Strpp.Rx
