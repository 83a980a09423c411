import Verif.Proof.RxGen
/-! The first pass of the compiler: what it counts, and that it accepts every expression that is not nested too deep. -/
set_option linter.unusedSimpArgs false
set_option linter.unusedVariables false
namespace Strpp.Rx
open Spec

/-- what a pending literal will be counted for at most -/
def pend (d : List UCS4) : Nat := d.length + (litBytes d).length

/-- bytes of the code other than offsets -/
def bcost : Re → Nat
  | .empty => 0
  | .chr _ c => 1 + (utf8Put c).length
  | .any | .bol | .eol => 1
  | .cls _ _ rs => 1 + (stringBytes (rangeChars rs)).length
  | .prop _ p => 1 + (stringBytes [p.code]).length
  | .seq a b => bcost a + bcost b
  | .alt a b => bcost a + 2 + bcost b
  | .star a => bcost a + 2
  | .plus a | .opt a => bcost a + 1
  | .rep _ mn mx a => bcost a + repCode mn mx
  | .grp _ a => bcost a

/-- offsets in the code -/
def ocost : Re → Nat
  | .seq a b => ocost a + ocost b
  | .alt a b => ocost a + 2 + ocost b
  | .star a => ocost a + 2
  | .plus a | .opt a => ocost a + 1
  | .rep _ mn mx a => ocost a + if mn = 0 ∧ mx = none then 2 else 1
  | .grp _ a => ocost a
  | _ => 0

/-- an upper bound of what is counted, with offsets of four bytes -/
def weight : Re → Nat
  | .empty => 0
  | .chr _ c => 2 + (utf8Put c).length
  | .any | .bol | .eol => 1
  | .cls _ _ rs => 1 + (stringBytes (rangeChars rs)).length
  | .prop _ p => 1 + (stringBytes [p.code]).length
  | .seq a b => weight a + weight b
  | .alt a b => weight a + 15 + weight b
  | .star a => weight a + 10
  | .plus a | .opt a => weight a + 5
  | .rep _ mn mx a => weight a + (repCode mn mx + 4 * if mn = 0 ∧ mx = none then 2 else 1)
  | .grp _ a => weight a + 1

theorem cost_eq (omb : Nat) (r : Re) : cost omb r = bcost r + omb * ocost r := by
  induction r with
  | seq a b iha ihb => simp only [cost, bcost, ocost, iha, ihb, Nat.mul_add]; omega
  | alt a b iha ihb => simp only [cost, bcost, ocost, iha, ihb, Nat.mul_add]; omega
  | star a ih => simp only [cost, bcost, ocost, ih, Nat.mul_add]; omega
  | plus a ih => simp only [cost, bcost, ocost, ih, Nat.mul_add]; omega
  | opt a ih => simp only [cost, bcost, ocost, ih, Nat.mul_add]; omega
  | rep w mn mx a ih => simp only [cost, bcost, ocost, ih, Nat.mul_add]; rw [Nat.mul_comm omb (if mn = 0 ∧ mx = none then 2 else 1)]; omega
  | grp nc a ih => exact ih
  | _ => simp [cost, bcost, ocost]

/-! ### Running the first pass -/

theorem runPass_append {σ : Type} (f : σ → Tok → Res (Option σ)) (xs ys : List Ev) (hx : xs.any Ev.isErr = false) :
    ∀ s, runPass f (xs ++ ys) s = (runPass f xs s >>= fun r => if r.2 then runPass f ys r.1 else .ok (r.1, false)) := by
  induction xs with
  | nil => intro s; rfl
  | cons x xs ih =>
    intro s
    cases x with
    | err m => simp [Ev.isErr] at hx
    | tok t =>
      have ih := ih (by simpa [Ev.isErr] using hx)
      rw [List.cons_append, runPass, runPass]
      cases f s t with
      | error e => rfl
      | ok o =>
        cases o with
        | none => rfl
        | some s1 => exact ih s1

def Pass1 (evs : List Ev) (s : P1) (ok : Prop) (Q : P1 → Prop) : Prop :=
  (ok → ∃ s', runPass firstPass evs s = .ok (s', true) ∧ Q s') ∧ (¬ ok → ∃ s', runPass firstPass evs s = .ok (s', false))

theorem Pass1.append {xs ys : List Ev} {s : P1} {ok1 ok2 ok : Prop} {Q R : P1 → Prop} (hx : xs.any Ev.isErr = false)
    (h1 : Pass1 xs s ok1 Q) (hok : ok ↔ ok1 ∧ ok2) (h2 : ∀ s', Q s' → Pass1 ys s' ok2 R) : Pass1 (xs ++ ys) s ok R := by
  unfold Pass1
  rw [runPass_append _ _ _ hx]
  by_cases h : ok1
  · obtain ⟨s', h3, h4⟩ := h1.1 h
    rw [h3]
    simp only [res_bind_ok, if_true]
    have h5 := h2 s' h4
    exact ⟨fun ho => h5.1 (hok.1 ho).2, fun ho => h5.2 (fun h6 => ho (hok.2 ⟨h, h6⟩))⟩
  · obtain ⟨s', h3⟩ := h1.2 h
    rw [h3]
    simp only [res_bind_ok, Bool.false_eq_true, if_false]
    exact ⟨fun ho => absurd (hok.1 ho).1 h, fun _ => ⟨_, rfl⟩⟩

theorem Pass1.mono {xs : List Ev} {s : P1} {ok ok' : Prop} {Q R : P1 → Prop} (h : Pass1 xs s ok Q) (ho : ok' ↔ ok) (hq : ∀ s', Q s' → R s') :
    Pass1 xs s ok' R :=
  ⟨fun h1 => let ⟨s', h2, h3⟩ := h.1 (ho.1 h1); ⟨s', h2, hq s' h3⟩, fun h1 => h.2 (fun h2 => h1 (ho.2 h2))⟩

theorem Pass1.some {t : Tok} {s s' : P1} {Q : P1 → Prop} (h : firstPass s t = .ok (some s')) (hq : Q s') : Pass1 [.tok t] s True Q :=
  ⟨fun _ => ⟨s', by rw [runPass, h]; rfl, hq⟩, fun h => (h trivial).elim⟩

theorem Pass1.nil {s : P1} {Q : P1 → Prop} (hq : Q s) : Pass1 [] s True Q := ⟨fun _ => ⟨s, rfl, hq⟩, fun h => (h trivial).elim⟩

theorem flush_noerr (d : List UCS4) : (flush d).any Ev.isErr = false := by unfold flush; split <;> rfl

theorem toks_noerr (r : Re) : ∀ d, (toks r d).1.any Ev.isErr = false := by
  induction r with
  | empty | chr => intro d; rfl
  | any | bol | eol | cls | prop => intro d; simp only [toks, List.any_append, flush_noerr]; rfl
  | seq a b iha ihb => intro d; simp only [toks, List.any_append, iha, ihb]; rfl
  | alt a b iha ihb => intro d; simp only [toks, List.any_append, iha, ihb, flush_noerr]; rfl
  | star a iha | plus a iha | opt a iha | rep _ _ _ a iha =>
    intro d
    have h1 := iha d
    have h2 : (atomToks a d (toks a d).1).any Ev.isErr = false := by
      cases a with
      | chr s c => show (flush d ++ [_]).any Ev.isErr = false; rw [List.any_append, flush_noerr]; rfl
      | _ => exact h1
    show (_ ++ [_]).any Ev.isErr = false
    rw [List.any_append, h2]; rfl
  | grp nc a iha => intro d; simp only [toks, List.any_append, iha, flush_noerr]; rfl

theorem atomToks_noerr (a : Re) (d : List UCS4) : (atomToks a d (toks a d).1).any Ev.isErr = false := by
  cases a with
  | chr s c => show (flush d ++ [_]).any Ev.isErr = false; rw [List.any_append, flush_noerr]; rfl
  | _ => exact toks_noerr _ d

/-- what the counters do -/
structure Grew (s s' : P1) (d d' : List UCS4) (lo off up sc ex : Nat) : Prop where
  names : s'.names = s.names
  lo : s.bytes + (litBytes d).length + lo ≤ s'.bytes + (litBytes d').length
  off : s.offsets + off ≤ s'.offsets
  up : s'.bytes + 4 * s'.offsets + pend d' ≤ s.bytes + 4 * s.offsets + pend d + up
  st : s'.stations + s.bytes ≤ s.stations + s'.bytes + ex
  sc : s.stations + d.length + sc ≤ s'.stations + d'.length

theorem Grew.trans {s1 s2 s3 d1 d2 d3 l1 l2 o1 o2 u1 u2 l o u c1 c2 c x1 x2 x} (h1 : Grew s1 s2 d1 d2 l1 o1 u1 c1 x1)
    (h2 : Grew s2 s3 d2 d3 l2 o2 u2 c2 x2)
    (hl : l ≤ l1 + l2) (ho : o ≤ o1 + o2) (hu : u1 + u2 ≤ u) (hc : c ≤ c1 + c2) (hx : x1 + x2 ≤ x) : Grew s1 s3 d1 d3 l o u c x := by
  have := h1.sc; have := h2.sc; have := h1.st; have := h2.st
  have := h1.lo; have := h2.lo; have := h1.off; have := h2.off; have := h1.up; have := h2.up
  exact ⟨h2.names.trans h1.names, by omega, by omega, by omega, by omega, by omega⟩

theorem litBytes_len (d : List UCS4) : (litBytes d).length = d.length + numBytes d := by
  induction d with
  | nil => rfl
  | cons c d ih =>
    have e1 : litBytes (c :: d) = (opChar :: utf8Put c) ++ litBytes d := rfl
    have e2 : numBytes (c :: d) = (utf8Put c).length + numBytes d := by simp [numBytes]
    rw [e1, e2]
    simp only [List.length_append, List.length_cons, ih]; omega

theorem stringBytes_len (s : List UCS4) : (stringBytes s).length = lenOf (numBytes s) + numBytes s := by
  unfold stringBytes lenOf
  rw [List.length_append, put_length]; rfl

theorem numBytes_ge (d : List UCS4) : d.length ≤ numBytes d := by
  induction d with
  | nil => simp
  | cons c d ih =>
    have e2 : numBytes (c :: d) = (utf8Put c).length + numBytes d := by simp [numBytes]
    have h1 : 1 ≤ (utf8Put c).length := by
      rw [put_length]; unfold utf8LenCh
      repeat' split
      all_goals omega
    rw [e2, List.length_cons]; omega

/-- Sending the pending literal -/
theorem pass1_flush (s : P1) (d : List UCS4) : Pass1 (flush d) s True (fun s' => Grew s s' d [] 0 0 0 0 0 ∧ s'.stack = s.stack) := by
  unfold flush
  by_cases hd : d.length > 0
  · rw [if_pos hd]
    refine Pass1.some (s' := { s with bytes := s.bytes + 1 + d.length + numBytes d, stations := s.stations + numBytes d, repeatable := true })
      rfl ⟨⟨rfl, ?_, ?_, ?_, ?_, ?_⟩, rfl⟩
    · simp only [litBytes_len, List.length_nil]; omega
    · simp
    · simp only [pend, litBytes_len, List.length_nil, numBytes, List.flatMap_nil]; omega
    · simp only; omega
    · have := numBytes_ge d
      simp only [List.length_nil]; omega
  · rw [if_neg hd]
    have : d = [] := by cases d with | nil => rfl | cons => simp at hd
    subst this
    exact Pass1.nil ⟨⟨rfl, by simp, by simp, by simp, by simp, by simp⟩, rfl⟩

/-- a token that adds `n` bytes (and its own) -/
theorem pass1_simple (s : P1) (d : List UCS4) (t : Tok) (n : Nat) (rep : Bool) (f : P1 → P1)
    (ht : ∀ s, firstPass s t = .ok (some (f s))) (hf : ∀ s, (f s).bytes = s.bytes + n ∧ (f s).offsets = s.offsets ∧
      (f s).names = s.names ∧ (f s).stations = s.stations + 1 ∧ (f s).stack = s.stack ∧ (f s).repeatable = rep) (hn : 1 ≤ n) :
    Pass1 (flush d ++ [.tok t]) s True (fun s' => Grew s s' d [] n 0 n 1 0 ∧ s'.stack = s.stack ∧ s'.repeatable = rep) := by
  refine Pass1.append (ok2 := True) (flush_noerr d) (pass1_flush s d) (by simp) fun s1 h1 => ?_
  obtain ⟨h1, h2⟩ := h1
  obtain ⟨g1, g2, g3, g4, g5, g6⟩ := hf s1
  refine Pass1.some (ht s1) ⟨Grew.trans (l2 := n) (o2 := 0) (u2 := n) (c2 := 1) (x2 := 0) h1 ⟨g3, ?_, ?_, ?_, ?_, ?_⟩ (by omega) (by omega) (by omega) (by omega) (by omega), g5.trans h2, g6⟩
  · omega
  · omega
  · omega
  · omega
  · omega

/-- what the compiler counts for the number of threads; `first` is: no `|` yet in this group -/
def places (first : Bool) : Re → Nat
  | .chr .. | .any | .cls .. | .prop .. | .bol | .eol => 1
  | .seq a b => places false a + places false b
  | .alt a b => places false a + places false b + if first then 1 else 0
  | .star a | .plus a | .opt a | .rep _ _ _ a => places false a
  | .grp _ a => places true a
  | .empty => 0

theorem places_mono (r : Re) (f : Bool) : places false r ≤ places f r := by
  cases r <;> simp [places]

def First (top : Bool) (r : Re) : Prop := ∀ (s : P1) (d : List UCS4) (k : GKind) (b : Bool) (st : List (GKind × Bool)), s.stack = (k, b) :: st → st.length + 1 ≤ 12 →
  Pass1 (toks r d).1 s (st.length + 1 + depth r ≤ 12) (fun s' => Grew s s' d (toks r d).2 (bcost r) (ocost r) (weight r) (places b r) r.excess ∧
    ∃ b', s'.stack = (k, b') :: st ∧ (top = false → b' = b))

def FirstAtom (r : Re) : Prop := ∀ (s : P1) (d : List UCS4) (k : GKind) (b : Bool) (st : List (GKind × Bool)), s.stack = (k, b) :: st → st.length + 1 ≤ 12 →
  Pass1 (atomToks r d (toks r d).1) s (st.length + 1 + depth r ≤ 12) (fun s' => Grew s s' d [] (bcost r) (ocost r) (weight r) (places b r) r.excess ∧
    s'.stack = (k, b) :: st ∧ s'.repeatable = true)

theorem push_ok (s : P1) (k : GKind) (h : s.stack.length < 12) :
    s.push k = some { s with stack := (k, true) :: s.stack, maxNest := max s.maxNest (s.stack.length + 1) } := by
  unfold P1.push
  rw [if_neg (by show ¬ s.stack.length ≥ 12; omega)]

/-- a flag of the top group may change -/
theorem first_grp (nc : Bool) {a : Re} (h : First true a) : FirstAtom (.grp nc a) := by
  intro s d k b st hs hst
  show Pass1 ((flush d ++ [.tok .group]) ++ (toks a []).1 ++ (flush (toks a []).2 ++ [.tok .endGroup])) s
    (st.length + 1 + (depth a + 1) ≤ 12) _
  have e1 : (flush d ++ [.tok .group]) ++ (toks a []).1 ++ (flush (toks a []).2 ++ [.tok .endGroup]) =
      flush d ++ ([.tok .group] ++ ((toks a []).1 ++ (flush (toks a []).2 ++ [.tok .endGroup]))) := by simp [List.append_assoc]
  rw [e1]
  refine Pass1.append (ok2 := st.length + 1 + (depth a + 1) ≤ 12) (flush_noerr d) (pass1_flush s d) (by simp) fun s1 h1 => ?_
  obtain ⟨h1, hs1⟩ := h1
  have hpush : Pass1 [.tok .group] s1 (st.length + 2 ≤ 12) (fun s' => Grew s1 s' [] [] 1 0 1 0 0 ∧
      s'.stack = (.group, true) :: (k, b) :: st ∧ st.length + 2 ≤ 12) := by
    have hlen : s1.stack.length = st.length + 1 := by rw [hs1, hs]; rfl
    constructor
    · intro hl
      have hp : ∃ s', firstPass s1 .group = .ok (some s') ∧ Grew s1 s' [] [] 1 0 1 0 0 ∧ s'.stack = (.group, true) :: s1.stack := by
        refine ⟨_, congrArg Except.ok (push_ok _ .group (by show s1.stack.length < 12; omega)), ⟨rfl, by simp only; omega, by simp, ?_, ?_, ?_⟩, rfl⟩
        · simp only; omega
        · simp only; omega
        · simp only; omega
      obtain ⟨s', h1, h2, h3⟩ := hp
      exact ⟨s', by rw [runPass, h1]; rfl, h2, by rw [h3, hs1, hs], hl⟩
    · intro hl
      have hp : firstPass s1 .group = .ok none := by
        show Except.ok (P1.push _ _) = _
        unfold P1.push
        rw [if_pos (by show s1.stack.length ≥ 12; omega)]
      exact ⟨s1, by rw [runPass, hp]; rfl⟩
  refine Pass1.append (ok2 := st.length + 2 + depth a ≤ 12) rfl hpush (by omega) fun s2 h2 => ?_
  obtain ⟨h2, hs2, hst2⟩ := h2
  refine Pass1.append (ok2 := True) (toks_noerr a []) (h s2 [] .group true ((k, b) :: st) hs2 hst2) (by simp) fun s3 h3 => ?_
  obtain ⟨h3, b', hs3, -⟩ := h3
  refine Pass1.append (ok2 := True) (flush_noerr _) (pass1_flush s3 _) (by simp) fun s4 h4 => ?_
  obtain ⟨h4, hs4⟩ := h4
  have hend : firstPass s4 .endGroup = .ok (some { s4 with bytes := s4.bytes + 1 - 1, stack := (k, b) :: st, repeatable := true }) := by
    unfold firstPass
    simp only [hs4, hs3]
  have g12 := h1.trans h2 (l := 1) (o := 0) (u := 1) (c := 0) (x := 0) (by omega) (by omega) (by omega) (by omega) (by omega)
  have g13 := g12.trans h3 (l := bcost a + 1) (o := ocost a) (u := weight a + 1) (c := places true a) (x := a.excess) (by omega) (by omega) (by omega) (by omega) (by omega)
  have g14 := g13.trans h4 (l := bcost a + 1) (o := ocost a) (u := weight a + 1) (c := places true a) (x := a.excess) (by omega) (by omega) (by omega) (by omega) (by omega)
  refine Pass1.some hend ⟨Grew.trans (l2 := 0) (o2 := 0) (u2 := 0) (c2 := 0) (x2 := 0) g14 ⟨rfl, by simp, by simp, by simp, ?_, by simp⟩ ?_ ?_ ?_ ?_ ?_, rfl, rfl⟩
  · simp only; omega
  · simp only [bcost]; omega
  · simp only [ocost]; omega
  · simp only [weight]; omega
  · simp only [places]; omega
  · simp only [Re.excess]; omega

theorem first_of_atom {top : Bool} {r : Re} (h : FirstAtom r) (h1 : ∀ d, atomToks r d (toks r d).1 = (toks r d).1) (h2 : ∀ d, (toks r d).2 = []) :
    First top r := by
  intro s d k b st hs hst
  have := h s d k b st hs hst
  rw [h1] at this
  refine this.mono (Iff.rfl) fun s' hs' => ⟨?_, b, hs'.2.1, fun _ => rfl⟩
  rw [h2]; exact hs'.1

theorem first_rep {top : Bool} {a r : Re} (t : Tok) (no : Nat) (nb : Nat) (ns : Nat) (nx : Nat) (h : FirstAtom a) (hd : depth r = depth a) (hb : bcost r = bcost a + nb)
    (ho : ocost r = ocost a + no) (hw : weight r = weight a + (nb + 4 * no)) (hch : ∀ b, places b r = places false a) (hx : a.excess + nx ≤ r.excess) (hns : ns ≤ nb + nx)
    (ht : ∀ d, toks r d = (atomToks a d (toks a d).1 ++ [.tok t], []))
    (hf : ∀ s : P1, s.repeatable = true → firstPass s t = .ok (some { s with bytes := s.bytes + nb, offsets := s.offsets + no, stations := s.stations + ns, repeatable := false })) :
    First top r := by
  intro s d k b st hs hst
  rw [ht]
  refine Pass1.append (ok2 := True) (atomToks_noerr a d) (h s d k b st hs hst) (by rw [hd]; simp) fun s1 h1 => ?_
  obtain ⟨h1, hs1, hrep⟩ := h1
  have hpm := places_mono a b
  have hpr := hch b
  refine Pass1.some (hf s1 hrep) ⟨Grew.trans (l2 := nb) (o2 := no) (u2 := nb + 4 * no) (c2 := 0) (x2 := nx) h1 ⟨rfl, ?_, ?_, ?_, ?_, ?_⟩ ?_ ?_ ?_ ?_ ?_, b, hs1, fun _ => rfl⟩
  · simp only; omega
  · simp only; omega
  · simp only; omega
  · simp only; omega
  · simp only; omega
  · omega
  · omega
  · omega
  · omega
  · omega

theorem first_alt {a b : Re} (ha : First false a) (hb : First true b) : First true (.alt a b) := by
  intro s d k f st hs hst
  have e1 : (toks (.alt a b) d).1 = (toks a d).1 ++ (flush (toks a d).2 ++ ([.tok .alternate] ++ (toks b []).1)) := by
    simp [toks, List.append_assoc]
  rw [e1]
  refine Pass1.append (ok2 := st.length + 1 + depth b ≤ 12) (toks_noerr a d) (ha s d k f st hs hst) (by simp only [depth]; omega) fun s1 h1 => ?_
  obtain ⟨h1, f1, hs1, hf1⟩ := h1
  obtain rfl := hf1 rfl
  refine Pass1.append (ok2 := st.length + 1 + depth b ≤ 12) (flush_noerr _) (pass1_flush s1 _) (by simp) fun s2 h2 => ?_
  obtain ⟨h2, hs2⟩ := h2
  have halt : ∃ s3, firstPass s2 .alternate = .ok (some s3) ∧ Grew s2 s3 [] [] 2 2 15 (if f1 then 1 else 0) 0 ∧ s3.stack = (k, false) :: st := by
    unfold firstPass
    simp only [hs2, hs1]
    cases f1 with
    | true =>
      refine ⟨_, rfl, ⟨rfl, ?_, ?_, ?_, ?_, ?_⟩, rfl⟩
      · simp only; omega
      · simp only; omega
      · simp only; omega
      · simp only; omega
      · simp only [if_true]; omega
    | false =>
      refine ⟨_, rfl, ⟨rfl, ?_, ?_, ?_, ?_, ?_⟩, ?_⟩
      · simp only; omega
      · simp only; omega
      · simp only; omega
      · simp only; omega
      · simp only [Bool.false_eq_true, if_false]; omega
      · simp only [hs2, hs1]
  obtain ⟨s3, hf, h3, hs3⟩ := halt
  refine Pass1.append (ok2 := st.length + 1 + depth b ≤ 12) rfl (Pass1.some (Q := fun s => s = s3) hf rfl) (by simp) fun s3' he => ?_
  subst he
  refine (hb s3' [] k false st hs3 hst).mono Iff.rfl fun s4 h4 => ?_
  obtain ⟨h4, b4, hs4, -⟩ := h4
  have hpa := places_mono a f1
  have g12 := h1.trans h2 (l := bcost a) (o := ocost a) (u := weight a) (c := places false a) (x := a.excess) (by omega) (by omega) (by omega) (by omega) (by omega)
  have g13 := g12.trans h3 (l := bcost a + 2) (o := ocost a + 2) (u := weight a + 15) (c := places false a + if f1 then 1 else 0) (x := a.excess) (by omega) (by omega) (by omega) (by omega) (by omega)
  exact ⟨g13.trans h4 (by simp only [bcost]; omega) (by simp only [ocost]; omega) (by simp only [weight]; omega) (by simp only [places]; omega) (by simp only [Re.excess]; omega), b4, hs4, fun h => by cases h⟩

theorem first_spec (r : Re) : (∀ top, r.wf top → First top r) ∧ (r.wf false → r.isAtom = true → FirstAtom r) := by
  have simple : ∀ (r : Re) (t : Tok) (rep : Bool) (f : P1 → P1), (∀ d, toks r d = (flush d ++ [.tok t], [])) →
      (∀ s, firstPass s t = .ok (some (f s))) → (∀ s, (f s).bytes = s.bytes + bcost r ∧ (f s).offsets = s.offsets ∧
      (f s).names = s.names ∧ (f s).stations = s.stations + 1 ∧ (f s).stack = s.stack ∧ (f s).repeatable = rep) → 1 ≤ bcost r →
      ocost r = 0 → weight r = bcost r → depth r = 0 → r.excess = 0 → (∀ b, places b r ≤ 1) → (∀ top, First top r) ∧ (rep = true → (∀ d ts, atomToks r d ts = ts) → FirstAtom r) := by
    intro r t rep f h1 h2 h3 h4 h5 h6 h7 h9 h8
    have key : ∀ (s : P1) (d : List UCS4) (k : GKind) (b : Bool) (st : List (GKind × Bool)), s.stack = (k, b) :: st →
        st.length + 1 ≤ 12 → Pass1 (flush d ++ [.tok t]) s (st.length + 1 + depth r ≤ 12) (fun s' =>
          Grew s s' d [] (bcost r) (ocost r) (weight r) (places b r) r.excess ∧ s'.stack = (k, b) :: st ∧ s'.repeatable = rep) := by
      intro s d k b st hs hl
      refine (pass1_simple s d t (bcost r) rep f h2 h3 h4).mono (by rw [h7]; simp; omega) (fun s' hs' => ?_)
      rw [h5, h6, h9]
      refine ⟨?_, hs'.2.1.trans hs, hs'.2.2⟩
      have hg := hs'.1
      have h8 := h8 b
      exact ⟨hg.names, hg.lo, hg.off, hg.up, hg.st, by have := hg.sc; omega⟩
    refine ⟨?_, ?_⟩
    · intro top s d k b st hs hl
      rw [h1]
      exact (key s d k b st hs hl).mono Iff.rfl fun s' hs' => ⟨hs'.1, b, hs'.2.1, fun _ => rfl⟩
    · intro hr hat s d k b st hs hl
      rw [hat, h1]
      exact (key s d k b st hs hl).mono Iff.rfl fun s' hs' => ⟨hs'.1, hs'.2.1, hs'.2.2.trans hr⟩
  induction r with
  | empty =>
    refine ⟨fun _ _ s d k b st hs hl => (Pass1.nil ?_).mono (ok := True) (by simp only [depth]; simp; omega) (fun _ h => h), fun _ h => (by cases h)⟩
    exact ⟨⟨rfl, by simp [bcost, toks], by simp [ocost], by simp [weight, toks], by simp [Re.excess], by simp [places, toks]⟩, b, hs, fun _ => rfl⟩
  | chr sp c =>
    refine ⟨fun _ _ s d k b st hs hl => (Pass1.nil ?_).mono (ok := True) (by simp only [depth]; simp; omega) (fun _ h => h), fun _ _ s d k b st hs hl => ?_⟩
    · refine ⟨⟨rfl, ?_, by simp [ocost], ?_, by simp [Re.excess], by simp only [toks, places, List.length_append, List.length_cons, List.length_nil]; omega⟩, b, hs, fun _ => rfl⟩
      · simp only [toks, litBytes_app, bcost, List.length_append, List.length_cons]; omega
      · simp only [toks, pend, litBytes_app, weight, List.length_append, List.length_cons, List.length_nil]; omega
    · show Pass1 (flush d ++ [.tok (.lit [c])]) s _ _
      refine Pass1.append (ok2 := True) (flush_noerr d) (pass1_flush s d) (by simp only [depth]; simp; omega) fun s1 h1 => ?_
      obtain ⟨h1, h2⟩ := h1
      have hf : ∃ s', firstPass s1 (.lit [c]) = .ok (some s') ∧ Grew s1 s' [] [] (1 + (utf8Put c).length) 0 (2 + (utf8Put c).length) 1 0 ∧
          s'.stack = s1.stack ∧ s'.repeatable = true := by
        have hn1 := numBytes_ge [c]
        refine ⟨_, rfl, ⟨rfl, ?_, ?_, ?_, ?_, by simpa using hn1⟩, rfl, rfl⟩
        · simp [numBytes]; omega
        · simp
        · simp [numBytes]; omega
        · simp [numBytes]; omega
      obtain ⟨s', g1, g2, g3, g4⟩ := hf
      exact Pass1.some g1 ⟨h1.trans g2 (by simp only [bcost]; omega) (by simp [ocost]) (by simp only [weight]; omega) (by simp [places]) (by simp [Re.excess]),
        by rw [g3, h2, hs], g4⟩
  | any =>
    have h := simple .any .any true _ (fun d => rfl) (fun s => rfl) (fun s => ⟨rfl, rfl, rfl, rfl, rfl, rfl⟩) (by simp [bcost]) rfl rfl rfl rfl (by simp [places])
    exact ⟨fun top _ => h.1 top, fun _ _ => h.2 rfl (fun _ _ => rfl)⟩
  | bol =>
    have h := simple .bol .bol false _ (fun d => rfl) (fun s => rfl) (fun s => ⟨rfl, rfl, rfl, rfl, rfl, rfl⟩) (by simp [bcost]) rfl rfl rfl rfl (by simp [places])
    exact ⟨fun top _ => h.1 top, fun _ h => (by cases h)⟩
  | eol =>
    have h := simple .eol .eol false _ (fun d => rfl) (fun s => rfl) (fun s => ⟨rfl, rfl, rfl, rfl, rfl, rfl⟩) (by simp [bcost]) rfl rfl rfl rfl (by simp [places])
    exact ⟨fun top _ => h.1 top, fun _ h => (by cases h)⟩
  | cls neg text rs =>
    have h := simple (.cls neg text rs) (.cls neg (rangeChars rs)) true _ (fun d => rfl) (fun s => rfl) (fun s => ⟨by
      simp only [P1.addString, bcost, stringBytes_len]; omega, rfl, rfl, rfl, rfl, rfl⟩) (by simp [bcost]) rfl rfl rfl rfl (by simp [places])
    exact ⟨fun top _ => h.1 top, fun _ _ => h.2 rfl (fun _ _ => rfl)⟩
  | prop br p =>
    have h := simple (.prop br p) (.prop [p.code]) true _ (fun d => rfl) (fun s => rfl) (fun s => ⟨by
      simp only [P1.addString, bcost, stringBytes_len]; omega, rfl, rfl, rfl, rfl, rfl⟩) (by simp [bcost]) rfl rfl rfl rfl (by simp [places])
    exact ⟨fun top _ => h.1 top, fun _ _ => h.2 rfl (fun _ _ => rfl)⟩
  | seq a b iha ihb =>
    refine ⟨fun top hw s d k f st hs hl => ?_, fun _ h => (by cases h)⟩
    show Pass1 ((toks a d).1 ++ (toks b (toks a d).2).1) s _ _
    refine Pass1.append (ok2 := st.length + 1 + depth b ≤ 12) (toks_noerr a d) (iha.1 false hw.1 s d k f st hs hl) (by simp only [depth]; omega)
      fun s1 h1 => ?_
    obtain ⟨h1, f1, hs1, hf1⟩ := h1
    obtain rfl := hf1 rfl
    refine (ihb.1 false hw.2.1 s1 _ k f1 st hs1 hl).mono Iff.rfl fun s2 h2 => ?_
    obtain ⟨h2, f2, hs2, hf2⟩ := h2
    have hpa := places_mono a f1
    have hpb := places_mono b f1
    exact ⟨h1.trans h2 (by simp only [bcost]; omega) (by simp only [ocost]; omega) (by simp only [weight]; omega) (by simp only [places]; omega) (by simp only [Re.excess]; omega),
      f2, hs2, fun _ => hf2 rfl⟩
  | alt a b iha ihb =>
    refine ⟨fun top hw => ?_, fun _ h => (by cases h)⟩
    obtain rfl := hw.1
    exact first_alt (iha.1 false hw.2.1) (ihb.1 true hw.2.2.1)
  | star a iha =>
    refine ⟨fun top hw => first_rep (.rep 0 0) 2 2 0 0 (iha.2 hw.2 hw.1) rfl rfl rfl rfl (fun _ => rfl) (Nat.le_refl _) (by omega) (fun d => rfl) (fun s hr => ?_), fun _ h => (by cases h)⟩
    unfold firstPass; simp only [hr]; rfl
  | plus a iha =>
    refine ⟨fun top hw => first_rep (.rep 1 0) 1 1 0 0 (iha.2 hw.2 hw.1) rfl rfl rfl rfl (fun _ => rfl) (Nat.le_refl _) (by omega) (fun d => rfl) (fun s hr => ?_), fun _ h => (by cases h)⟩
    unfold firstPass; simp only [hr]; rfl
  | opt a iha =>
    refine ⟨fun top hw => first_rep (.rep 0 1) 1 1 0 0 (iha.2 hw.2 hw.1) rfl rfl rfl rfl (fun _ => rfl) (Nat.le_refl _) (by omega) (fun d => rfl) (fun s hr => ?_), fun _ h => (by cases h)⟩
    unfold firstPass; simp only [hr]; rfl
  | rep w mn mx a iha =>
    refine ⟨fun top hw => ?_, fun _ h => (by cases h)⟩
    have hbr := braces_le hw.2.2.1
    have hx : ∀ x ≤ mn - 4, a.excess + x ≤ (Re.rep w mn mx a).excess := fun x h => by simp only [Re.excess]; omega
    by_cases c0 : mn = 0 ∧ mx = none
    · obtain ⟨rfl, rfl⟩ := c0
      refine first_rep (.rep 0 0) 2 2 0 0 (iha.2 hw.2.1 hw.1) rfl rfl rfl rfl (fun _ => rfl) (hx 0 (by omega)) (by omega) (fun d => rfl) (fun s hr => ?_)
      unfold firstPass; simp only [hr]; rfl
    · by_cases c1 : mn = 0 ∧ mx = some 1
      · obtain ⟨rfl, rfl⟩ := c1
        refine first_rep (.rep 0 1) 1 1 0 0 (iha.2 hw.2.1 hw.1) rfl rfl rfl rfl (fun _ => rfl) (hx 0 (by omega)) (by omega) (fun d => rfl) (fun s hr => ?_)
        unfold firstPass; simp only [hr]; rfl
      · by_cases c2 : mn = 1 ∧ mx = none
        · obtain ⟨rfl, rfl⟩ := c2
          refine first_rep (.rep 1 0) 1 1 0 0 (iha.2 hw.2.1 hw.1) rfl rfl rfl rfl (fun _ => rfl) (hx 0 (by omega)) (by omega) (fun d => rfl) (fun s hr => ?_)
          unfold firstPass; simp only [hr]; rfl
        · have hc : repCode mn mx = 4 := by simp [repCode, c0, c1, c2]
          have g := (rep_cases hbr.2 c0 c1 c2)
          refine first_rep (.rep mn (mx.getD 0)) 1 4 mn (mn - 4) (iha.2 hw.2.1 hw.1) rfl (by simp only [bcost, hc]) (by simp only [ocost, if_neg c0])
            (by simp only [weight, hc, if_neg c0]) (fun _ => rfl) (hx _ (by omega)) (by omega) (fun d => rfl) (fun s hr => ?_)
          have hm : ¬ (mn > 254) ∧ ¬ (mx.getD 0 > 254) := by
            refine ⟨by omega, ?_⟩
            cases mx with
            | none => simp
            | some m => have := (hbr.2 m rfl).2.2; simp; omega
          unfold firstPass
          simp only [hr, g.1, g.2.1, g.2.2, Bool.not_true, Bool.false_eq_true, if_false, decide_eq_false hm.1, decide_eq_false hm.2, Bool.or_false]
  | grp nc a iha =>
    have h : Re.wf false (.grp nc a) → FirstAtom (.grp nc a) := fun hw => first_grp nc (iha.1 true hw)
    exact ⟨fun top hw => first_of_atom (h hw) (fun _ => rfl) (fun _ => rfl), fun hw _ => h hw⟩

theorem places_chars (r : Re) : ∀ f, r.chars ≤ places f r := by
  induction r with
  | seq a b iha ihb => intro f; have := iha false; have := ihb false; simp only [places, Re.chars]; omega
  | alt a b iha ihb => intro f; have := iha false; have := ihb false; simp only [places, Re.chars]; omega
  | star a ih | plus a ih | opt a ih | rep _ _ _ a ih => intro f; exact ih false
  | grp nc a ih => intro f; exact ih true
  | _ => intro f; simp [places, Re.chars]

/-- with a `|`, `^` or `$` there is one more than the characters -/
theorem places_more (r : Re) : ∀ top, r.wf top → r.plain = false → r.chars + 1 ≤ places top r := by
  induction r with
  | seq a b iha ihb =>
    intro top hw hp
    have := places_chars a false
    have := places_chars b false
    simp only [places, Re.chars]
    simp only [Re.plain, Bool.and_eq_false_iff] at hp
    rcases hp with h | h
    · have := iha false hw.1 h; omega
    · have := ihb false hw.2.1 h; omega
  | alt a b iha ihb =>
    intro top hw hp
    have := places_chars a false
    have := places_chars b false
    obtain rfl := hw.1
    simp only [places, Re.chars, if_true]; omega
  | star a ih | plus a ih | opt a ih => intro top hw hp; exact ih false hw.2 hp
  | rep _ _ _ a ih => intro top hw hp; exact ih false hw.2.1 hp
  | grp nc a ih => intro top hw hp; exact ih true hw hp
  | bol | eol => intro top _ _; simp [places, Re.chars]
  | _ => intro top _ h; cases h

end Strpp.Rx
