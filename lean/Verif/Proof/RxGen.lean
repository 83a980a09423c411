import Verif.Proof.RxScan
import Verif.Spec.RxSize
/-! The second pass of the compiler: the code of each construct. -/
set_option linter.unusedSimpArgs false
set_option linter.unusedVariables false
namespace Strpp.Rx
open Spec

/-- If it returns the result is as stated, and if there is room it returns -/
def Runs {α : Type} (room : Prop) (x : Res α) (Q : α → Prop) : Prop :=
  match x with
  | .ok a => Q a
  | .error _ => ¬ room

theorem Runs.ok {α : Type} {room : Prop} {a : α} {Q : α → Prop} (h : Q a) : Runs room (.ok a) Q := h

theorem Runs.bind {α β : Type} {room room1 : Prop} {x : Res α} {f : α → Res β} {Q : α → Prop} {R : β → Prop}
    (h1 : Runs room1 x Q) (hr : room → room1) (h2 : ∀ a, Q a → Runs room (f a) R) : Runs room (x >>= f) R := by
  cases x with
  | error e => exact fun h => h1 (hr h)
  | ok a => exact h2 a h1

theorem Runs.mono {α : Type} {room room1 : Prop} {x : Res α} {Q R : α → Prop} (h1 : Runs room1 x Q) (hr : room → room1)
    (h2 : ∀ a, Q a → R a) : Runs room x R := by
  cases x with
  | error e => exact fun h => h1 (hr h)
  | ok a => exact h2 a h1

theorem runs_emit (e : Env) (b bs : List Byte) :
    Runs (b.length + bs.length ≤ e.bytes + 1) (emit e b bs)
      (fun b' => b' = b ++ bs ∧ b.length + bs.length ≤ e.bytes + 1) := by
  unfold emit
  by_cases h : b.length + bs.length ≤ e.bytes + 1
  · rw [if_pos h]; exact ⟨rfl, h⟩
  · rw [if_neg h]; exact h

theorem runs_assert (c : Bool) : Runs (c = true) (assert c) (fun _ => c = true) := by
  cases c with
  | false => exact (by simp : ¬ (false = true))
  | true => exact (rfl : true = true)

/-- The offsets fit in the space reserved for them, and are correct when patched: `offset_max_bytes` of 3 or more is not
covered (see C47) -/
def EnvOK (e : Env) : Prop := (e.omb = 1 ∧ e.bytes ≤ 63) ∨ (e.omb = 2 ∧ e.bytes ≤ 1023)

theorem off_le (e : Env) (he : EnvOK e) (i : Int) (h : i.natAbs ≤ e.bytes) :
    1 ≤ (offsetBytes i).length ∧ (offsetBytes i).length ≤ e.omb ∧ i.natAbs < 2 ^ 30 := by
  rcases he with ⟨h1, h2⟩ | ⟨h1, h2⟩
  · rw [offsetBytes_len i (by omega), if_pos (by omega)]; omega
  · rw [offsetBytes_len i (by omega)]; split <;> omega

theorem padded_len (e : Env) (i : Int) : (paddedOffset e i).length = e.omb := by
  unfold paddedOffset
  rw [List.length_take, List.length_append, List.length_replicate]; omega

theorem take_app {α : Type} (a b : List α) (n : Nat) (h : n = a.length) : (a ++ b).take n = a := by
  subst h; exact List.take_left

theorem drop_app {α : Type} (a b : List α) (n : Nat) (h : n = a.length) : (a ++ b).drop n = b := by
  subst h; exact List.drop_left

theorem runs_insert (e : Env) (a b bs : List Byte) (loc : Nat) (hl : loc = a.length) :
    Runs ((a ++ b).length + bs.length ≤ e.bytes + 1) (insertAt e (a ++ b) loc bs)
      (fun b' => b' = a ++ bs ++ b ∧ (a ++ b).length + bs.length ≤ e.bytes + 1) := by
  unfold insertAt
  by_cases h : (a ++ b).length + bs.length ≤ e.bytes + 1
  · rw [if_pos ⟨by simp [hl], h⟩]
    exact ⟨by rw [take_app _ _ _ hl, drop_app _ _ _ hl], h⟩
  · rw [if_neg (fun hh => h hh.2)]; exact h

theorem runs_split (e : Env) (a b : List Byte) (loc : Nat) (hl : loc = a.length) :
    Runs ((a ++ b).length + 1 + e.omb ≤ e.bytes + 1) (insertSplit e (a ++ b) loc)
      (fun b' => b' = a ++ (opSplit :: paddedOffset e 0) ++ b ∧ (a ++ b).length + 1 + e.omb ≤ e.bytes + 1) := by
  have h := runs_insert e a b (opSplit :: paddedOffset e 0) loc hl
  rw [List.length_cons, padded_len] at h
  exact h.mono (by omega) (fun b' hb => ⟨hb.1, by omega⟩)

/-- A reserved offset is patched to reach `d` bytes beyond its end -/
theorem patch_exact (e : Env) (he : EnvOK e) (A X B : List Byte) (loc tgt d : Nat) (hl : loc = A.length) (hX : X.length = e.omb)
    (ht : tgt = loc + e.omb + d) (hd : e.omb + d ≤ e.bytes) :
    ∃ o : Int, patchOffset e (A ++ X ++ B) loc tgt = .ok (A ++ offsetBytes o ++ B, e.omb - (offsetBytes o).length) ∧
      o = (offsetBytes o).length + d ∧ 1 ≤ (offsetBytes o).length ∧ (offsetBytes o).length ≤ e.omb ∧ o.natAbs < 2 ^ 30 ∧
      (offsetBytes o).length = utf8LenCh (zigzag (e.omb + d : Nat)) := by
  have key : ∀ o : Int, (offsetBytes o).length ≤ e.omb →
      patchValueAt e (A ++ X ++ B) loc o = .ok (A ++ offsetBytes o ++ B, e.omb - (offsetBytes o).length) := by
    intro o ho
    unfold patchValueAt
    simp only
    rw [if_pos ⟨ho, by simp only [List.length_append]; omega⟩]
    rw [List.append_assoc A X B, take_app A _ _ hl, ← List.append_assoc A X B, drop_app (A ++ X) B _ (by simp [hl, hX])]
  unfold patchOffset
  have hoff : (tgt : Int) - loc = ((e.omb + d : Nat) : Int) := by omega
  simp only [hoff]
  have hnat : (((e.omb + d : Nat) : Int)).natAbs = e.omb + d := by omega
  rcases he with ⟨h1, h2⟩ | ⟨h1, h2⟩
  · have hn : utf8LenCh (zigzag ((e.omb + d : Nat) : Int)) = 1 := by rw [offLen _ (by omega), if_pos (by omega)]
    rw [hn, if_neg (by omega)]
    have hlen : (offsetBytes ((e.omb + d : Nat) : Int)).length = 1 := by rw [offsetBytes_length, hn]
    exact ⟨_, key _ (by omega), by omega, by omega, by omega, by omega, by rw [hlen]⟩
  · by_cases hs : e.omb + d < 64
    · have hn : utf8LenCh (zigzag ((e.omb + d : Nat) : Int)) = 1 := by rw [offLen _ (by omega), if_pos (by omega)]
      rw [hn, if_pos ⟨by omega, by omega⟩]
      have hv : ((e.omb + d : Nat) : Int) - ((e.omb - 1 : Nat) : Int) = ((1 + d : Nat) : Int) := by omega
      rw [hv]
      have hlen : (offsetBytes ((1 + d : Nat) : Int)).length = 1 := by
        rw [offsetBytes_len _ (by omega), if_pos (by omega)]
      exact ⟨_, key _ (by omega), by omega, by omega, by omega, by omega, by rw [hlen]⟩
    · have hn : utf8LenCh (zigzag ((e.omb + d : Nat) : Int)) = 2 := by rw [offLen _ (by omega), if_neg (by omega)]
      rw [hn, if_neg (by omega)]
      have hlen : (offsetBytes ((e.omb + d : Nat) : Int)).length = 2 := by rw [offsetBytes_length, hn]
      exact ⟨_, key _ (by omega), by omega, by omega, by omega, by omega, by rw [hlen]⟩

/-- The two offsets of a `*` -/
theorem star_exact (e : Env) (he : EnvOK e) (c : Nat) (h : c + 4 + e.omb ≤ e.bytes + 1) :
    ∃ rev fwd : Nat, starLoop e (e.omb + c + 1) 8 e.omb = .ok (rev, -((c : Int) + 2 + fwd)) ∧
      fwd = utf8LenCh (zigzag (e.omb + (c + 1 + rev) : Nat)) ∧ rev = utf8LenCh (zigzag (-((c : Int) + 2 + fwd))) ∧ 1 ≤ rev ∧
      rev ≤ e.omb := by
  rcases he with ⟨h1, h2⟩ | ⟨h1, h2⟩
  · refine ⟨1, 1, ?_, ?_, ?_, by omega, by omega⟩
    · rw [starLoop]
      simp only [h1]
      have a1 : (((1 + c + 1 : Nat) : Int) + ((1 : Nat) : Int)) = ((c + 3 : Nat) : Int) := by omega
      rw [a1]
      have a2 : utf8LenCh (zigzag ((c + 3 : Nat) : Int)) = 1 := by rw [offLen _ (by omega), if_pos (by omega)]
      rw [a2]
      have a3 : -(((1 + c + 1 : Nat) : Int) + 1 - (((1 : Nat) : Int) - ((1 : Nat) : Int))) = -((c : Int) + 2 + (1 : Nat)) := by omega
      rw [a3]
      have a4 : utf8LenCh (zigzag (-((c : Int) + 2 + (1 : Nat)))) = 1 := by rw [offLen _ (by omega), if_pos (by omega)]
      rw [a4, if_neg (by omega)]
    · rw [offLen _ (by omega), if_pos (by omega)]
    · rw [offLen _ (by omega), if_pos (by omega)]
  · by_cases hs : c ≤ 59
    · refine ⟨1, 1, ?_, ?_, ?_, by omega, by omega⟩
      · rw [starLoop]
        simp only [h1]
        have hfwd : ∃ f : Nat, utf8LenCh (zigzag (((2 + c + 1 : Nat) : Int) + ((2 : Nat) : Int))) = f ∧ f ≤ 2 ∧ (c ≤ 58 → f = 1) := by
          refine ⟨_, rfl, ?_, ?_⟩
          · rw [offLen _ (by omega)]; split <;> omega
          · intro hc; rw [offLen _ (by omega), if_pos (by omega)]
        obtain ⟨f, hf, hf2, hf1⟩ := hfwd
        rw [hf]
        have a4 : utf8LenCh (zigzag (-(((2 + c + 1 : Nat) : Int) + 1 - (((2 : Nat) : Int) - (f : Int))))) = 1 := by
          rw [offLen _ (by omega), if_pos (by omega)]
        rw [a4, if_pos (by omega), starLoop]
        simp only [h1]
        have a2 : utf8LenCh (zigzag (((2 + c + 1 : Nat) : Int) + ((1 : Nat) : Int))) = 1 := by rw [offLen _ (by omega), if_pos (by omega)]
        rw [a2]
        have a3 : -(((2 + c + 1 : Nat) : Int) + 1 - (((2 : Nat) : Int) - ((1 : Nat) : Int))) = -((c : Int) + 2 + (1 : Nat)) := by omega
        rw [a3]
        have a5 : utf8LenCh (zigzag (-((c : Int) + 2 + (1 : Nat)))) = 1 := by rw [offLen _ (by omega), if_pos (by omega)]
        rw [a5, if_neg (by omega)]
      · rw [offLen _ (by omega), if_pos (by omega)]
      · rw [offLen _ (by omega), if_pos (by omega)]
    · refine ⟨2, 2, ?_, ?_, ?_, by omega, by omega⟩
      · rw [starLoop]
        simp only [h1]
        have a2 : utf8LenCh (zigzag (((2 + c + 1 : Nat) : Int) + ((2 : Nat) : Int))) = 2 := by rw [offLen _ (by omega), if_neg (by omega)]
        rw [a2]
        have a3 : -(((2 + c + 1 : Nat) : Int) + 1 - (((2 : Nat) : Int) - ((2 : Nat) : Int))) = -((c : Int) + 2 + (2 : Nat)) := by omega
        rw [a3]
        have a5 : utf8LenCh (zigzag (-((c : Int) + 2 + (2 : Nat)))) = 2 := by rw [offLen _ (by omega), if_neg (by omega)]
        rw [a5, if_neg (by omega)]
      · rw [offLen _ (by omega), if_neg (by omega)]
      · rw [offLen _ (by omega), if_neg (by omega)]

/-! ### Running the second pass over a list of tokens -/

def genTok (e : Env) (s : P2) (t : Tok) : Res P2 := do
  let s ← gen e s t
  assert (s.buf.length < e.bytes)
  .ok s

def genAll (e : Env) : List Ev → P2 → Res P2
  | [], s => .ok s
  | .err _ :: evs, s => genAll e evs s
  | .tok t :: evs, s => do
    let s ← genTok e s t
    genAll e evs s

theorem res_assoc {α β γ : Type} (x : Res α) (f : α → Res β) (g : β → Res γ) : ((x >>= f) >>= g) = (x >>= fun a => f a >>= g) := by
  cases x <;> rfl

theorem genAll_append (e : Env) (xs ys : List Ev) : ∀ s, genAll e (xs ++ ys) s = (genAll e xs s >>= fun s => genAll e ys s) := by
  induction xs with
  | nil => intro s; rfl
  | cons x xs ih =>
    intro s
    cases x with
    | err m => exact ih s
    | tok t =>
      show (genTok e s t >>= fun s => genAll e (xs ++ ys) s) = ((genTok e s t >>= fun s => genAll e xs s) >>= fun s => genAll e ys s)
      rw [res_assoc]
      congr 1
      funext s
      exact ih s

theorem genAll_one (e : Env) (t : Tok) (s : P2) : genAll e [.tok t] s = genTok e s t := by
  show (genTok e s t >>= fun s => .ok s) = _
  cases genTok e s t <;> rfl

/-- the second pass returns true for every token -/
theorem runPass_gen (e : Env) (evs : List Ev) : ∀ s, evs.any Ev.isErr = false →
    runPass (secondPass e) evs s = (genAll e evs s >>= fun s => .ok (s, true)) := by
  induction evs with
  | nil => intro s _; rfl
  | cons x xs ih =>
    intro s h
    cases x with
    | err m => simp [Ev.isErr] at h
    | tok t =>
      have h' : xs.any Ev.isErr = false := by simpa [Ev.isErr] using h
      rw [runPass, genAll, secondPass, genTok]
      cases gen e s t with
      | error f => rfl
      | ok s1 =>
        simp only [res_bind_ok]
        by_cases hl : s1.buf.length < e.bytes
        · simp only [hl, decide_true, assert_true, res_bind_ok]; exact ih s1 h'
        · simp only [hl, decide_false, assert_false, res_bind_err]

/-- a token: the assertion of rx/rxcompile.cpp:1109 -/
theorem Runs.tok {e : Env} {s : P2} {t : Tok} {room : Prop} {Q : P2 → Prop}
    (h : Runs room (gen e s t) (fun s' => Q s' ∧ (room → s'.buf.length < e.bytes))) :
    Runs room (genTok e s t) (fun s' => Q s' ∧ s'.buf.length < e.bytes) := by
  unfold genTok
  refine Runs.bind h id fun s' hs => ?_
  refine Runs.bind (runs_assert _) (fun hr => by simpa using hs.2 hr) fun _ ha => ?_
  exact Runs.ok ⟨hs.1, by simpa using ha⟩

/-- the bytes an expression takes at most -/
def cost (omb : Nat) : Re → Nat
  | .empty => 0
  | .chr _ c => 1 + (utf8Put c).length
  | .any | .bol | .eol => 1
  | .cls _ _ rs => 1 + (stringBytes (rangeChars rs)).length
  | .prop _ p => 1 + (stringBytes [p.code]).length
  | .seq a b => cost omb a + cost omb b
  | .alt a b => cost omb a + (2 + 2 * omb) + cost omb b
  | .star a => cost omb a + (2 + 2 * omb)
  | .plus a | .opt a => cost omb a + (1 + omb)
  | .rep _ mn mx a => cost omb a + (repCode mn mx + (if mn = 0 ∧ mx = none then 2 else 1) * omb)
  | .grp _ a => cost omb a

/-- Sending the pending literal -/
theorem runs_flush (e : Env) (s : P2) (d : List UCS4) :
    Runs (s.buf.length + (litBytes d).length < e.bytes) (genAll e (flush d) s)
      (fun s' => s'.buf = s.buf ++ litBytes d ∧ s'.stack = s.stack) := by
  unfold flush
  by_cases hd : d.length > 0
  · rw [if_pos hd, genAll_one]
    refine Runs.mono (Runs.tok (Q := fun s' => s'.buf = s.buf ++ litBytes d ∧ s'.stack = s.stack) ?_) id fun s' hs => hs.1
    show Runs _ (emit e s.buf (litBytes d) >>= fun b => .ok { s with lastAtom := s.buf.length, buf := b }) _
    refine Runs.bind (runs_emit e _ _) (fun h => by omega) fun b hb => ?_
    obtain ⟨rfl, hb⟩ := hb
    exact Runs.ok ⟨⟨rfl, rfl⟩, fun h => by simpa using h⟩
  · rw [if_neg hd]
    have : d = [] := by cases d with | nil => rfl | cons => simp at hd
    subst this
    exact Runs.ok ⟨by simp [litBytes], rfl⟩

/-- a token that stores bytes after the pending literal -/
theorem runs_simple (e : Env) (s : P2) (d : List UCS4) (t : Tok) (bs : List Byte)
    (ht : ∀ s, gen e s t = (emit e s.buf bs >>= fun b => .ok { s with lastAtom := s.buf.length, buf := b })) :
    Runs (s.buf.length + (litBytes d).length + bs.length < e.bytes) (genAll e (flush d ++ [.tok t]) s)
      (fun s' => s'.buf = s.buf ++ litBytes d ++ bs ∧ s'.lastAtom = (s.buf ++ litBytes d).length ∧ s'.stack = s.stack ∧
        bs.length ≤ e.bytes + 1) := by
  rw [genAll_append]
  refine Runs.bind (runs_flush e s d) (fun h => by omega) fun s1 h1 => ?_
  obtain ⟨hb1, hs1⟩ := h1
  rw [genAll_one]
  refine Runs.mono (Runs.tok (Q := fun s' => s'.buf = s.buf ++ litBytes d ++ bs ∧ s'.lastAtom = (s.buf ++ litBytes d).length ∧
    s'.stack = s.stack ∧ bs.length ≤ e.bytes + 1) ?_) id fun s' hs => hs.1
  rw [ht]
  refine Runs.bind (runs_emit e _ _) (fun h => by rw [hb1, List.length_append]; omega) fun b hb => ?_
  obtain ⟨rfl, hb⟩ := hb
  refine Runs.ok ⟨⟨by rw [hb1], by rw [hb1], hs1, by omega⟩, fun h => ?_⟩
  simp only [hb1, List.length_append]; omega

/-! ### Repetitions -/

theorem runs_star (e : Env) (he : EnvOK e) (s : P2) (a : Re) (pre c : List Byte) (hb : s.buf = pre ++ c) (hl : s.lastAtom = pre.length)
    (hp : 4 ≤ pre.length) (hc : Code true a c) :
    Runs (pre.length + c.length + (2 + 2 * e.omb) < e.bytes) (genTok e s (.rep 0 0))
      (fun s' => (∃ bs, Code true (.star a) bs ∧ bs.length ≤ c.length + (2 + 2 * e.omb) ∧ s'.buf = pre ++ bs) ∧ s'.stack = s.stack) := by
  refine Runs.mono (Runs.tok (Q := fun s' => (∃ bs, Code true (.star a) bs ∧ bs.length ≤ c.length + (2 + 2 * e.omb) ∧
    s'.buf = pre ++ bs) ∧ s'.stack = s.stack) ?_) id fun s' hs => hs.1
  have homb : e.omb ≤ 2 := by rcases he with h | h <;> omega
  show Runs _ (genRep e s 0 0 >>= fun r => .ok { r with lastAtom := s.buf.length }) _
  have hg : genRep e s 0 0 = (insertSplit e s.buf s.lastAtom >>= fun b => emit e b [opJump] >>= fun b =>
    starLoop e (b.length - (s.lastAtom + 1)) 8 e.omb >>= fun r => patchOffset e b (s.lastAtom + 1) (b.length + r.1) >>= fun p =>
    emit e p.1 (offsetBytes r.2) >>= fun b => .ok { s with buf := b }) := rfl
  rw [hg, hb, hl, res_assoc]
  refine Runs.bind (runs_split e pre c pre.length rfl) (fun h => by rw [List.length_append]; omega) fun b1 h1 => ?_
  obtain ⟨rfl, h1⟩ := h1
  rw [res_assoc]
  refine Runs.bind (runs_emit e _ _) (fun h => by simp only [List.length_append, List.length_cons, padded_len, List.length_nil]; omega)
    fun b2 h2 => ?_
  obtain ⟨rfl, h2⟩ := h2
  simp only [List.length_append, List.length_cons, List.length_nil, padded_len] at h2
  obtain ⟨rev, fwd, hs1, hf, hr, hr1, hr2⟩ := star_exact e he c.length (by omega)
  have hn : (pre ++ opSplit :: paddedOffset e 0 ++ c ++ [opJump]).length - (pre.length + 1) = e.omb + c.length + 1 := by
    simp only [List.length_append, List.length_cons, List.length_nil, padded_len]; omega
  rw [hn, hs1, res_bind_ok]
  have hlen : (pre ++ opSplit :: paddedOffset e 0 ++ c ++ [opJump]).length = pre.length + 1 + e.omb + (c.length + 1) := by
    simp only [List.length_append, List.length_cons, List.length_nil, padded_len]; omega
  obtain ⟨o, hpo, ho1, ho2, ho3, ho4, ho5⟩ := patch_exact e he (pre ++ [opSplit]) (paddedOffset e 0) (c ++ [opJump]) (pre.length + 1)
    ((pre ++ opSplit :: paddedOffset e 0 ++ c ++ [opJump]).length + rev) (c.length + 1 + rev) (by simp) (padded_len e 0)
    (by rw [hlen]; omega) (by omega)
  have e1 : pre ++ [opSplit] ++ paddedOffset e 0 ++ (c ++ [opJump]) = pre ++ opSplit :: paddedOffset e 0 ++ c ++ [opJump] := by
    simp [List.append_assoc]
  rw [e1] at hpo
  rw [hpo, res_bind_ok]
  have hrevlen : (offsetBytes (-((c.length : Int) + 2 + fwd))).length = rev := by rw [offsetBytes_length, ← hr]
  have hfo : fwd = (offsetBytes o).length := by rw [ho5, hf]
  rw [res_assoc]
  refine Runs.bind (runs_emit e _ _) (fun h => by
    simp only [List.length_append, List.length_cons, List.length_nil, hrevlen]; omega) fun b3 h3 => ?_
  obtain ⟨rfl, h3⟩ := h3
  refine Runs.ok ⟨⟨⟨opSplit :: offsetBytes o ++ c ++ opJump :: offsetBytes (-((c.length : Int) + 2 + fwd)), ?_, ?_, ?_⟩, rfl⟩, ?_⟩
  · exact .star a c o _ hc (by omega) ho4 (by rw [hfo]; omega) (by omega)
  · simp only [List.length_append, List.length_cons, hrevlen]; omega
  · simp [List.append_assoc]
  · intro h
    simp only [List.length_append, List.length_cons, List.length_nil, hrevlen]; omega

theorem runs_opt (e : Env) (he : EnvOK e) (s : P2) (a : Re) (pre c : List Byte) (hb : s.buf = pre ++ c) (hl : s.lastAtom = pre.length)
    (hp : 4 ≤ pre.length) (hc : Code true a c) :
    Runs (pre.length + c.length + (1 + e.omb) < e.bytes) (genTok e s (.rep 0 1))
      (fun s' => (∃ bs, Code true (.opt a) bs ∧ bs.length ≤ c.length + (1 + e.omb) ∧ s'.buf = pre ++ bs) ∧ s'.stack = s.stack) := by
  refine Runs.mono (Runs.tok (Q := fun s' => (∃ bs, Code true (.opt a) bs ∧ bs.length ≤ c.length + (1 + e.omb) ∧
    s'.buf = pre ++ bs) ∧ s'.stack = s.stack) ?_) id fun s' hs => hs.1
  have homb : e.omb ≤ 2 := by rcases he with h | h <;> omega
  show Runs _ (genRep e s 0 1 >>= fun r => .ok { r with lastAtom := s.buf.length }) _
  have hg : genRep e s 0 1 = (insertSplit e s.buf s.lastAtom >>= fun b =>
    patchOffset e b (s.lastAtom + 1) b.length >>= fun p => .ok { s with buf := p.1 }) := rfl
  rw [hg, hb, hl, res_assoc]
  refine Runs.bind (runs_split e pre c pre.length rfl) (fun h => by rw [List.length_append]; omega) fun b1 h1 => ?_
  obtain ⟨rfl, h1⟩ := h1
  rw [List.length_append] at h1
  have hlen : (pre ++ opSplit :: paddedOffset e 0 ++ c).length = pre.length + 1 + e.omb + c.length := by
    simp only [List.length_append, List.length_cons, padded_len]; omega
  obtain ⟨o, hpo, ho1, ho2, ho3, ho4, ho5⟩ := patch_exact e he (pre ++ [opSplit]) (paddedOffset e 0) c (pre.length + 1)
    (pre ++ opSplit :: paddedOffset e 0 ++ c).length c.length (by simp) (padded_len e 0) (by rw [hlen]) (by omega)
  have e1 : pre ++ [opSplit] ++ paddedOffset e 0 ++ c = pre ++ opSplit :: paddedOffset e 0 ++ c := by simp [List.append_assoc]
  rw [e1] at hpo
  rw [hpo]
  refine Runs.ok ⟨⟨⟨opSplit :: offsetBytes o ++ c, .opt a c o hc ho1 ho4, ?_, ?_⟩, rfl⟩, ?_⟩
  · simp only [List.length_append, List.length_cons]; omega
  · simp [List.append_assoc]
  · intro h
    simp only [List.length_append, List.length_cons, List.length_nil]; omega

theorem runs_plus (e : Env) (he : EnvOK e) (s : P2) (a : Re) (pre c : List Byte) (hb : s.buf = pre ++ c) (hl : s.lastAtom = pre.length)
    (hp : 4 ≤ pre.length) (hc : Code true a c) :
    Runs (pre.length + c.length + (1 + e.omb) < e.bytes) (genTok e s (.rep 1 0))
      (fun s' => (∃ bs, Code true (.plus a) bs ∧ bs.length ≤ c.length + (1 + e.omb) ∧ s'.buf = pre ++ bs) ∧ s'.stack = s.stack) := by
  refine Runs.mono (Runs.tok (Q := fun s' => (∃ bs, Code true (.plus a) bs ∧ bs.length ≤ c.length + (1 + e.omb) ∧
    s'.buf = pre ++ bs) ∧ s'.stack = s.stack) ?_) id fun s' hs => hs.1
  show Runs _ (genRep e s 1 0 >>= fun r => .ok { r with lastAtom := s.buf.length }) _
  have hg : genRep e s 1 0 = (emit e s.buf [opSplit] >>= fun b =>
    emit e b (offsetBytes ((s.lastAtom : Int) - b.length)) >>= fun b => .ok { s with buf := b }) := rfl
  rw [hg, hb, hl, res_assoc]
  refine Runs.bind (runs_emit e _ _) (fun h => by simp only [List.length_append, List.length_cons, List.length_nil]; omega) fun b1 h1 => ?_
  obtain ⟨rfl, h1⟩ := h1
  simp only [List.length_append, List.length_cons, List.length_nil] at h1
  have ho : (pre.length : Int) - (pre ++ c ++ [opSplit]).length = -(c.length + 1 : Int) := by
    simp only [List.length_append, List.length_cons, List.length_nil]; omega
  rw [ho]
  have hlen := off_le e he (-(c.length + 1 : Int)) (by omega)
  rw [res_assoc]
  refine Runs.bind (runs_emit e _ _) (fun h => by simp only [List.length_append, List.length_cons, List.length_nil]; omega) fun b2 h2 => ?_
  obtain ⟨rfl, h2⟩ := h2
  refine Runs.ok ⟨⟨⟨c ++ opSplit :: offsetBytes (-(c.length + 1 : Int)), .plus a c _ hc rfl (by omega), ?_, ?_⟩, rfl⟩, ?_⟩
  · simp only [List.length_append, List.length_cons]; omega
  · simp [List.append_assoc]
  · intro h
    simp only [List.length_append, List.length_cons, List.length_nil]; omega

theorem rep_cases {mn : Nat} {mx : Option Nat} (hmx : ∀ m, mx = some m → mn ≤ m ∧ 1 ≤ m ∧ m ≤ 254) (h0 : ¬ (mn = 0 ∧ mx = none))
    (h1 : ¬ (mn = 0 ∧ mx = some 1)) (h2 : ¬ (mn = 1 ∧ mx = none)) :
    (mn == 0 && mx.getD 0 == 0) = false ∧ (mn == 0 && mx.getD 0 == 1) = false ∧ (mn == 1 && mx.getD 0 == 0) = false := by
  have hz : ∀ j : Nat, mx.getD 0 = j → (mx = none ∧ j = 0) ∨ (mx = some j ∧ 1 ≤ j) := by
    intro j hj
    cases mx with
    | none => left; exact ⟨rfl, hj.symm⟩
    | some m =>
      have : m = j := hj
      subst this
      exact .inr ⟨rfl, (hmx m rfl).2.1⟩
  have c0 : (mn == 0 && mx.getD 0 == 0) = false := by
    rw [Bool.eq_false_iff]; intro h
    rw [Bool.and_eq_true, beq_iff_eq, beq_iff_eq] at h
    rcases hz 0 h.2 with h' | h'
    · exact h0 ⟨h.1, h'.1⟩
    · omega
  have c1 : (mn == 0 && mx.getD 0 == 1) = false := by
    rw [Bool.eq_false_iff]; intro h
    rw [Bool.and_eq_true, beq_iff_eq, beq_iff_eq] at h
    rcases hz 1 h.2 with h' | h'
    · omega
    · exact h1 ⟨h.1, h'.1⟩
  have c2 : (mn == 1 && mx.getD 0 == 0) = false := by
    rw [Bool.eq_false_iff]; intro h
    rw [Bool.and_eq_true, beq_iff_eq, beq_iff_eq] at h
    rcases hz 0 h.2 with h' | h'
    · exact h2 ⟨h.1, h'.1⟩
    · omega
  exact ⟨c0, c1, c2⟩

theorem runs_rep (e : Env) (he : EnvOK e) (s : P2) (a : Re) (pre c : List Byte) (hb : s.buf = pre ++ c) (hl : s.lastAtom = pre.length)
    (hp : 4 ≤ pre.length) (hc : Code true a c) (w : List UCS4) (mn : Nat) (mx : Option Nat) (hmn : mn ≤ 254)
    (hmx : ∀ m, mx = some m → mn ≤ m ∧ 1 ≤ m ∧ m ≤ 254) (h0 : ¬ (mn = 0 ∧ mx = none)) (h1 : ¬ (mn = 0 ∧ mx = some 1)) (h2 : ¬ (mn = 1 ∧ mx = none)) :
    Runs (pre.length + c.length + (4 + e.omb) < e.bytes) (genTok e s (.rep mn (mx.getD 0)))
      (fun s' => (∃ bs, Code true (.rep w mn mx a) bs ∧ bs.length ≤ c.length + (4 + e.omb) ∧ s'.buf = pre ++ bs) ∧ s'.stack = s.stack) := by
  refine Runs.mono (Runs.tok (Q := fun s' => (∃ bs, Code true (.rep w mn mx a) bs ∧ bs.length ≤ c.length + (4 + e.omb) ∧
    s'.buf = pre ++ bs) ∧ s'.stack = s.stack) ?_) id fun s' hs => hs.1
  show Runs _ (genRep e s mn (mx.getD 0) >>= fun r => .ok { r with lastAtom := s.buf.length }) _
  have hg : genRep e s mn (mx.getD 0) = (insertAt e s.buf s.lastAtom [opZero] >>= fun b =>
    emit e b [opCount, BitVec.ofNat 8 (mn + 1), BitVec.ofNat 8 (mx.getD 0 + 1)] >>= fun b =>
    emit e b (offsetBytes ((s.lastAtom : Int) + 1 - b.length)) >>= fun b => .ok { s with buf := b }) := by
    obtain ⟨c0, c1, c2⟩ := rep_cases hmx h0 h1 h2
    unfold genRep
    simp only [c0, c1, c2, Bool.false_eq_true, if_false]
  rw [hg, hb, hl, res_assoc]
  refine Runs.bind (runs_insert e pre c [opZero] pre.length rfl) (fun h => by
    simp only [List.length_append, List.length_cons, List.length_nil]; omega) fun b1 h1 => ?_
  obtain ⟨rfl, h1⟩ := h1
  simp only [List.length_append, List.length_cons, List.length_nil] at h1
  rw [res_assoc]
  refine Runs.bind (runs_emit e _ _) (fun h => by simp only [List.length_append, List.length_cons, List.length_nil]; omega) fun b2 h2 => ?_
  obtain ⟨rfl, h2⟩ := h2
  simp only [List.length_append, List.length_cons, List.length_nil] at h2
  have ho : (pre.length : Int) + 1 - (pre ++ [opZero] ++ c ++ [opCount, BitVec.ofNat 8 (mn + 1), BitVec.ofNat 8 (mx.getD 0 + 1)]).length =
      -(c.length + 3 : Int) := by
    simp only [List.length_append, List.length_cons, List.length_nil]; omega
  rw [ho]
  have hlen := off_le e he (-(c.length + 3 : Int)) (by omega)
  rw [res_assoc]
  refine Runs.bind (runs_emit e _ _) (fun h => by simp only [List.length_append, List.length_cons, List.length_nil]; omega) fun b3 h3 => ?_
  obtain ⟨rfl, h3⟩ := h3
  refine Runs.ok ⟨⟨⟨opZero :: c ++ opCount :: BitVec.ofNat 8 (mn + 1) :: BitVec.ofNat 8 (mx.getD 0 + 1) :: offsetBytes (-(c.length + 3 : Int)),
    .rep w mn mx a c _ rfl hc hmn hmx rfl (by omega), ?_, ?_⟩, rfl⟩, ?_⟩
  · simp only [List.length_append, List.length_cons]; omega
  · simp [List.append_assoc]
  · intro h
    simp only [List.length_append, List.length_cons, List.length_nil]; omega

/-- what is written in braces -/
theorem braces_le {w : List UCS4} {mn : Nat} {mx : Option Nat} (h : Braces w mn mx) :
    mn ≤ 254 ∧ ∀ m, mx = some m → mn ≤ m ∧ 1 ≤ m ∧ m ≤ 254 := by
  cases h with
  | exactly _ _ h h0 => refine ⟨h.2.2.2.2, fun m e => ?_⟩; cases e; exact ⟨Nat.le_refl _, by omega, h.2.2.2.2⟩
  | atLeast v _ h => exact ⟨h.2.2.2.2, nofun⟩
  | atMost v m h h0 => refine ⟨by omega, fun m e => ?_⟩; cases e; exact ⟨by omega, by omega, h.2.2.2.2⟩
  | between v w _ m h h' hle h0 => refine ⟨h.2.2.2.2, fun m e => ?_⟩; cases e; exact ⟨hle, by omega, h'.2.2.2.2⟩
  | any => exact ⟨by omega, nofun⟩

/-! ### Alternatives -/

/-- The alternatives before the last one, as they are while their group is open: `lastJump` is where the offset of the
last jump is -/
inductive Region (e : Env) (c0 : Nat) : List Re → List Byte → Nat → Prop
  | nil : Region e c0 [] [] 0
  | one (a : Re) (x : List Byte) : Code true a x →
      Region e c0 [a] ((opSplit :: paddedOffset e 0) ++ x ++ (opJump :: paddedOffset e 0)) (c0 + (1 + e.omb) + x.length + 1)
  | snoc (cs : List Re) (X : List Byte) (j : Nat) (a : Re) (x : List Byte) : Region e c0 cs X j → cs ≠ [] → Code true a x →
      Region e c0 (cs ++ [a]) (X ++ (opSplit :: paddedOffset e 0) ++ x ++
        (opJump :: paddedOffset e ((j : Int) - (c0 + X.length + (1 + e.omb) + x.length + 1 : Nat))))
        (c0 + X.length + (1 + e.omb) + x.length + 1)

theorem Region.jump {e c0 cs X j} (h : Region e c0 cs X j) (hne : cs ≠ []) : j + e.omb = c0 + X.length ∧ 0 < j := by
  cases h with
  | nil => exact (hne rfl).elim
  | one a x _ => simp only [List.length_append, List.length_cons, padded_len]; omega
  | snoc cs X j a x _ _ _ => simp only [List.length_append, List.length_cons, padded_len]; omega

theorem Region.empty {e c0 X j} (h : Region e c0 [] X j) : X = [] ∧ j = 0 := by
  generalize hcs : ([] : List Re) = cs at h
  cases h with
  | nil => exact ⟨rfl, rfl⟩
  | one => cases hcs
  | snoc => simp at hcs

theorem padded_eq (e : Env) (i : Int) (h : (offsetBytes i).length ≤ e.omb) : ∃ z, paddedOffset e i = offsetBytes i ++ z := by
  unfold paddedOffset
  rw [List.take_append, List.take_of_length_le h]
  exact ⟨_, rfl⟩

theorem rdI_app {α : Type} (A : List α) (x : α) (B : List α) (i : Int) (h : i = A.length) : rdI (A ++ x :: B) i = .ok x := by
  subst h
  unfold rdI
  rw [if_neg (by omega), Int.toNat_natCast, rd_eq_ok]
  simp

/-- One jump and the split before it are patched -/
theorem fix_step (e : Env) (he : EnvOK e) (c0 fuel : Nat) (A x y : List Byte) (i : Int) (a r : Re) (jump : Nat)
    (hj : jump = A.length + (1 + e.omb) + x.length + 1) (hA : 4 ≤ A.length) (hi : i ≤ 0) (hi2 : i.natAbs ≤ e.bytes)
    (hsp : if i = 0 then c0 = A.length else (jump : Int) + i + e.omb = A.length)
    (hl : jump + e.omb + y.length ≤ e.bytes + 1) (ha : Code true a x) (hr : Code true r y) :
    ∃ bs, fixupLoop e c0 (fuel + 1) (A ++ (opSplit :: paddedOffset e 0) ++ x ++ (opJump :: paddedOffset e i) ++ y) jump =
        (if i = 0 then .ok (A ++ bs) else fixupLoop e c0 fuel (A ++ bs) ((jump : Int) + i).toNat) ∧ Code true (.alt a r) bs ∧
      bs.length ≤ 2 + 2 * e.omb + x.length + y.length := by
  have homb : e.omb ≤ 2 := by rcases he with h | h <;> omega
  have hoi := off_le e he i hi2
  obtain ⟨z, hz⟩ := padded_eq e i hoi.2.1
  -- the jump
  have hget : getOffset (A ++ (opSplit :: paddedOffset e 0) ++ x ++ (opJump :: paddedOffset e i) ++ y) jump =
      .ok (i, jump + (offsetBytes i).length) := by
    have hlen : (A ++ (opSplit :: paddedOffset e 0) ++ x ++ [opJump]).length = jump := by
      simp only [List.length_append, List.length_cons, List.length_nil, padded_len]; omega
    have := getOffset_put (A ++ (opSplit :: paddedOffset e 0) ++ x ++ [opJump]) i (z ++ y) hoi.2.2
    rw [hlen] at this
    rw [← this, hz]
    congr 1
    simp [List.append_assoc]
  have hop : rdI (A ++ (opSplit :: paddedOffset e 0) ++ x ++ (opJump :: paddedOffset e i) ++ y) ((jump : Int) - 1) = .ok opJump := by
    rw [List.append_assoc]
    exact rdI_app _ _ _ _ (by simp only [List.length_append, List.length_cons, padded_len]; omega)
  have hblen : (A ++ (opSplit :: paddedOffset e 0) ++ x ++ (opJump :: paddedOffset e i) ++ y).length = jump + e.omb + y.length := by
    simp only [List.length_append, List.length_cons, padded_len]; omega
  obtain ⟨o2, hp2, b1, b2, b3, b4, -⟩ := patch_exact e he (A ++ (opSplit :: paddedOffset e 0) ++ x ++ [opJump]) (paddedOffset e i) y
    jump (jump + e.omb + y.length) y.length (by simp only [List.length_append, List.length_cons, List.length_nil, padded_len]; omega)
    (padded_len e i) rfl (by omega)
  have e1 : A ++ (opSplit :: paddedOffset e 0) ++ x ++ [opJump] ++ paddedOffset e i ++ y =
      A ++ (opSplit :: paddedOffset e 0) ++ x ++ (opJump :: paddedOffset e i) ++ y := by simp [List.append_assoc]
  rw [e1] at hp2
  -- the split
  have hps : (if i ≠ 0 then (jump : Int) + i + e.omb + 1 else (c0 : Int) + 1) = ((A.length + 1 : Nat) : Int) := by
    by_cases h0 : i = 0
    · rw [if_pos h0] at hsp; rw [if_neg (by simp [h0])]; omega
    · rw [if_neg h0] at hsp; rw [if_pos h0]; omega
  have hop2 : rdI (A ++ (opSplit :: paddedOffset e 0) ++ x ++ [opJump] ++ offsetBytes o2 ++ y) (((A.length + 1 : Nat) : Int) - 1) =
      .ok opSplit := by
    have : A ++ (opSplit :: paddedOffset e 0) ++ x ++ [opJump] ++ offsetBytes o2 ++ y =
      A ++ opSplit :: (paddedOffset e 0 ++ x ++ [opJump] ++ offsetBytes o2 ++ y) := by simp [List.append_assoc]
    rw [this]
    exact rdI_app _ _ _ _ (by omega)
  obtain ⟨o1, hp1, c1, c2, c3, c4, -⟩ := patch_exact e he (A ++ [opSplit]) (paddedOffset e 0) (x ++ [opJump] ++ offsetBytes o2 ++ y)
    (A.length + 1) (jump + e.omb - (e.omb - (offsetBytes o2).length)) (x.length + 1 + (offsetBytes o2).length)
    (by simp) (padded_len e 0) (by omega) (by omega)
  have e2 : A ++ [opSplit] ++ paddedOffset e 0 ++ (x ++ [opJump] ++ offsetBytes o2 ++ y) =
      A ++ (opSplit :: paddedOffset e 0) ++ x ++ [opJump] ++ offsetBytes o2 ++ y := by simp [List.append_assoc]
  rw [e2] at hp1
  have e3 : A ++ [opSplit] ++ offsetBytes o1 ++ (x ++ [opJump] ++ offsetBytes o2 ++ y) =
      A ++ (opSplit :: offsetBytes o1 ++ x ++ opJump :: offsetBytes o2 ++ y) := by simp [List.append_assoc]
  rw [e3] at hp1
  refine ⟨opSplit :: offsetBytes o1 ++ x ++ opJump :: offsetBytes o2 ++ y, ?_, .alt a r x y o1 o2 ha hr (by omega) c4 (by omega) b4, ?_⟩
  · rw [fixupLoop, hget]
    simp only [res_bind_ok]
    rw [hop]
    simp only [res_bind_ok, beq_self_eq_true, assert_true]
    rw [hblen, hp2]
    simp only [res_bind_ok]
    rw [hps, hop2]
    simp only [res_bind_ok, beq_self_eq_true, assert_true, Int.toNat_natCast]
    rw [hp1]
    simp only [res_bind_ok]
    by_cases h0 : i = 0
    · rw [if_pos h0, if_pos h0]
    · rw [if_neg h0, if_neg h0]
      have : decide (i < 0) = true := by simp; omega
      rw [this]; rfl
  · simp only [List.length_append, List.length_cons]; omega

theorem Region.len {e c0 cs X j} (h : Region e c0 cs X j) (hne : cs ≠ []) : cs.length + e.omb ≤ X.length := by
  induction h with
  | nil => exact (hne rfl).elim
  | one a x _ => simp only [List.length_append, List.length_cons, List.length_nil, padded_len]; omega
  | snoc cs X j a x _ h _ ih =>
    have := ih h
    simp only [List.length_append, List.length_cons, List.length_nil, padded_len]; omega

/-- Closing a group patches every alternative -/
theorem fixup_spec (e : Env) (he : EnvOK e) (pre : List Byte) (hpre : 4 ≤ pre.length) {cs X j}
    (h : Region e pre.length cs X j) : cs ≠ [] → ∀ (fuel : Nat) (r : Re) (y : List Byte), Code true r y →
    pre.length + X.length + y.length ≤ e.bytes + 1 → cs.length ≤ fuel →
    ∃ bs, fixupLoop e pre.length fuel (pre ++ X ++ y) j = .ok (pre ++ bs) ∧ Code true (cs.foldr .alt r) bs ∧
      bs.length ≤ X.length + y.length := by
  have homb : e.omb ≤ 2 := by rcases he with h | h <;> omega
  induction h with
  | nil => intro hne; exact (hne rfl).elim
  | one a x ha =>
    intro _ fuel r y hy hlen hf
    match fuel, hf with
    | fuel + 1, _ =>
      simp only [List.length_append, List.length_cons, padded_len] at hlen
      obtain ⟨bs, h1, h2, h3⟩ := fix_step e he pre.length fuel pre x y 0 a r _ rfl hpre (by omega) (by simp) (by simp) (by omega) ha hy
      refine ⟨bs, ?_, h2, ?_⟩
      · rw [if_pos rfl] at h1
        rw [← h1]
        simp [List.append_assoc]
      · simp only [List.length_append, List.length_cons, padded_len]; omega
  | snoc cs X j a x hR hne ha ih =>
    intro _ fuel r y hy hlen hf
    have hj := hR.jump hne
    match fuel, hf with
    | 0, hf => simp at hf
    | fuel + 1, hf =>
      simp only [List.length_append, List.length_cons, padded_len] at hlen
      obtain ⟨bs, h1, h2, h3⟩ := fix_step e he pre.length fuel (pre ++ X) x y
        ((j : Int) - (pre.length + X.length + (1 + e.omb) + x.length + 1 : Nat)) a r (pre.length + X.length + (1 + e.omb) + x.length + 1)
        (by simp) (by rw [List.length_append]; omega) (by omega) (by omega) (by
          rw [if_neg (by omega), List.length_append]; omega) (by omega) ha hy
      rw [if_neg (by omega)] at h1
      obtain ⟨bs', g1, g2, g3⟩ := ih hne fuel (.alt a r) bs h2 (by omega) (by
        simp only [List.length_append, List.length_cons, List.length_nil] at hf; omega)
      refine ⟨bs', ?_, ?_, ?_⟩
      · rw [← g1]
        have e1 : (((pre.length + X.length + (1 + e.omb) + x.length + 1 : Nat) : Int) +
          ((j : Int) - (pre.length + X.length + (1 + e.omb) + x.length + 1 : Nat))).toNat = j := by omega
        rw [e1] at h1
        rw [← h1]
        simp [List.append_assoc]
      · rw [List.foldr_append]; exact g2
      · simp only [List.length_append, List.length_cons, padded_len]; omega

/-- the frame of a group -/
theorem runs_fixup (e : Env) (he : EnvOK e) (pre : List Byte) (hpre : 4 ≤ pre.length) (f : Frame) (cs : List Re) (X y : List Byte) (r : Re)
    (hc : f.contents = pre.length) (h : Region e pre.length cs X f.lastJump) (hy : Code true r y)
    (hlen : pre.length + X.length + y.length ≤ e.bytes + 1) :
    ∃ bs, fixup e (pre ++ X ++ y) f = .ok (pre ++ bs) ∧ Code true (cs.foldr .alt r) bs ∧ bs.length ≤ X.length + y.length := by
  by_cases hcs : cs = []
  · subst hcs
    obtain ⟨rfl, h0⟩ := h.empty
    unfold fixup
    rw [if_pos h0]
    exact ⟨y, by simp, hy, by simp⟩
  · have hj := h.jump hcs
    have hl := h.len hcs
    unfold fixup
    rw [if_neg (by omega), hc]
    exact fixup_spec e he pre hpre h hcs _ r y hy hlen (by omega)

/-! ### Expressions -/

/-- groups inside one another -/
def depth : Re → Nat
  | .seq a b | .alt a b => max (depth a) (depth b)
  | .star a | .plus a | .opt a | .rep _ _ _ a => depth a
  | .grp _ a => depth a + 1
  | _ => 0

theorem genAll_room (e : Env) (evs : List Ev) : ∀ s s', genAll e evs s = .ok s' → s.buf.length ≤ e.bytes + 1 →
    s'.buf.length ≤ e.bytes + 1 := by
  induction evs with
  | nil => intro s s' h hl; cases h; exact hl
  | cons x xs ih =>
    intro s s' h hl
    cases x with
    | err m => exact ih s s' h hl
    | tok t =>
      obtain ⟨s1, h1, h2⟩ := hbind h
      refine ih s1 s' h2 ?_
      obtain ⟨s2, g1, g2⟩ := hbind h1
      obtain ⟨u, g3, g4⟩ := hbind g2
      cases g4
      unfold assert at g3
      split at g3
      · rename_i hd; simp at hd; omega
      · cases g3

theorem Runs.and {α : Type} {room : Prop} {x : Res α} {Q R : α → Prop} (h : Runs room x Q) (hr : ∀ a, x = .ok a → R a) :
    Runs room x (fun a => Q a ∧ R a) := by
  cases x with
  | error e => exact h
  | ok a => exact ⟨h, hr a rfl⟩

def GenA (e : Env) (r : Re) : Prop := ∀ (s : P2) (d : List UCS4), 4 ≤ s.buf.length → s.stack.length + depth r ≤ 12 →
  s.buf.length ≤ e.bytes + 1 →
  Runs (s.buf.length + (litBytes d).length + cost e.omb r < e.bytes) (genAll e (toks r d).1 s)
    (fun s' => (∃ bs, Code true r bs ∧ bs.length ≤ cost e.omb r ∧ s'.buf ++ litBytes (toks r d).2 = s.buf ++ litBytes d ++ bs) ∧
      s'.stack = s.stack ∧ s.buf.length ≤ s'.buf.length)

def GenAtom (e : Env) (r : Re) : Prop := ∀ (s : P2) (d : List UCS4), 4 ≤ s.buf.length → s.stack.length + depth r ≤ 12 →
  s.buf.length ≤ e.bytes + 1 →
  Runs (s.buf.length + (litBytes d).length + cost e.omb r < e.bytes) (genAll e (atomToks r d (toks r d).1) s)
    (fun s' => (∃ bs, Code true r bs ∧ bs.length ≤ cost e.omb r ∧ s'.buf = s.buf ++ litBytes d ++ bs) ∧
      s'.lastAtom = (s.buf ++ litBytes d).length ∧ s'.stack = s.stack)

def GenB (e : Env) (r : Re) : Prop := ∀ (s : P2) (pre X : List Byte) (cs : List Re) (f : Frame) (fs : List Frame),
  s.stack = f :: fs → f.contents = pre.length → 4 ≤ pre.length → Region e pre.length cs X f.lastJump → s.buf = pre ++ X →
  s.stack.length + depth r ≤ 12 → s.buf.length ≤ e.bytes + 1 →
  Runs (pre.length + X.length + cost e.omb r < e.bytes) (genAll e ((toks r []).1 ++ flush (toks r []).2) s)
    (fun s' => ∃ f' cs' X' y r', s'.stack = f' :: fs ∧ f'.kind = f.kind ∧ f'.start = f.start ∧ f'.contents = f.contents ∧
      Region e pre.length cs' X' f'.lastJump ∧ s'.buf = pre ++ X' ++ y ∧ Code true r' y ∧ cs'.foldr .alt r' = cs.foldr .alt r ∧
      X'.length + y.length ≤ X.length + cost e.omb r ∧ s'.buf.length ≤ e.bytes + 1)

/-- one branch of alternatives: the expression and then the pending literal -/
theorem runs_branch (e : Env) {r : Re} (h : GenA e r) (s : P2) (hb : 4 ≤ s.buf.length) (hs : s.stack.length + depth r ≤ 12)
    (hl : s.buf.length ≤ e.bytes + 1) :
    Runs (s.buf.length + cost e.omb r < e.bytes) (genAll e ((toks r []).1 ++ flush (toks r []).2) s)
      (fun s' => (∃ bs, Code true r bs ∧ bs.length ≤ cost e.omb r ∧ s'.buf = s.buf ++ bs) ∧ s'.stack = s.stack ∧ s'.buf.length ≤ e.bytes + 1) := by
  refine Runs.mono (Runs.and (R := fun s' => s'.buf.length ≤ e.bytes + 1)
    (Q := fun s' => (∃ bs, Code true r bs ∧ bs.length ≤ cost e.omb r ∧ s'.buf = s.buf ++ bs) ∧ s'.stack = s.stack) ?_
    (fun a ha => genAll_room e _ s a ha hl)) id (fun a ha => ⟨ha.1.1, ha.1.2, ha.2⟩)
  rw [genAll_append]
  refine Runs.bind (h s [] hb hs hl) (fun hr => by simp [litBytes]; omega) fun s1 h1 => ?_
  obtain ⟨⟨bs, hc, hlen, heq⟩, hst, -⟩ := h1
  have heq' : s1.buf ++ litBytes (toks r []).2 = s.buf ++ bs := by rw [heq]; simp [litBytes]
  refine Runs.mono (runs_flush e s1 (toks r []).2) (fun hr => ?_) fun s2 h2 => ?_
  · have := congrArg List.length heq'
    simp only [List.length_append] at this
    omega
  · exact ⟨⟨bs, hc, hlen, by rw [h2.1, heq']⟩, h2.2.trans hst⟩

theorem genB_of_A (e : Env) {r : Re} (h : GenA e r) : GenB e r := by
  intro s pre X cs f fs hst hc hpre hR hb hdep hl
  refine Runs.mono (runs_branch e h s (by rw [hb, List.length_append]; omega) hdep hl) (fun hr => by
    rw [hb, List.length_append]; omega) fun s' hs => ?_
  obtain ⟨⟨bs, h1, h2, h3⟩, h4, h5⟩ := hs
  exact ⟨f, cs, X, bs, r, h4.trans hst, rfl, rfl, rfl, hR, by rw [h3, hb], h1, rfl, by omega, h5⟩

/-- `|` after a branch -/
theorem runs_alternate (e : Env) (s : P2) (pre X x : List Byte) (cs : List Re) (a : Re) (f : Frame) (fs : List Frame)
    (hst : s.stack = f :: fs) (hc : f.contents = pre.length) (hR : Region e pre.length cs X f.lastJump) (hb : s.buf = pre ++ X ++ x)
    (ha : Code true a x) :
    Runs (pre.length + X.length + x.length + (2 + 2 * e.omb) < e.bytes) (genTok e s .alternate)
      (fun s' => (∃ f' X', s'.stack = f' :: fs ∧ f'.kind = f.kind ∧ f'.start = f.start ∧ f'.contents = f.contents ∧
        Region e pre.length (cs ++ [a]) X' f'.lastJump ∧ s'.buf = pre ++ X' ∧ X'.length = X.length + x.length + (2 + 2 * e.omb)) ∧
        s'.buf.length < e.bytes) := by
  refine Runs.tok ?_
  show Runs _ (genAlternate e { s with lastAtom := s.buf.length }) _
  unfold genAlternate
  simp only [hst]
  by_cases hcs : cs = []
  · subst hcs
    obtain ⟨rfl, h0⟩ := hR.empty
    rw [if_pos h0, hb, hc]
    rw [List.append_nil]
    refine Runs.bind (runs_split e pre x _ rfl) (fun hr => by rw [List.length_append]; simp at hr; omega) fun b1 h1 => ?_
    obtain ⟨rfl, h1⟩ := h1
    refine Runs.bind (runs_emit e _ _) (fun hr => by
      simp only [List.length_append, List.length_cons, List.length_nil, padded_len] at hr ⊢; omega) fun b2 h2 => ?_
    obtain ⟨rfl, h2⟩ := h2
    refine Runs.bind (runs_emit e _ _) (fun hr => by
      simp only [List.length_append, List.length_cons, List.length_nil, padded_len] at hr ⊢; omega) fun b3 h3 => ?_
    obtain ⟨rfl, h3⟩ := h3
    refine Runs.ok ⟨⟨_, (opSplit :: paddedOffset e 0) ++ x ++ (opJump :: paddedOffset e 0), rfl, rfl, rfl, rfl, ?_, ?_, ?_⟩, ?_⟩
    · have := Region.one (e := e) (c0 := pre.length) a x ha
      simp only [List.length_append, List.length_cons, List.length_nil, padded_len, List.nil_append]
      have e1 : pre.length + (e.omb + 1) + x.length + (0 + 1) = pre.length + (1 + e.omb) + x.length + 1 := by omega
      rw [e1]; exact this
    · simp [List.append_assoc]
    · simp only [List.length_append, List.length_cons, List.length_nil, padded_len]; omega
    · intro hr
      simp only [List.length_append, List.length_cons, List.length_nil, padded_len] at hr ⊢; omega
  · have hj := hR.jump hcs
    rw [if_neg (by omega), hb]
    refine Runs.bind (runs_split e (pre ++ X) x _ (by rw [List.length_append]; omega)) (fun hr => by
      simp only [List.length_append]; omega) fun b1 h1 => ?_
    obtain ⟨rfl, h1⟩ := h1
    refine Runs.bind (runs_emit e _ _) (fun hr => by
      simp only [List.length_append, List.length_cons, List.length_nil, padded_len] at hr ⊢; omega) fun b2 h2 => ?_
    obtain ⟨rfl, h2⟩ := h2
    refine Runs.bind (runs_emit e _ _) (fun hr => by
      simp only [List.length_append, List.length_cons, List.length_nil, padded_len] at hr ⊢; omega) fun b3 h3 => ?_
    obtain ⟨rfl, h3⟩ := h3
    have hlen : (pre ++ X ++ opSplit :: paddedOffset e 0 ++ x ++ [opJump]).length = pre.length + X.length + (1 + e.omb) + x.length + 1 := by
      simp only [List.length_append, List.length_cons, List.length_nil, padded_len]; omega
    refine Runs.ok ⟨⟨_, X ++ (opSplit :: paddedOffset e 0) ++ x ++ (opJump :: paddedOffset e ((f.lastJump : Int) -
      (pre.length + X.length + (1 + e.omb) + x.length + 1 : Nat))), rfl, rfl, rfl, rfl, ?_, ?_, ?_⟩, ?_⟩
    · have := Region.snoc (e := e) (c0 := pre.length) cs X _ a x hR hcs ha
      simp only [hlen]; exact this
    · simp only [hlen]; simp [List.append_assoc]
    · simp only [List.length_append, List.length_cons, List.length_nil, padded_len]; omega
    · intro hr
      simp only [List.length_append, List.length_cons, List.length_nil, padded_len] at hr ⊢; omega

theorem genB_alt (e : Env) {a b : Re} (ha : GenA e a) (hb : GenB e b) : GenB e (.alt a b) := by
  intro s pre X cs f fs hst hc hpre hR hbuf hdep hl
  have hdep' : s.stack.length + max (depth a) (depth b) ≤ 12 := hdep
  show Runs (_ + _ + (cost e.omb a + (2 + 2 * e.omb) + cost e.omb b) < _) (genAll e (((toks a []).1 ++ (flush (toks a []).2 ++ [.tok .alternate]) ++ (toks b []).1) ++ flush (toks b []).2) s) _
  have e1 : ((toks a []).1 ++ (flush (toks a []).2 ++ [.tok .alternate]) ++ (toks b []).1) ++ flush (toks b []).2 =
      ((toks a []).1 ++ flush (toks a []).2) ++ ([.tok .alternate] ++ ((toks b []).1 ++ flush (toks b []).2)) := by
    simp [List.append_assoc]
  rw [e1, genAll_append]
  refine Runs.bind (runs_branch e ha s (by rw [hbuf, List.length_append]; omega) (by omega) hl) (fun hr => by
    rw [hbuf, List.length_append]; omega) fun s1 h1 => ?_
  obtain ⟨⟨x, hx, hxl, hxb⟩, hs1, -⟩ := h1
  rw [genAll_append, genAll_one]
  refine Runs.bind (runs_alternate e s1 pre X x cs a f fs (hs1.trans hst) hc hR (by rw [hxb, hbuf]) hx) (fun hr => by omega)
    fun s2 h2 => ?_
  obtain ⟨⟨f', X', g1, g2, g3, g4, g5, g6, g7⟩, g8⟩ := h2
  refine Runs.mono (hb s2 pre X' (cs ++ [a]) f' fs g1 (g4.trans hc) hpre g5 g6 (by
    rw [g1]; rw [hst] at hdep'; simp only [List.length_cons] at hdep' ⊢; omega) (by omega)) (fun hr => by omega) fun s3 h3 => ?_
  obtain ⟨f'', cs', X'', y, r', k1, k2, k3, k4, k5, k6, k7, k8, k9, k10⟩ := h3
  refine ⟨f'', cs', X'', y, r', k1, k2.trans g2, k3.trans g3, k4.trans g4, k5, k6, k7, ?_, by simp only [cost]; omega, k10⟩
  rw [k8, List.foldr_append]; rfl

theorem genAtom_grp (e : Env) (he : EnvOK e) (nc : Bool) {a : Re} (ha : GenB e a) : GenAtom e (.grp nc a) := by
  intro s d hb hdep hl
  have hdep' : s.stack.length + (depth a + 1) ≤ 12 := hdep
  show Runs (_ + _ + cost e.omb a < _) (genAll e ((flush d ++ [.tok .group]) ++ (toks a []).1 ++ (flush (toks a []).2 ++ [.tok .endGroup])) s) _
  have e1 : (flush d ++ [.tok .group]) ++ (toks a []).1 ++ (flush (toks a []).2 ++ [.tok .endGroup]) =
      flush d ++ ([.tok .group] ++ (((toks a []).1 ++ flush (toks a []).2) ++ [.tok .endGroup])) := by simp [List.append_assoc]
  rw [e1, genAll_append]
  refine Runs.bind (runs_flush e s d) (fun hr => by omega) fun s1 h1 => ?_
  obtain ⟨hb1, hs1⟩ := h1
  rw [genAll_append, genAll_one]
  have hgrp : Runs (s.buf.length + (litBytes d).length < e.bytes) (genTok e s1 .group)
      (fun s' => (s'.buf = s1.buf ∧ s'.stack = ⟨.group, 0, s1.buf.length, s1.buf.length, 0⟩ :: s1.stack) ∧ s'.buf.length < e.bytes) := by
    refine Runs.tok ?_
    refine Runs.ok ⟨⟨?_, ?_⟩, fun hr => ?_⟩
    · unfold P2.push; split <;> rfl
    · unfold P2.push; rw [if_neg (by show ¬ s1.stack.length ≥ 12; rw [hs1]; omega)]; rfl
    · have : (P2.push { s1 with lastAtom := s1.buf.length } .group 0 s1.buf.length (s1.buf.length + 1)).buf = s1.buf := by
        unfold P2.push; split <;> rfl
      rw [this, hb1, List.length_append]; omega
  refine Runs.bind hgrp (fun hr => by omega) fun s2 h2 => ?_
  obtain ⟨⟨hb2, hs2⟩, hl2⟩ := h2
  rw [genAll_append]
  have hlen1 : s1.buf.length = s.buf.length + (litBytes d).length := by rw [hb1, List.length_append]
  refine Runs.bind (ha s2 s1.buf [] [] _ _ hs2 rfl (by omega) .nil (by rw [hb2]; simp) (by
    rw [hs2, List.length_cons, hs1]; omega) (by omega)) (fun hr => by simp; omega) fun s3 h3 => ?_
  obtain ⟨f', cs', X', y, r', k1, k2, k3, k4, k5, k6, k7, k8, k9, k10⟩ := h3
  have hlen3 := k10
  rw [k6, List.length_append, List.length_append] at hlen3
  obtain ⟨bs, q1, q2, q3⟩ := runs_fixup e he s1.buf (by omega) f' cs' X' y r' k4 k5 k7 (by omega)
  rw [genAll_one]
  refine Runs.mono (Runs.tok (Q := fun s' => (∃ bs, Code true (.grp nc a) bs ∧ bs.length ≤ cost e.omb a ∧
    s'.buf = s.buf ++ litBytes d ++ bs) ∧ s'.lastAtom = (s.buf ++ litBytes d).length ∧ s'.stack = s.stack) ?_) id (fun _ h => h.1)
  show Runs _ (genEnd e s3) _
  unfold genEnd
  simp only [k1, k2]
  rw [k6, q1]
  simp only [List.length_nil, Nat.zero_add] at k9
  rw [k8] at q2
  refine Runs.ok ⟨⟨⟨bs, .grp nc a bs q2, by omega, by rw [hb1]⟩, ?_, hs1⟩, fun hr => ?_⟩
  · show f'.start = _
    rw [k3, hb1]
  · show (s1.buf ++ bs).length < e.bytes
    rw [List.length_append]; omega

theorem genA_of_atom (e : Env) {r : Re} (h : GenAtom e r) (h1 : ∀ d, atomToks r d (toks r d).1 = (toks r d).1) (h2 : ∀ d, (toks r d).2 = []) :
    GenA e r := by
  intro s d hb hdep hl
  have := h s d hb hdep hl
  rw [h1] at this
  refine this.mono id fun s' hs => ?_
  obtain ⟨⟨bs, g1, g2, g3⟩, g4, g5⟩ := hs
  refine ⟨⟨bs, g1, g2, by rw [h2, g3]; simp [litBytes]⟩, g5, ?_⟩
  rw [g3]; simp only [List.length_append]; omega

theorem genA_rep (e : Env) {a r : Re} (t : Tok) (extra : Nat) (h : GenAtom e a) (hd : depth r = depth a) (hc : cost e.omb r = cost e.omb a + extra)
    (ht : ∀ d, toks r d = (atomToks a d (toks a d).1 ++ [.tok t], []))
    (hrun : ∀ (s : P2) (pre c : List Byte), s.buf = pre ++ c → s.lastAtom = pre.length → 4 ≤ pre.length → Code true a c →
      Runs (pre.length + c.length + extra < e.bytes) (genTok e s t)
        (fun s' => (∃ bs, Code true r bs ∧ bs.length ≤ c.length + extra ∧ s'.buf = pre ++ bs) ∧ s'.stack = s.stack)) : GenA e r := by
  intro s d hb hdep hl
  rw [ht, genAll_append]
  refine Runs.bind (h s d hb (by omega) hl) (fun hr => by omega) fun s1 h1 => ?_
  obtain ⟨⟨bs, g1, g2, g3⟩, g4, g5⟩ := h1
  rw [genAll_one]
  refine Runs.mono (hrun s1 (s.buf ++ litBytes d) bs g3 g4 (by rw [List.length_append]; omega) g1) (fun hr => by
    rw [List.length_append]; omega) fun s2 h2 => ?_
  obtain ⟨⟨bs2, k1, k2, k3⟩, k4⟩ := h2
  refine ⟨⟨bs2, k1, by omega, by rw [k3]; simp [litBytes]⟩, k4.trans g5, ?_⟩
  rw [k3]; simp only [List.length_append]; omega

theorem litBytes_app (d : List UCS4) (c : UCS4) : litBytes (d ++ [c]) = litBytes d ++ (opChar :: utf8Put c) := by
  simp [litBytes]

theorem not_nul_chr {c : UCS4} (h : Writable c) : ¬ Reserved c ∧ c ≠ 0#32 := ⟨h.2, h.1⟩

theorem gen_spec (e : Env) (he : EnvOK e) (r : Re) :
    (r.wf false → GenA e r) ∧ (r.wf false → r.isAtom = true → GenAtom e r) ∧ (r.wf true → GenB e r) := by
  have simple : ∀ (r : Re) (t : Tok) (bs : List Byte), (∀ d, toks r d = (flush d ++ [.tok t], [])) →
      (∀ s, gen e s t = (emit e s.buf bs >>= fun b => .ok { s with lastAtom := s.buf.length, buf := b })) →
      (bs.length ≤ e.bytes + 1 → Code true r bs) → bs.length = cost e.omb r → (∀ d ts, atomToks r d ts = ts) → GenAtom e r := by
    intro r t bs h1 h2 h3 h4 h5 s d hb hdep hl
    rw [h5, h1]
    refine Runs.mono (runs_simple e s d t bs h2) (fun hr => by omega) fun s' hs => ?_
    exact ⟨⟨bs, h3 hs.2.2.2, by omega, hs.1⟩, hs.2.1, hs.2.2.1⟩
  induction r with
  | empty =>
    have hA : GenA e .empty := fun s d hb hdep hl => Runs.ok ⟨⟨[], .empty, by simp, by simp [toks]⟩, rfl, Nat.le_refl _⟩
    exact ⟨fun _ => hA, fun _ h => (by cases h), fun _ => genB_of_A e hA⟩
  | chr sp c =>
    have hA : Re.wf false (.chr sp c) → GenA e (.chr sp c) := fun hw s d hb hdep hl =>
      Runs.ok ⟨⟨opChar :: utf8Put c, .chr sp c hw.2.2 hw.2.1, by simp [cost]; omega, by
        show s.buf ++ litBytes (d ++ [c]) = _
        rw [litBytes_app, List.append_assoc]⟩, rfl, Nat.le_refl _⟩
    refine ⟨hA, ?_, fun hw => genB_of_A e (hA hw)⟩
    intro hw _ s d hb hdep hl
    refine Runs.mono (runs_simple e s d (.lit [c]) (opChar :: utf8Put c) (fun s => ?_)) (fun hr => by
      simp only [cost, List.length_cons] at hr ⊢; omega) fun s' hs => ?_
    · show (emit e s.buf (litBytes [c]) >>= _) = _
      rw [show litBytes [c] = opChar :: utf8Put c by simp [litBytes]]
    · exact ⟨⟨_, .chr sp c hw.2.2 hw.2.1, by simp only [cost, List.length_cons]; omega, hs.1⟩, hs.2.1, hs.2.2.1⟩
  | any =>
    have h := simple .any .any [opAny] (fun d => rfl) (fun s => rfl) (fun _ => .any) rfl (fun _ _ => rfl)
    have hA := genA_of_atom e h (fun _ => rfl) (fun _ => rfl)
    exact ⟨fun _ => hA, fun _ _ => h, fun _ => genB_of_A e hA⟩
  | bol =>
    have h := simple .bol .bol [opBOL] (fun d => rfl) (fun s => rfl) (fun _ => .bol) rfl (fun _ _ => rfl)
    have hA := genA_of_atom e h (fun _ => rfl) (fun _ => rfl)
    exact ⟨fun _ => hA, fun _ _ => h, fun _ => genB_of_A e hA⟩
  | eol =>
    have h := simple .eol .eol [opEOL] (fun d => rfl) (fun s => rfl) (fun _ => .eol) rfl (fun _ _ => rfl)
    have hA := genA_of_atom e h (fun _ => rfl) (fun _ => rfl)
    exact ⟨fun _ => hA, fun _ _ => h, fun _ => genB_of_A e hA⟩
  | cls neg text rs =>
    have h : Re.wf false (.cls neg text rs) → GenAtom e (.cls neg text rs) := fun hw =>
      simple (.cls neg text rs) (.cls neg (rangeChars rs)) ((if neg then opNegClass else opClass) :: stringBytes (rangeChars rs))
        (fun d => rfl) (fun s => rfl) (fun hb => by
          refine .cls neg text rs (brackets_ne hw.1) (fun r hr => ⟨(hw.2 r hr).1.2, (hw.2 r hr).2.2⟩) ?_
          have : e.bytes ≤ 1023 := by rcases he with h | h <;> omega
          simp only [List.length_cons, stringBytes, List.length_append] at hb
          unfold numBytes; omega) (by simp only [cost, List.length_cons]; omega) (fun _ _ => rfl)
    have hA := fun hw => genA_of_atom e (h hw) (fun _ => rfl) (fun _ => rfl)
    exact ⟨hA, fun hw _ => h hw, fun hw => genB_of_A e (hA hw)⟩
  | prop br p =>
    have h := simple (.prop br p) (.prop [p.code]) (opProp :: stringBytes [p.code]) (fun d => rfl) (fun s => rfl) (fun _ => .prop br p)
      (by simp only [cost, List.length_cons]; omega) (fun _ _ => rfl)
    have hA := genA_of_atom e h (fun _ => rfl) (fun _ => rfl)
    exact ⟨fun _ => hA, fun _ _ => h, fun _ => genB_of_A e hA⟩
  | seq a b iha ihb =>
    have hA : Re.wf false (.seq a b) → GenA e (.seq a b) := by
      intro hw s d hb hdep hl
      have hdep' : s.stack.length + max (depth a) (depth b) ≤ 12 := hdep
      show Runs (_ + _ + (cost e.omb a + cost e.omb b) < _) (genAll e ((toks a d).1 ++ (toks b (toks a d).2).1) s) _
      rw [genAll_append]
      refine Runs.mono (Runs.bind (room := s.buf.length + (litBytes d).length + (cost e.omb a + cost e.omb b) < e.bytes)
        (Runs.and (iha.1 hw.1 s d hb (by omega) hl) (fun s1 h1 => genAll_room e _ s s1 h1 hl)) (fun hr => by omega) fun s1 h1 => ?_) id (fun _ h => h)
      obtain ⟨⟨⟨bs, g1, g2, g3⟩, g4, g5⟩, g6⟩ := h1
      have hlen := congrArg List.length g3
      simp only [List.length_append] at hlen
      refine Runs.mono (ihb.1 hw.2.1 s1 (toks a d).2 (by omega) (by rw [g4]; omega) g6) (fun hr => by omega) fun s2 h2 => ?_
      obtain ⟨⟨bs2, k1, k2, k3⟩, k4, k5⟩ := h2
      refine ⟨⟨bs ++ bs2, .seq a b _ _ g1 k1, by rw [List.length_append]; simp only [cost]; omega, ?_⟩, k4.trans g4, by omega⟩
      show s2.buf ++ litBytes (toks b (toks a d).2).2 = _
      rw [k3, g3]; simp [List.append_assoc]
    exact ⟨hA, fun _ h => (by cases h), fun hw => genB_of_A e (hA hw)⟩
  | alt a b iha ihb =>
    exact ⟨fun hw => absurd hw.1 (by simp), fun _ h => (by cases h), fun hw => genB_alt e (iha.1 hw.2.1) (ihb.2.2 hw.2.2.1)⟩
  | star a iha =>
    have hA : Re.wf false (.star a) → GenA e (.star a) := fun hw =>
      genA_rep e (.rep 0 0) (2 + 2 * e.omb) (iha.2.1 hw.2 hw.1) rfl rfl (fun d => rfl) (fun s pre c h1 h2 h3 h4 => runs_star e he s a pre c h1 h2 h3 h4)
    exact ⟨hA, fun _ h => (by cases h), fun hw => genB_of_A e (hA hw)⟩
  | plus a iha =>
    have hA : Re.wf false (.plus a) → GenA e (.plus a) := fun hw =>
      genA_rep e (.rep 1 0) (1 + e.omb) (iha.2.1 hw.2 hw.1) rfl rfl (fun d => rfl) (fun s pre c h1 h2 h3 h4 => runs_plus e he s a pre c h1 h2 h3 h4)
    exact ⟨hA, fun _ h => (by cases h), fun hw => genB_of_A e (hA hw)⟩
  | opt a iha =>
    have hA : Re.wf false (.opt a) → GenA e (.opt a) := fun hw =>
      genA_rep e (.rep 0 1) (1 + e.omb) (iha.2.1 hw.2 hw.1) rfl rfl (fun d => rfl) (fun s pre c h1 h2 h3 h4 => runs_opt e he s a pre c h1 h2 h3 h4)
    exact ⟨hA, fun _ h => (by cases h), fun hw => genB_of_A e (hA hw)⟩
  | rep w mn mx a iha =>
    have hA : Re.wf false (.rep w mn mx a) → GenA e (.rep w mn mx a) := fun hw => by
      have hbr := braces_le hw.2.2.1
      refine genA_rep e (.rep mn (mx.getD 0)) (repCode mn mx + (if mn = 0 ∧ mx = none then 2 else 1) * e.omb) (iha.2.1 hw.2.1 hw.1) rfl rfl
        (fun d => rfl) (fun s pre c h1 h2 h3 h4 => ?_)
      by_cases c0 : mn = 0 ∧ mx = none
      · obtain ⟨rfl, rfl⟩ := c0
        have := runs_star e he s a pre c h1 h2 h3 h4
        refine this.mono (by simp [repCode]) fun s' hs => ?_
        obtain ⟨⟨bs, g1, g2, g3⟩, g4⟩ := hs
        exact ⟨⟨bs, .repStar w a bs rfl g1, by simpa [repCode] using g2, g3⟩, g4⟩
      · by_cases c1 : mn = 0 ∧ mx = some 1
        · obtain ⟨rfl, rfl⟩ := c1
          have := runs_opt e he s a pre c h1 h2 h3 h4
          refine this.mono (by simp [repCode]) fun s' hs => ?_
          obtain ⟨⟨bs, g1, g2, g3⟩, g4⟩ := hs
          exact ⟨⟨bs, .repOpt w a bs rfl g1, by simpa [repCode] using g2, g3⟩, g4⟩
        · by_cases c2 : mn = 1 ∧ mx = none
          · obtain ⟨rfl, rfl⟩ := c2
            have := runs_plus e he s a pre c h1 h2 h3 h4
            refine this.mono (by simp [repCode]) fun s' hs => ?_
            obtain ⟨⟨bs, g1, g2, g3⟩, g4⟩ := hs
            exact ⟨⟨bs, .repPlus w a bs rfl g1, by simpa [repCode] using g2, g3⟩, g4⟩
          · have := runs_rep e he s a pre c h1 h2 h3 h4 w mn mx hbr.1 hbr.2 c0 c1 c2
            refine this.mono (by simp [repCode, c0, c1, c2]) fun s' hs => ?_
            obtain ⟨⟨bs, g1, g2, g3⟩, g4⟩ := hs
            exact ⟨⟨bs, g1, by simpa [repCode, c0, c1, c2] using g2, g3⟩, g4⟩
    exact ⟨hA, fun _ h => (by cases h), fun hw => genB_of_A e (hA hw)⟩
  | grp nc a iha =>
    have h : Re.wf false (.grp nc a) → GenAtom e (.grp nc a) := fun hw => genAtom_grp e he nc (iha.2.2 hw)
    have hA := fun hw => genA_of_atom e (h hw) (fun _ => rfl) (fun _ => rfl)
    exact ⟨hA, fun hw _ => h hw, fun hw => genB_of_A e (hA hw)⟩

end Strpp.Rx
