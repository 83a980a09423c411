import Verif.Proof.StrPar
import Verif.Props.StrVal
/-!
C70: copies of one string read in several threads. The threads make const calls only, on strings a program got by any
history of safe calls (`Reached`, C52) and which have one body; what a call should return is `expected`
(Verif/Spec/StrPar.lean).
-/
namespace Strpp.SP

open SV

/-- Each thread has a string of the program, with the body `b`; string `i` shows the text `txt i`. -/
structure Readers (s : SV.State) (b : SBody) (l : List (Str × List Call)) (txt : Nat → List UCS4) : Prop where
  reached : Reached s
  each : ∀ (i : Nat) (x : Str × List Call), l[i]? = some x → x.1.b = b ∧
    (∃ v, getStr s v = .ok x.1 ∧ view s v = some (txt i)) ∧ ∀ c ∈ x.2, c.Int32

theorem Readers.den {s : SV.State} {b : SBody} {l : List (Str × List Call)} {txt : Nat → List UCS4} (h : Readers s b l txt)
    {i : Nat} {x : Str × List Call} (hx : l[i]? = some x) :
    ∃ pre post, Den x.1 pre (txt i) post ∧ Spec.decodeAll b.arr.elems.dropLast = pre ++ txt i ++ post := by
  obtain ⟨hb, ⟨v, hg, hv⟩, -⟩ := h.each i x hx
  obtain ⟨σ, pre, post, e, hd, -⟩ := h.reached.str hv
  rw [hg] at e; cases e
  exact ⟨pre, post, hd, by rw [← hb]; exact den_text hd.body⟩

theorem start_inv {b : SBody} {σ : Str} {pre t post : List UCS4} (h : Den σ pre t post) (hb : σ.b = b) (calls : List Call)
    (hc : ∀ c ∈ calls, c.Int32) (hn : b.nc = 0 ∨ b.nc = (pre ++ t ++ post).length) :
    TInv b.arr b.nc pre t post calls (Thread.new σ calls) := by
  subst hb
  exact ⟨rfl, ⟨h.body.wf, h.body.txt, h.body.good, h.body.small, Or.inl rfl⟩, h.off, h.num, h.mark, ⟨[], rfl, rfl⟩, hc, hn⟩

theorem Readers.start {s : SV.State} {b : SBody} {l : List (Str × List Call)} {txt : Nat → List UCS4} (h : Readers s b l txt)
    (hc : Counted b) : SInv b l txt (State.new b l) := by
  refine ⟨rfl, rfl, by simp [State.new], ?_⟩
  intro i x th hx hth
  obtain ⟨pre, post, hd, e⟩ := h.den hx
  simp only [State.new, List.getElem?_map, hx, Option.map_some, Option.some.injEq] at hth
  subst hth
  unfold Counted at hc
  rw [e] at hc
  exact ⟨pre, post, hc, start_inv hd (h.each i x hx).1 _ (h.each i x hx).2.2 (Or.inr hc)⟩

/-- C70. On a body whose characters are counted, whatever the schedule: no step changes the memory the threads share, so
there is no race. -/
theorem C70_no_write_partial {s : SV.State} {b : SBody} {l : List (Str × List Call)} {txt : Nat → List UCS4} (h : Readers s b l txt)
    (hc : Counted b) (sched : List Nat) :
    ((State.new b l).run sched).arr = b.arr ∧ ((State.new b l).run sched).nc = b.nc :=
  ⟨(run_inv sched (h.start hc)).arr, (run_inv sched (h.start hc)).nc⟩

/-- C70. On such a body, whatever the schedule: no call faults, and what the calls have returned so far is what they should. -/
theorem C70_reads_partial {s : SV.State} {b : SBody} {l : List (Str × List Call)} {txt : Nat → List UCS4} (h : Readers s b l txt)
    (hc : Counted b) (sched : List Nat) (i : Nat) (σ : Str) (calls : List Call) (hi : l[i]? = some (σ, calls)) :
    ∃ th, ((State.new b l).run sched).ts[i]? = some th ∧ th.dead = none ∧
      ∃ done, calls = done ++ th.todo ∧ th.out = done.map (expected (txt i)) := by
  have hs := run_inv sched (h.start hc)
  have hlt : i < l.length := by
    rcases Nat.lt_or_ge i l.length with h | h
    · exact h
    · rw [List.getElem?_eq_none h] at hi; cases hi
  have hlt' : i < ((State.new b l).run sched).ts.length := by rw [hs.len]; exact hlt
  obtain ⟨pre, post, -, ht⟩ := hs.each i _ _ hi (List.getElem?_eq_getElem hlt')
  exact ⟨_, List.getElem?_eq_getElem hlt', ht.alive, ht.calls⟩

/-- C70. On such a body every thread that gets enough steps has all of its answers, however the others run. -/
theorem C70_finish_partial {s : SV.State} {b : SBody} {l : List (Str × List Call)} {txt : Nat → List UCS4} (h : Readers s b l txt)
    (hc : Counted b) (i : Nat) (σ : Str) (calls : List Call) (hi : l[i]? = some (σ, calls)) :
    ∃ n, ∀ sched, n ≤ sched.count i →
      ∃ th, ((State.new b l).run sched).ts[i]? = some th ∧ th.dead = none ∧ th.out = calls.map (expected (txt i)) := by
  refine ⟨leftOf (State.new b l) (State.new b l).nc i, fun sched hn => ?_⟩
  obtain ⟨th, e1, e2, done, e3, e4⟩ := C70_reads_partial h hc sched i σ calls hi
  refine ⟨th, e1, e2, ?_⟩
  have hl := run_left i sched (h.start hc)
  have h0 : leftOf ((State.new b l).run sched) (State.new b l).nc i = 0 := by omega
  have htd : th.todo = [] := by
    unfold leftOf at h0
    rw [e1] at h0
    simp only [left] at h0
    split at h0
    · assumption
    · exfalso
      have : 0 < posLeft (State.new b l).nc ((State.new b l).run sched).nc th.at_ := by
        cases th.at_ <;> simp [posLeft, lookups, perCall] <;> omega
      omega
  rw [e4, e3, htd, List.append_nil]

/-- one thread, on a body counted or not -/
theorem alone_run {b : SBody} {pre t post : List UCS4} {calls : List Call} : ∀ (n : Nat) {st : State} {th : Thread},
    st.arr = b.arr → st.ts = [th] → TInv st.arr st.nc pre t post calls th →
    ∃ st' th', st.run (List.replicate n 0) = st' ∧ st'.arr = b.arr ∧ st'.ts = [th'] ∧ TInv st'.arr st'.nc pre t post calls th' ∧
      left (pre ++ t ++ post).length st'.nc th' ≤ left (pre ++ t ++ post).length st.nc th - n := by
  intro n
  induction n with
  | zero => intro st th h1 h2 h3; exact ⟨st, th, rfl, h1, h2, h3, Nat.le_refl _⟩
  | succ n ih =>
    intro st th h1 h2 h3
    obtain ⟨a1, -, a3⟩ := step_ok h3
    have e : st.tick 0 = { st with nc := (th.step st.arr st.nc).1, ts := [(th.step st.arr st.nc).2] } := by
      unfold State.tick
      rw [h2]
      simp [h3.alive]
    obtain ⟨st', th', g1, g2, g3, g4, g5⟩ := ih (st := st.tick 0) (th := (th.step st.arr st.nc).2) (by rw [e]; exact h1) (by rw [e]) (by rw [e]; exact a1)
    refine ⟨st', th', by rw [List.replicate_succ]; exact g1, g2, g3, g4, ?_⟩
    rw [e] at g5
    simp only at g5
    by_cases htd : th.todo = []
    · have h0 : left (pre ++ t ++ post).length (th.step st.arr st.nc).1 (th.step st.arr st.nc).2 = 0 := by
        obtain ⟨done, d1, -⟩ := h3.calls
        obtain ⟨done', d1', -⟩ := a1.calls
        have : (th.step st.arr st.nc).2 = th := by
          have hp := h3.pos
          unfold PInv at hp
          unfold Thread.step
          split at hp <;> rename_i hat <;> simp_all [Mid]
        rw [this]; simp [left, htd]
      omega
    · have := a3 htd; omega

/-- C70. A thread that is alone gets right answers from any body, and leaves its characters counted unless it never needed
this: so the theorems above hold for all threads started after. -/
theorem C70_alone_partial {s : SV.State} {b : SBody} {σ : Str} {calls : List Call} {t : List UCS4}
    (h : Readers s b [(σ, calls)] (fun _ => t)) :
    ∃ n, ∀ m, n ≤ m → ∃ th, ((State.new b [(σ, calls)]).run (List.replicate m 0)).ts = [th] ∧ th.dead = none ∧
      th.out = calls.map (expected t) ∧ ((State.new b [(σ, calls)]).run (List.replicate m 0)).arr = b.arr ∧
      (((State.new b [(σ, calls)]).run (List.replicate m 0)).nc = 0 ∨
       Counted ⟨b.arr, ((State.new b [(σ, calls)]).run (List.replicate m 0)).nc⟩) := by
  obtain ⟨pre, post, hd, e⟩ := h.den (i := 0) (x := (σ, calls)) rfl
  have hx := h.each 0 (σ, calls) rfl
  have hn : b.nc = 0 ∨ b.nc = (pre ++ t ++ post).length := by
    have := hd.body.nc
    rw [hx.1] at this
    exact this
  have h0 := start_inv hd hx.1 calls hx.2.2 hn
  refine ⟨left (pre ++ t ++ post).length b.nc (Thread.new σ calls), fun m hm => ?_⟩
  obtain ⟨st', th, g1, g2, g3, g4, g5⟩ := alone_run (b := b) m (st := State.new b [(σ, calls)]) rfl rfl h0
  rw [g1]
  have hz : left (pre ++ t ++ post).length st'.nc th = 0 := by
    have : left (pre ++ t ++ post).length st'.nc th ≤ left (pre ++ t ++ post).length b.nc (Thread.new σ calls) - m := g5
    omega
  have htd : th.todo = [] := by
    simp only [left] at hz
    split at hz
    · assumption
    · exfalso
      have : th.todo ≠ [] := by assumption
      have hp := g4.pos
      unfold PInv at hp
      split at hp <;> rename_i hat <;> rw [hat] at hz <;> simp [posLeft, lookups, perCall] at hz
  obtain ⟨done, d1, d2⟩ := g4.calls
  refine ⟨th, g3, g4.alive, by rw [d2, d1, htd, List.append_nil], g2, ?_⟩
  have hp := g4.pos
  have key : st'.nc = 0 ∨ st'.nc = (pre ++ t ++ post).length := by
    unfold PInv at hp
    split at hp
    all_goals first
      | exact hp
      | (obtain ⟨-, c, rest, ks0, hc, -⟩ := hp; rw [htd] at hc; cases hc)
      | (obtain ⟨-, -, -, c, rest, ks0, hc, -⟩ := hp; rw [htd] at hc; cases hc)
      | (obtain ⟨-, -, c, rest, ks0, hc, -⟩ := hp; rw [htd] at hc; cases hc)
      | (obtain ⟨-, -, -, -, c, rest, ks0, hc, -⟩ := hp; rw [htd] at hc; cases hc)
  rcases key with h | h
  · exact Or.inl h
  · exact Or.inr (by unfold Counted; rw [e]; exact h)

/-! ### Bodies that are not counted yet -/

/-- StrVal(0xE9), and a copy of it -/
def eacute : List (Op Unit) := [.ofChar 0xE9#32, .copy 0]
def ebody : SBody := ⟨⟨[0xC3#8, 0xA9#8, 0#8, 0#8, 0#8, 0#8, 0#8, 0#8], 3, 8, false⟩, 0⟩
def evar : Var := ⟨1, 0, 1, ⟨0, 0⟩⟩
def estr : Str := ⟨ebody, 0, 1, ⟨0, 0⟩⟩
def estate : SV.State := ⟨[nullBody, ebody], [some evar, some evar]⟩

theorem estate_reached : Reached estate := by
  refine ⟨Unit, noMeaning, eacute, ?_, by decide +kernel⟩
  refine SafeRun.cons (s1 := ⟨[nullBody, ebody], [some evar]⟩) (by decide +kernel)
    (small_good [0xE9#32] (by simp) _ (by simp)) ?_
  exact SafeRun.cons (s1 := estate) (by decide +kernel) (by unfold Safe; decide +kernel) trivial

theorem two {α : Type} (p : Nat → α → Prop) (x y : α) (hx : p 0 x) (hy : p 1 y) :
    ∀ (i : Nat) (z : α), [x, y][i]? = some z → p i z := by
  intro i z h
  match i with
  | 0 => simp at h; subst h; exact hx
  | 1 => simp at h; subst h; exact hy
  | n + 2 => simp at h

/-- C70 is false in general: two threads ask the same string "é", which is not counted, for the number of its bytes, 2. One
is told 0, and after both have ended the string says 1 for ever. -/
theorem C70_refuted_double_count :
    Readers estate ebody [(estr, [.numBytes, .numBytes]), (estr, [.numBytes])] (fun _ => [0xE9#32]) ∧
    ((State.new ebody [(estr, [.numBytes, .numBytes]), (estr, [.numBytes])]).run
      ([1, 1, 1] ++ [0, 0, 0, 0, 0, 0] ++ [1, 1, 1, 1, 1, 1, 1] ++ List.replicate 8 0)).ts.map (fun th => (th.dead, th.out)) =
      [(none, [.num 0, .num 1]), (none, [.num 0])] ∧
    expected [0xE9#32] .numBytes = .num 2 := by
  refine ⟨⟨estate_reached, ?_⟩, by decide +kernel, by decide +kernel⟩
  refine two _ _ _ ?_ ?_
  · exact ⟨rfl, ⟨0, by decide +kernel, by decide +kernel⟩, by simp [Call.Int32]⟩
  · exact ⟨rfl, ⟨1, by decide +kernel, by decide +kernel⟩, by simp [Call.Int32]⟩

/-- "éé" made of two characters, and a copy of it: not counted -/
def eacute2 : List (Op Unit) := [.ofChar 0xE9#32, .addEqChar 0 0xE9#32, .copy 0]
def ebody2 : SBody := ⟨⟨[0xC3#8, 0xA9#8, 0xC3#8, 0xA9#8, 0#8, 0#8, 0#8, 0#8], 5, 8, false⟩, 0⟩
def ebody3 : SBody := ⟨⟨[0xC3#8, 0xA9#8, 0#8], 3, 0, true⟩, 1⟩
def evar2 : Var := ⟨1, 0, 2, ⟨0, 0⟩⟩
def estr2 : Str := ⟨ebody2, 0, 2, ⟨0, 0⟩⟩
def estate2 : SV.State := ⟨[nullBody, ebody2, ebody3], [some evar2, none, some evar2]⟩

theorem estate2_reached : Reached estate2 := by
  refine ⟨Unit, noMeaning, eacute2, ?_, by decide +kernel⟩
  refine SafeRun.cons (s1 := ⟨[nullBody, ebody], [some evar]⟩) (by decide +kernel)
    (small_good [0xE9#32] (by simp) _ (by simp)) ?_
  refine SafeRun.cons (s1 := ⟨[nullBody, ebody2, ebody3], [some evar2, none]⟩) (by decide +kernel) ?_ ?_
  · refine ⟨by decide +kernel, small_good [0xE9#32] (by simp) _ (by simp), ?_, ?_⟩
    · intro x hx
      simp at hx; subst hx; exact Or.inl rfl
    · intro b hb
      simp only [List.mem_cons, List.not_mem_nil, or_false] at hb
      rcases hb with rfl | rfl <;> decide
  · exact SafeRun.cons (s1 := estate2) (by decide +kernel) (by unfold Safe; decide +kernel) trivial

/-- C70 is false in general: while one thread is counting the characters of "éé" another one asks for the last one and
fails an assertion. -/
theorem C70_refuted_abort :
    Readers estate2 ebody2 [(estr2, [.get 1]), (estr2, [.numBytes])] (fun _ => [0xE9#32, 0xE9#32]) ∧
    ((State.new ebody2 [(estr2, [.get 1]), (estr2, [.numBytes])]).run
      (List.replicate 6 0 ++ List.replicate 4 1)).ts.map (fun th => (th.dead, th.out)) =
      [(none, []), (some .assertion, [])] := by
  refine ⟨⟨estate2_reached, ?_⟩, by decide +kernel⟩
  refine two _ _ _ ?_ ?_
  · exact ⟨rfl, ⟨0, by decide +kernel, by decide +kernel⟩, by simp [Call.Int32]⟩
  · exact ⟨rfl, ⟨2, by decide +kernel, by decide +kernel⟩, by simp [Call.Int32]⟩

/-! ### The hypotheses are met -/

/-- three threads with "aéc", the same and its substr(1, 2): counted, since made from a C string -/
theorem sample_readers : Readers sampleState b1
    [(⟨b1, 0, 3, ⟨0, 0⟩⟩, [.get 1, .get (-1), .bytes]), (⟨b1, 1, 2, ⟨0, 0⟩⟩, [.numBytes, .get 1])]
    (fun i => if i = 0 then [0x61#32, 0xE9#32, 0x63#32] else [0xE9#32, 0x63#32]) ∧ Counted b1 := by
  refine ⟨⟨sample_reached, ?_⟩, by unfold Counted; decide +kernel⟩
  refine two _ _ _ ?_ ?_
  · exact ⟨rfl, ⟨0, by decide +kernel, by decide +kernel⟩, by simp [Call.Int32]⟩
  · exact ⟨rfl, ⟨2, by decide +kernel, by decide +kernel⟩, by simp [Call.Int32]⟩

example : [Call.get 1, .get (-1), .bytes].map (expected [0x61#32, 0xE9#32, 0x63#32]) =
    [.char 0xE9#32, .char 0xFFFFFFFF#32, .data [0x61#8, 0xC3#8, 0xA9#8, 0x63#8]] := by decide +kernel

/-- and the one thread of `C70_alone_partial`, on a body not counted -/
example : Readers estate2 ebody2 [(estr2, [.numBytes, .get 1])] (fun _ => [0xE9#32, 0xE9#32]) ∧ ¬ Counted ebody2 := by
  refine ⟨⟨estate2_reached, ?_⟩, by unfold Counted; decide +kernel⟩
  intro i x h
  match i with
  | 0 =>
    simp at h; subst h
    exact ⟨rfl, ⟨0, by decide +kernel, by decide +kernel⟩, by simp [Call.Int32]⟩
  | n + 1 => simp at h

end Strpp.SP
