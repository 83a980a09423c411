import Verif.Proof.RxResult
/-! C50: `RxResult` variables that share a body, for every history of calls. -/
namespace Strpp.Rx

/-- A history of calls on values -/
def specAll (vs : List (Option RVal)) : List ROp → Res (List (Option RVal))
  | [] => .ok vs
  | op :: ops => do
    let r ← specExec vs op
    specAll r.2 ops

theorem history {s : Heap} (h : WF s ∧ Tight s) (ops : List ROp) :
    match s.execAll ops with
    | .error e => specAll (views s) ops = .error e
    | .ok s' => (WF s' ∧ Tight s') ∧ specAll (views s) ops = .ok (views s') := by
  induction ops generalizing s with
  | nil => exact ⟨h, rfl⟩
  | cons op ops ih =>
    have ha := exec_agrees h.1 op
    unfold Heap.execAll specAll
    cases hx : s.exec op with
    | error e =>
      rw [hx] at ha
      have ha : specExec (views s) op = .error e := ha
      rw [ha]; rfl
    | ok r =>
      rw [hx] at ha
      obtain ⟨h1, h2, h3⟩ := ha
      rw [h3]
      simp only [res_bind_ok]
      exact ih ⟨h1, h2 h.2⟩

theorem reached {ops : List ROp} {s : Heap} (h : Heap.execAll .init ops = .ok s) :
    (WF s ∧ Tight s) ∧ specAll [] ops = .ok (views s) := by
  have := history init_wf ops
  rw [h] at this
  exact this

/-- After any history of calls, one more call on one variable leaves what all others show, read through any of the
reading functions -/
theorem C50_isolation {ops : List ROp} {s s' : Heap} {op : ROp} {n : Nat} (h : Heap.execAll .init ops = .ok s)
    (hx : s.exec op = .ok (n, s')) (w : Nat) (hw : w ≠ op.target s.vars.length) : s'.read w = s.read w := by
  have hs := (reached h).1.1
  have ha := exec_agrees hs op
  rw [hx] at ha
  obtain ⟨h1, -, h3⟩ := ha
  rw [read_views hs, read_views h1]
  have hlen : (views s).length = s.vars.length := by simp [views]
  have hset : ∀ (v : Nat) (g : RVal → Res (Nat × RVal)), update (views s) v g = .ok (n, views s') → w ≠ v →
      (views s')[w]? = (views s)[w]? := by
    intro v g hu hwv
    unfold update at hu
    obtain ⟨x, -, hu⟩ := hbind hu
    obtain ⟨r, -, hu⟩ := hbind hu
    injection hu with hu
    have : (views s).set v (some r.2) = views s' := (Prod.mk.inj hu).2
    rw [← this, List.getElem?_set_ne (Ne.symm hwv)]
  have hpush : ∀ x, (views s ++ [x] : List (Option RVal)) = views s' → w ≠ s.vars.length → shown (views s') w = shown (views s) w := by
    intro x hx hwl
    have he : (views s')[w]? = (views s)[w]? := by
      rw [← hx]
      by_cases hlt : w < (views s).length
      · rw [List.getElem?_append_left hlt]
      · have hgt : (views s).length < w := by omega
        rw [List.getElem?_eq_none (by simp; omega), List.getElem?_eq_none (by omega)]
    unfold shown; rw [he]
  cases op with
  | fail =>
    injection h3 with h3
    exact hpush _ (Prod.mk.inj h3).2 hw
  | new cm pm =>
    injection h3 with h3
    exact hpush _ (Prod.mk.inj h3).2 hw
  | copy v =>
    obtain ⟨x, -, h3⟩ := hbind h3
    injection h3 with h3
    exact hpush _ (Prod.mk.inj h3).2 hw
  | assign v u =>
    obtain ⟨x, -, h3⟩ := hbind h3
    unfold shown; rw [hset v _ h3 hw]
  | destroy v =>
    obtain ⟨x, -, h3⟩ := hbind h3
    injection h3 with h3
    have : (views s).set v none = views s' := (Prod.mk.inj h3).2
    have hw : w ≠ v := hw
    unfold shown
    rw [← this, List.getElem?_set_ne (Ne.symm hw)]
  | clear v | captureSet v i x | pushZero v o | incr v o | pop v => unfold shown; rw [hset v _ h3 hw]

/-- After any history of calls, a call does to the variable it works on, and returns, what it would do to a value of its
own: also if it aborts -/
theorem C50_values {ops : List ROp} {s : Heap} (h : Heap.execAll .init ops = .ok s) (op : ROp) :
    (∀ n s', s.exec op = .ok (n, s') → specExec (views s) op = .ok (n, views s')) ∧
    (∀ e, s.exec op = .error e → specExec (views s) op = .error e) ∧ ∀ v, s.read v = shown (views s) v := by
  have hs := (reached h).1.1
  have ha := exec_agrees hs op
  refine ⟨fun n s' hx => ?_, fun e hx => ?_, read_views hs⟩
  · rw [hx] at ha; exact ha.2.2
  · rw [hx] at ha; exact ha

/-- Whole histories -/
theorem C50_history (ops : List ROp) :
    match Heap.execAll .init ops with
    | .error e => specAll [] ops = .error e
    | .ok s => ∃ vs, specAll [] ops = .ok vs ∧ ∀ v, s.read v = shown vs v := by
  have := history init_wf ops
  cases hx : Heap.execAll .init ops with
  | error e => rw [hx] at this; exact this
  | ok s => rw [hx] at this; exact ⟨_, this.2, read_views this.1.1⟩

/-- A shared body is alive as long as a variable refers to it, and no longer; its reference count is their number -/
theorem C50_bodies {ops : List ROp} {s : Heap} (h : Heap.execAll .init ops = .ok s) (b : Nat) (y : Body) (hb : s.bodies[b]? = some y) :
    (y.live = true ↔ ∃ (v : Nat) (x : RVar), s.vars[v]? = some (some x) ∧ x.ptr = some b) ∧
    y.count = s.vars.countP (fun v => match v with | some x => x.ptr == some b | none => false) := by
  obtain ⟨⟨hw, ht⟩, -⟩ := reached h
  have hc := hw.count b y hb
  refine ⟨⟨fun hl => ?_, ?_⟩, ?_⟩
  · have := ht b y hb hl
    rw [hc] at this
    unfold cnt at this
    rw [List.countP_pos_iff] at this
    obtain ⟨o, ho, hh⟩ := this
    obtain ⟨v, hv⟩ := List.mem_iff_getElem?.mp ho
    cases o with
    | none => cases hh
    | some x => exact ⟨v, x, hv, by simpa [holds] using hh⟩
  · rintro ⟨v, x, hv, hx⟩
    have := cnt_pos hv hx
    exact hw.live b y hb (by omega)
  · rw [hc]
    unfold cnt
    congr 1

/-- A history with sharing: two variables share, then one of them counts and sets a capture -/
example : (do
    let s ← Heap.execAll .init [.new 2 2, .pushZero 0 5, .copy 0, .incr 1 7, .captureSet 1 2 9, .copy 1, .destroy 1]
    let a ← s.read 0
    let b ← s.read 2
    .ok (a.captures.map Caps.values, b.captures.map Caps.values, s.bodies.map Body.live)) =
    .ok (some [0, 0, 5, 0, 0, 0], some [9, 0, 7, 1, 0, 0], [true, true]) := by decide

/-- counting in a result without body is undefined: `Unshare` copies through a null reference -/
example : Heap.execAll .init [.fail, .pushZero 0 5] = .error .ub := by decide

end Strpp.Rx
