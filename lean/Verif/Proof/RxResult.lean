import Verif.Spec.RxResult
/-! `RxResult` variables behave as if each held its own value. -/
set_option linter.unusedSimpArgs false
namespace Strpp.Rx

/-- a variable that holds body `b` -/
def holds (b : Nat) : Option RVar → Bool
  | some x => x.ptr == some b
  | none => false

def cnt (s : Heap) (b : Nat) : Nat := s.vars.countP (holds b)

def capsOf (s : Heap) (b : Nat) : Option Caps := (s.bodies[b]?).map Body.caps

def shows (s : Heap) (x : RVar) : RVal := ⟨x.cap0, x.cap1, x.ptr.bind (capsOf s)⟩

/-- what each variable shows -/
def views (s : Heap) : List (Option RVal) := s.vars.map (Option.map (shows s))

structure WF (s : Heap) : Prop where
  count : ∀ (b : Nat) (y : Body), s.bodies[b]? = some y → y.count = cnt s b
  live : ∀ (b : Nat) (y : Body), s.bodies[b]? = some y → 0 < y.count → y.live = true
  ptr : ∀ (x : RVar) (b : Nat), some x ∈ s.vars → x.ptr = some b → b < s.bodies.length

/-- nothing else is alive -/
def Tight (s : Heap) : Prop := ∀ (b : Nat) (y : Body), s.bodies[b]? = some y → y.live = true → 0 < y.count

theorem cnt_pos {s : Heap} {v b : Nat} {x : RVar} (hv : s.vars[v]? = some (some x)) (hx : x.ptr = some b) : 0 < cnt s b := by
  unfold cnt
  rw [List.countP_pos_iff]
  exact ⟨some x, List.mem_of_getElem? hv, by simp [holds, hx]⟩

theorem cnt_set {s : Heap} {v : Nat} {o : Option RVar} (hv : s.vars[v]? = some o) (n : Option RVar) (b : Nat) :
    (s.vars.set v n).countP (holds b) + (if holds b o then 1 else 0) = cnt s b + (if holds b n then 1 else 0) := by
  obtain ⟨hl, he⟩ := List.getElem?_eq_some_iff.mp hv
  rw [List.countP_set hl, he]
  have : (if holds b o = true then 1 else 0) ≤ cnt s b := by
    split
    · unfold cnt
      rw [Nat.succ_le_iff, List.countP_pos_iff]
      exact ⟨o, List.mem_of_getElem? hv, by assumption⟩
    · omega
  unfold cnt at this ⊢
  omega

theorem var_ok {s : Heap} {v : Nat} {x : RVar} (hv : s.vars[v]? = some (some x)) : s.var v = .ok x := by
  unfold Heap.var; rw [hv]

theorem var_err {s : Heap} {v : Nat} (hv : ∀ x, s.vars[v]? ≠ some (some x)) : s.var v = .error .ub := by
  unfold Heap.var
  split
  · rename_i x h; exact absurd h (hv x)
  · rfl

theorem body_ok {s : Heap} {b : Nat} {y : Body} (hb : s.bodies[b]? = some y) (hl : y.live = true) : s.body b = .ok y := by
  unfold Heap.body; rw [hb]; simp [hl]

theorem addRef_ok {s : Heap} {p : Option Nat} (hp : ∀ b, p = some b → ∃ y, s.bodies[b]? = some y ∧ y.live = true) :
    ∃ s', s.addRef p = .ok s' ∧ s'.vars = s.vars ∧
      ∀ b, s'.bodies[b]? = (s.bodies[b]?).map fun y => if p = some b then { y with count := y.count + 1 } else y := by
  cases p with
  | none =>
    refine ⟨s, rfl, rfl, fun b => ?_⟩
    cases s.bodies[b]? <;> rfl
  | some c =>
    obtain ⟨y, h1, h2⟩ := hp c rfl
    refine ⟨s.setBody c { y with count := y.count + 1 }, ?_, rfl, fun b => ?_⟩
    · unfold Heap.addRef; simp only [body_ok h1 h2, res_bind_ok]
    · unfold Heap.setBody
      rw [List.getElem?_set]
      by_cases hb : c = b
      · subst hb
        rw [if_pos rfl, if_pos (List.getElem?_eq_some_iff.mp h1).1, h1]; simp
      · rw [if_neg hb]
        cases s.bodies[b]? <;> simp [hb]

theorem release_ok {s : Heap} {p : Option Nat} (hp : ∀ b, p = some b → ∃ y, s.bodies[b]? = some y ∧ y.live = true ∧ 0 < y.count) :
    ∃ s', s.release p = .ok s' ∧ s'.vars = s.vars ∧
      ∀ b, s'.bodies[b]? = (s.bodies[b]?).map fun y =>
        if p = some b then { y with count := y.count - 1, live := y.count - 1 != 0 } else y := by
  cases p with
  | none =>
    refine ⟨s, rfl, rfl, fun b => ?_⟩
    cases s.bodies[b]? <;> rfl
  | some c =>
    obtain ⟨y, h1, h2, h3⟩ := hp c rfl
    refine ⟨s.setBody c { y with count := y.count - 1, live := y.count - 1 != 0 }, ?_, rfl, fun b => ?_⟩
    · unfold Heap.release
      simp only [body_ok h1 h2, res_bind_ok]
      have : decide (y.count > 0) = true := by simpa using h3
      rw [this]; rfl
    · unfold Heap.setBody
      rw [List.getElem?_set]
      by_cases hb : c = b
      · subst hb
        rw [if_pos rfl, if_pos (List.getElem?_eq_some_iff.mp h1).1, h1]; simp
      · rw [if_neg hb]
        cases s.bodies[b]? <;> simp [hb]

/-- What is alive without a variable that holds it -/
def Spare (s : Heap) (b : Nat) : Prop := ∃ y, s.bodies[b]? = some y ∧ y.live = true ∧ y.count = 0

theorem setPtr_ok {s : Heap} (h : WF s) {v : Nat} {x : RVar} {p : Option Nat} (hv : s.vars[v]? = some (some x))
    (hp : ∀ b, p = some b → ∃ y, s.bodies[b]? = some y ∧ y.live = true) :
    ∃ s', s.setPtr v p = .ok s' ∧ WF s' ∧ s'.vars = s.vars.set v (some { x with ptr := p }) ∧ (∀ b, capsOf s' b = capsOf s b) ∧
      ∀ b, Spare s' b → Spare s b ∧ p ≠ some b := by
  obtain ⟨s1, e1, v1, b1⟩ := addRef_ok hp
  have hv1 : s1.vars[v]? = some (some x) := by rw [v1]; exact hv
  obtain ⟨s2, e2, v2, b2⟩ := release_ok (s := s1.setVar v { x with ptr := p }) (p := x.ptr) (by
    intro b hb
    have hlt := h.ptr x b (List.mem_of_getElem? hv) hb
    obtain ⟨y, hy⟩ : ∃ y, s.bodies[b]? = some y := ⟨_, List.getElem?_eq_getElem hlt⟩
    have hc := h.count b y hy
    have hpos := cnt_pos hv hb
    have hl := h.live b y hy (by omega)
    refine ⟨if p = some b then { y with count := y.count + 1 } else y, ?_, ?_, ?_⟩
    · show s1.bodies[b]? = _
      rw [b1, hy]; rfl
    · split <;> exact hl
    · split
      · show 0 < y.count + 1; omega
      · omega)
  have hbod : ∀ b, s2.bodies[b]? = (s.bodies[b]?).map fun y =>
      if x.ptr = some b then
        (if p = some b then { y with live := y.count != 0 } else { y with count := y.count - 1, live := y.count - 1 != 0 })
      else if p = some b then { y with count := y.count + 1 } else y := by
    intro b
    rw [b2]
    show (s1.bodies[b]?).map _ = _
    rw [b1]
    cases s.bodies[b]? with
    | none => rfl
    | some y =>
      simp only [Option.map_some]
      by_cases h1 : x.ptr = some b <;> by_cases h2 : p = some b <;> simp [h1, h2]
  have hvars : s2.vars = s.vars.set v (some { x with ptr := p }) := by rw [v2]; show s1.vars.set v _ = _; rw [v1]
  have hh : ∀ b (z : RVar), (holds b (some z) = true) ↔ z.ptr = some b := by intro b z; simp [holds]
  have hcnt : ∀ b, cnt s2 b + (if x.ptr = some b then 1 else 0) = cnt s b + (if p = some b then 1 else 0) := by
    intro b
    have := cnt_set hv (some { x with ptr := p }) b
    simp only [hh] at this
    unfold cnt at *
    rw [hvars]; exact this
  refine ⟨s2, ?_, ⟨?_, ?_, ?_⟩, hvars, ?_, ?_⟩
  · unfold Heap.setPtr
    rw [e1, res_bind_ok, var_ok hv1, res_bind_ok]
    exact e2
  · intro b y' hy'
    rw [hbod] at hy'
    obtain ⟨y, hy, rfl⟩ := Option.map_eq_some_iff.mp hy'
    have hc := h.count b y hy
    have := hcnt b
    by_cases h1 : x.ptr = some b
    · have hpos := cnt_pos hv h1
      by_cases h2 : p = some b
      · simp only [h1, h2, if_true] at this ⊢; omega
      · simp only [h1, h2, if_true, if_false] at this ⊢; omega
    · by_cases h2 : p = some b
      · simp only [h1, h2, if_true, if_false] at this ⊢; omega
      · simp only [h1, h2, if_false] at this ⊢; omega
  · intro b y' hy' hpos
    rw [hbod] at hy'
    obtain ⟨y, hy, rfl⟩ := Option.map_eq_some_iff.mp hy'
    have hl := h.live b y hy
    by_cases h1 : x.ptr = some b
    · by_cases h2 : p = some b
      · simp only [h1, h2, if_true] at hpos ⊢; simp; omega
      · simp only [h1, h2, if_true, if_false] at hpos ⊢; simp; omega
    · by_cases h2 : p = some b
      · obtain ⟨y2, hy2, hl2⟩ := hp b h2
        rw [hy] at hy2; cases hy2
        simp only [h1, h2, if_true, if_false] at hpos ⊢; exact hl2
      · simp only [h1, h2, if_false] at hpos ⊢; exact hl hpos
  · intro z b hz hb
    have hlen : ∀ b, b < s.bodies.length → b < s2.bodies.length := by
      intro b hb
      have : s2.bodies[b]? ≠ none := by rw [hbod, List.getElem?_eq_getElem hb]; simp
      exact Decidable.byContradiction fun hn => this (List.getElem?_eq_none (by omega))
    rw [hvars] at hz
    rcases List.mem_or_eq_of_mem_set hz with hz | hz
    · exact hlen b (h.ptr z b hz hb)
    · cases hz
      obtain ⟨y, hy, -⟩ := hp b hb
      exact hlen b (List.getElem?_eq_some_iff.mp hy).1
  · intro b
    unfold capsOf
    rw [hbod]
    cases s.bodies[b]? with
    | none => rfl
    | some y => simp only [Option.map_some]; split <;> split <;> rfl
  · rintro b ⟨y', hy', hl', hz'⟩
    rw [hbod] at hy'
    obtain ⟨y, hy, rfl⟩ := Option.map_eq_some_iff.mp hy'
    have hc := h.count b y hy
    by_cases h1 : x.ptr = some b
    · exfalso
      have hpos := cnt_pos hv h1
      by_cases h2 : p = some b
      · simp only [h1, h2, if_true] at hl' hz'; omega
      · simp only [h1, h2, if_true, if_false] at hl' hz'; rw [hz'] at hl'; simp at hl'
    · by_cases h2 : p = some b
      · simp only [h1, h2, if_true, if_false] at hz'; omega
      · simp only [h1, h2, if_false] at hl' hz'
        exact ⟨⟨y, hy, hl', hz'⟩, h2⟩

theorem tight_iff (s : Heap) : Tight s ↔ ∀ b, ¬ Spare s b := by
  constructor
  · rintro h b ⟨y, h1, h2, h3⟩; have := h b y h1 h2; omega
  · intro h b y h1 h2
    apply Decidable.byContradiction
    intro h3; exact h b ⟨y, h1, h2, by omega⟩

/-! ### Views -/

theorem views_get (s : Heap) (v : Nat) : (views s)[v]? = (s.vars[v]?).map (Option.map (shows s)) := by
  unfold views; rw [List.getElem?_map]

theorem shown_ok {s : Heap} {v : Nat} {x : RVar} (hv : s.vars[v]? = some (some x)) : shown (views s) v = .ok (shows s x) := by
  unfold shown; rw [views_get, hv]; rfl

theorem shown_err {s : Heap} {v : Nat} (hv : ∀ x, s.vars[v]? ≠ some (some x)) : shown (views s) v = .error .ub := by
  unfold shown
  rw [views_get]
  cases h : s.vars[v]? with
  | none => rfl
  | some o =>
    cases o with
    | none => rfl
    | some x => exact absurd h (hv x)

theorem shows_congr {s s' : Heap} (h : ∀ b, capsOf s' b = capsOf s b) (x : RVar) : shows s' x = shows s x := by
  unfold shows
  congr 1
  cases x.ptr with
  | none => rfl
  | some b => exact h b

theorem views_set {s s' : Heap} (h : ∀ b, capsOf s' b = capsOf s b) {v : Nat} {o : Option RVar} (hv : s'.vars = s.vars.set v o) :
    views s' = (views s).set v (o.map (shows s)) := by
  unfold views
  rw [hv, List.map_set]
  have e : (Option.map (shows s')) = (Option.map (shows s)) := by
    funext o; cases o <;> simp [shows_congr h]
  rw [e]

theorem views_push {s s' : Heap} (h : ∀ x b, some x ∈ s.vars → x.ptr = some b → capsOf s' b = capsOf s b) {o : Option RVar} (hv : s'.vars = s.vars ++ [o]) :
    views s' = views s ++ [o.map (shows s')] := by
  unfold views
  rw [hv, List.map_append, List.map_cons, List.map_nil]
  congr 1
  apply List.map_congr_left
  intro o ho
  cases o with
  | none => rfl
  | some x =>
    simp only [Option.map_some]
    congr 1
    unfold shows
    congr 1
    cases hx : x.ptr with
    | none => rfl
    | some b => exact h x b ho hx

theorem captureSet_small (r : RVal) {i : Int} (h : i ≤ 1) (val : Nat) :
    r.captureSet i val = .ok (if i = 0 then { r with cap0 := val } else { r with cap1 := some val }) := by
  unfold RVal.captureSet; rw [if_pos h]

theorem captureSet_some (a0 : Nat) (a1 : Option Nat) (c : Caps) {i : Int} (h : ¬ i ≤ 1) (val : Nat) :
    RVal.captureSet ⟨a0, a1, some c⟩ i val = (c.captureSet i val >>= fun c => .ok ⟨a0, a1, some c⟩) := by
  unfold RVal.captureSet; rw [if_neg h]

theorem captureSet_none (a0 : Nat) (a1 : Option Nat) {i : Int} (h : ¬ i ≤ 1) (val : Nat) :
    RVal.captureSet ⟨a0, a1, none⟩ i val = .error .assertion := by
  unfold RVal.captureSet; rw [if_neg h]

/-- The call on the heap does what the call on values does -/
def Agrees (s : Heap) (a : Res (Nat × Heap)) (b : Res (Nat × List (Option RVal))) : Prop :=
  match a with
  | .error e => b = .error e
  | .ok r => WF r.2 ∧ (Tight s → Tight r.2) ∧ b = .ok (r.1, views r.2)

theorem wf_setVar {s : Heap} (h : WF s) {v : Nat} {x y : RVar} (hv : s.vars[v]? = some (some x)) (hp : y.ptr = x.ptr) :
    WF (s.setVar v y) := by
  have hc : ∀ b, cnt (s.setVar v y) b = cnt s b := by
    intro b
    have := cnt_set hv (some y) b
    have hh : holds b (some y) = holds b (some x) := by simp [holds, hp]
    rw [hh] at this
    unfold cnt Heap.setVar at *
    simp only
    omega
  refine ⟨fun b z hz => by rw [hc]; exact h.count b z hz, h.live, fun z b hz hb => ?_⟩
  rcases List.mem_or_eq_of_mem_set hz with hz | hz
  · exact h.ptr z b hz hb
  · cases hz
    exact h.ptr x b (List.mem_of_getElem? hv) (by rw [← hp]; exact hb)

/-- `captures` of a variable is a live body -/
theorem ptr_body {s : Heap} (h : WF s) {v b : Nat} {x : RVar} (hv : s.vars[v]? = some (some x)) (hb : x.ptr = some b) :
    ∃ y, s.bodies[b]? = some y ∧ y.live = true ∧ y.count = cnt s b ∧ capsOf s b = some y.caps := by
  have hlt := h.ptr x b (List.mem_of_getElem? hv) hb
  obtain ⟨y, hy⟩ : ∃ y, s.bodies[b]? = some y := ⟨_, List.getElem?_eq_getElem hlt⟩
  have hc := h.count b y hy
  have hpos := cnt_pos hv hb
  exact ⟨y, hy, h.live b y hy (by omega), hc, by unfold capsOf; rw [hy]; rfl⟩

theorem wf_alloc {s : Heap} (h : WF s) (c : Caps) : WF (s.alloc c) := by
  have hz : ∀ b, s.bodies.length ≤ b → cnt s b = 0 := by
    intro b hb
    unfold cnt
    rw [List.countP_eq_zero]
    intro o ho
    cases o with
    | none => simp [holds]
    | some x =>
      simp only [holds, beq_iff_eq]
      intro hx
      have := h.ptr x b ho hx
      omega
  have hget : ∀ b y, (s.alloc c).bodies[b]? = some y → s.bodies[b]? = some y ∨ (b = s.bodies.length ∧ y = ⟨0, true, c⟩) := by
    intro b y hy
    unfold Heap.alloc at hy
    simp only [List.getElem?_append] at hy
    split at hy
    · exact .inl hy
    · rename_i hb
      rw [List.getElem?_singleton] at hy
      split at hy
      · cases hy; exact .inr ⟨by omega, rfl⟩
      · cases hy
  refine ⟨fun b y hy => ?_, fun b y hy hp => ?_, fun z b hz hb => ?_⟩
  · show y.count = cnt s b
    rcases hget b y hy with h1 | ⟨rfl, rfl⟩
    · exact h.count b y h1
    · rw [hz _ (Nat.le_refl _)]
  · rcases hget b y hy with h1 | ⟨rfl, rfl⟩
    · exact h.live b y h1 hp
    · rfl
  · have := h.ptr z b hz hb
    unfold Heap.alloc
    simp only [List.length_append, List.length_singleton]
    omega

theorem spare_alloc {s : Heap} {c : Caps} {b : Nat} (h : Spare (s.alloc c) b) : Spare s b ∨ b = s.bodies.length := by
  obtain ⟨y, hy, h1, h2⟩ := h
  unfold Heap.alloc at hy
  simp only [List.getElem?_append] at hy
  split at hy
  · exact .inl ⟨y, hy, h1, h2⟩
  · rename_i hb
    rw [List.getElem?_singleton] at hy
    split at hy
    · exact .inr (by omega)
    · cases hy

theorem capsOf_alloc {s : Heap} (c : Caps) : (∀ b, b < s.bodies.length → capsOf (s.alloc c) b = capsOf s b) ∧
    capsOf (s.alloc c) s.bodies.length = some c := by
  constructor
  · intro b hb
    unfold capsOf Heap.alloc
    rw [List.getElem?_append_left hb]
  · unfold capsOf Heap.alloc
    simp

/-- After `Unshare` the variable shows the same, and no other holds its body -/
theorem unshare_ok {s : Heap} (h : WF s) {v b : Nat} {x : RVar} (hv : s.vars[v]? = some (some x)) (hb : x.ptr = some b) :
    ∃ s' b', s.unshare v = .ok s' ∧ WF s' ∧ (Tight s → Tight s') ∧ views s' = views s ∧
      s'.vars[v]? = some (some { x with ptr := some b' }) ∧
      ∀ w z, w ≠ v → s'.vars[w]? = some (some z) → z.ptr ≠ some b' := by
  obtain ⟨y, hy, hl, hc, hcap⟩ := ptr_body h hv hb
  unfold Heap.unshare
  rw [var_ok hv, res_bind_ok, hb]
  simp only [body_ok hy hl, res_bind_ok]
  by_cases h1 : y.count ≤ 1
  · rw [if_pos h1]
    refine ⟨s, b, rfl, h, id, rfl, by rw [hv, ← hb], fun w z hw hz hzb => ?_⟩
    have hset := cnt_set hv none b
    have : holds b (some x) = true := by simp [holds, hb]
    rw [this] at hset
    have hn : holds b none = false := rfl
    rw [hn] at hset
    simp only [if_true, Bool.false_eq_true, if_false] at hset
    have h0 : (s.vars.set v none).countP (holds b) = 0 := by omega
    rw [List.countP_eq_zero] at h0
    have hm : some z ∈ s.vars.set v none := by
      apply List.mem_of_getElem? (i := w)
      rw [List.getElem?_set_ne (Ne.symm hw)]; exact hz
    exact h0 _ hm (by simp [holds, hzb])
  · rw [if_neg h1]
    have hnew : (s.alloc y.caps).bodies[s.bodies.length]? = some ⟨0, true, y.caps⟩ := by unfold Heap.alloc; simp
    obtain ⟨s', e, hw', hvars, hcaps, hsp⟩ := setPtr_ok (wf_alloc h y.caps) (v := v) (x := x) (p := some s.bodies.length) hv
      (by intro c hc; cases hc; exact ⟨_, hnew, rfl⟩)
    have hvl := (List.getElem?_eq_some_iff.mp hv).1
    refine ⟨s', s.bodies.length, e, hw', fun ht => ?_, ?_, ?_, ?_⟩
    · rw [tight_iff] at ht ⊢
      intro c hc
      obtain ⟨h1, h2⟩ := hsp c hc
      rcases spare_alloc h1 with h3 | h3
      · exact ht c h3
      · exact h2 (by rw [h3])
    · have hcl := capsOf_alloc (s := s) y.caps
      have hsame : ∀ z : RVar, some z ∈ s.vars → shows s' z = shows s z := by
        intro z hz
        unfold shows
        congr 1
        cases hzp : z.ptr with
        | none => rfl
        | some c => exact (hcaps c).trans (hcl.1 c (h.ptr z c hz hzp))
      have hx : shows s' { x with ptr := some s.bodies.length } = shows s x := by
        unfold shows
        congr 1
        show capsOf s' s.bodies.length = _
        rw [hcaps, hcl.2, hb]
        exact hcap.symm
      apply List.ext_getElem?
      intro w
      rw [views_get, views_get, hvars]
      show ((s.vars.set v _)[w]?).map _ = _
      rw [List.getElem?_set]
      by_cases hwv : v = w
      · subst hwv
        rw [if_pos rfl, if_pos hvl, hv]
        simp only [Option.map_some, hx]
      · rw [if_neg hwv]
        cases hw : s.vars[w]? with
        | none => rfl
        | some o =>
          cases o with
          | none => rfl
          | some z => simp only [Option.map_some, hsame z (List.mem_of_getElem? hw)]
    · rw [hvars]
      show (s.vars.set v _)[v]? = _
      rw [List.getElem?_set]
      simp [hvl]
    · intro w z hw hz hzp
      rw [hvars] at hz
      have hz' : (s.vars.set v (some { x with ptr := some s.bodies.length }))[w]? = some (some z) := hz
      rw [List.getElem?_set_ne (Ne.symm hw)] at hz'
      have := h.ptr z _ (List.mem_of_getElem? hz') hzp
      omega

theorem modify_ok {s : Heap} (h : WF s) {v b : Nat} {x : RVar} (hv : s.vars[v]? = some (some x)) (hb : x.ptr = some b)
    (hexc : ∀ w z, w ≠ v → s.vars[w]? = some (some z) → z.ptr ≠ some b) (f : Caps → Res (Nat × Caps)) (g : RVal → Res (Nat × RVal))
    (hfg : ∀ a1 a2 c, g ⟨a1, a2, some c⟩ = (f c >>= fun r => .ok (r.1, ⟨a1, a2, some r.2⟩))) :
    Agrees s (s.modify v f) (update (views s) v g) := by
  obtain ⟨y, hy, hl, hc, hcap⟩ := ptr_body h hv hb
  unfold Heap.modify update
  rw [var_ok hv, res_bind_ok, shown_ok hv, res_bind_ok, hb]
  have hs : shows s x = ⟨x.cap0, x.cap1, some y.caps⟩ := by
    unfold shows; rw [hb]; congr 1
  rw [hs, hfg]
  simp only [body_ok hy hl, res_bind_ok]
  cases hf : f y.caps with
  | error e => rfl
  | ok r =>
    simp only [res_bind_ok]
    have hbl := (List.getElem?_eq_some_iff.mp hy).1
    have hget : ∀ c, (s.setBody b { y with caps := r.2 }).bodies[c]? = if c = b then some { y with caps := r.2 } else s.bodies[c]? := by
      intro c
      unfold Heap.setBody
      rw [List.getElem?_set]
      by_cases e : b = c
      · subst e; simp [hbl]
      · rw [if_neg e, if_neg (Ne.symm e)]
    refine ⟨⟨fun c z hz => ?_, fun c z hz hp => ?_, fun z c hz hzc => ?_⟩, fun ht c z hz hzl => ?_, ?_⟩
    · simp only [hget] at hz
      show z.count = cnt s c
      split at hz
      · rename_i e; cases hz; rw [e]; exact hc
      · exact h.count c z hz
    · simp only [hget] at hz
      split at hz
      · cases hz; exact hl
      · exact h.live c z hz hp
    · have := h.ptr z c hz hzc
      unfold Heap.setBody
      simpa using this
    · simp only [hget] at hz
      split at hz
      · cases hz; exact ht b y hy hl
      · exact ht c z hz hzl
    · congr 2
      apply List.ext_getElem?
      intro w
      rw [views_get, List.getElem?_set, views_get]
      have hvl := (List.getElem?_eq_some_iff.mp hv).1
      show _ = Option.map (Option.map _) (s.vars[w]?)
      by_cases hwv : v = w
      · subst hwv
        rw [if_pos rfl, if_pos (by unfold views; simpa using hvl), hv]
        simp only [Option.map_some]
        congr 2
        unfold shows
        rw [hb]
        show _ = RVal.mk _ _ (capsOf _ b)
        unfold capsOf
        rw [hget, if_pos rfl]; rfl
      · rw [if_neg hwv]
        cases hw : s.vars[w]? with
        | none => rfl
        | some o =>
          cases o with
          | none => rfl
          | some z =>
            simp only [Option.map_some]
            congr 2
            unfold shows
            congr 1
            cases hz : z.ptr with
            | none => rfl
            | some c =>
              show capsOf s c = capsOf _ c
              unfold capsOf
              rw [hget, if_neg]
              rintro rfl
              exact hexc w z (Ne.symm hwv) hw hz

/-- `Unshare`, then a change -/
theorem change_ok {s : Heap} (h : WF s) (v : Nat) (f : Caps → Res (Nat × Caps)) (g : RVal → Res (Nat × RVal))
    (hfg : ∀ a1 a2 c, g ⟨a1, a2, some c⟩ = (f c >>= fun r => .ok (r.1, ⟨a1, a2, some r.2⟩)))
    (hg : ∀ a1 a2, g ⟨a1, a2, none⟩ = .error .ub) :
    Agrees s (s.unshare v >>= fun s => s.modify v f) (update (views s) v g) := by
  by_cases hv : ∃ x, s.vars[v]? = some (some x)
  · obtain ⟨x, hv⟩ := hv
    cases hb : x.ptr with
    | none =>
      have : s.unshare v = .error .ub := by unfold Heap.unshare; rw [var_ok hv, res_bind_ok, hb]
      rw [this]
      show update _ _ _ = _
      unfold update
      rw [shown_ok hv, res_bind_ok]
      unfold shows
      rw [hb]
      show (g ⟨_, _, none⟩ >>= _) = _
      rw [hg]; rfl
    | some b =>
      obtain ⟨s', b', e, hw', ht, hviews, hv', hexc⟩ := unshare_ok h hv hb
      rw [e, res_bind_ok, ← hviews]
      have := modify_ok hw' hv' rfl hexc f g hfg
      unfold Agrees at this ⊢
      split
      · rename_i e he; rw [he] at this; exact this
      · rename_i r hr
        rw [hr] at this
        exact ⟨this.1, fun h => this.2.1 (ht h), this.2.2⟩
  · have hv' : ∀ x, s.vars[v]? ≠ some (some x) := fun x hx => hv ⟨x, hx⟩
    have : s.unshare v = .error .ub := by unfold Heap.unshare; rw [var_err hv']; rfl
    rw [this]
    show update _ _ _ = _
    unfold update
    rw [shown_err hv']; rfl

theorem wf_push {s : Heap} (h : WF s) (a0 : Nat) (a1 : Option Nat) : WF { s with vars := s.vars ++ [some ⟨a0, a1, none⟩] } := by
  have hc : ∀ b, cnt { s with vars := s.vars ++ [some ⟨a0, a1, none⟩] } b = cnt s b := by
    intro b; unfold cnt; simp [List.countP_append, holds]
  refine ⟨fun b y hy => by rw [hc]; exact h.count b y hy, h.live, fun z b hz hb => ?_⟩
  rcases List.mem_append.mp hz with hz | hz
  · exact h.ptr z b hz hb
  · simp only [List.mem_singleton, Option.some.injEq] at hz
    subst hz; cases hb

theorem exec_agrees {s : Heap} (h : WF s) (op : ROp) : Agrees s (s.exec op) (specExec (views s) op) := by
  cases op with
  | fail =>
    refine ⟨wf_push h _ _, fun ht => ht, ?_⟩
    show Except.ok (0, views s ++ [some RVal.fail]) = _
    rw [views_push (s := s) (s' := { s with vars := s.vars ++ [some ⟨0, none, none⟩] }) (fun _ _ _ _ => rfl) rfl]
    rfl
  | new cm pm =>
    have hnew : (s.alloc (Caps.new cm pm)).bodies[s.bodies.length]? = some ⟨0, true, Caps.new cm pm⟩ := by unfold Heap.alloc; simp
    obtain ⟨s', e, hw', hvars, hcaps, hsp⟩ := setPtr_ok (wf_push (wf_alloc h (Caps.new cm pm)) 0 none) (v := s.vars.length) (x := ⟨0, none, none⟩)
      (p := some s.bodies.length) (by show (s.vars ++ [_])[_]? = _; simp) (by intro c hc; cases hc; exact ⟨_, hnew, rfl⟩)
    have hv2 : s'.vars = s.vars ++ [some ⟨0, none, some s.bodies.length⟩] := by
      rw [hvars]; show (s.vars ++ [_]).set _ _ = _; simp
    have hcl := capsOf_alloc (s := s) (Caps.new cm pm)
    have hx : s.exec (.new cm pm) = .ok (0, s') := by
      show (Heap.setPtr _ _ _ >>= fun s' => (.ok (0, s') : Res _)) = _
      have e' : Heap.setPtr { s.alloc (Caps.new cm pm) with vars := s.vars ++ [some ⟨0, none, none⟩] } s.vars.length (some s.bodies.length) = .ok s' := e
      exact congrArg (fun z : Res Heap => z >>= fun s' => (.ok (0, s') : Res (Nat × Heap))) e'
    rw [hx]
    refine ⟨hw', fun ht => ?_, ?_⟩
    · rw [tight_iff] at ht ⊢
      intro c hc
      obtain ⟨h1, h2⟩ := hsp c hc
      rcases spare_alloc (s := s) (c := Caps.new cm pm) h1 with h3 | h3
      · exact ht c h3
      · exact h2 (by rw [h3])
    · show Except.ok (0, views s ++ [some (RVal.new cm pm)]) = _
      rw [views_push (s := s) (s' := s') (fun x b hx hb => (hcaps b).trans (hcl.1 b (h.ptr x b hx hb))) hv2]
      simp only [Option.map_some]
      congr 5
      unfold shows
      show RVal.mk 0 none _ = RVal.mk 0 none (capsOf s' s.bodies.length)
      rw [hcaps]
      congr 1
      exact hcl.2.symm
  | copy w =>
    by_cases hv : ∃ x, s.vars[w]? = some (some x)
    · obtain ⟨x, hv⟩ := hv
      obtain ⟨s', e, hw', hvars, hcaps, hsp⟩ := setPtr_ok (wf_push h x.cap0 x.cap1) (v := s.vars.length) (x := ⟨x.cap0, x.cap1, none⟩)
        (p := x.ptr) (by show (s.vars ++ [_])[_]? = _; simp) (by
          intro c hc
          obtain ⟨y, h1, h2, -⟩ := ptr_body h hv hc
          exact ⟨y, h1, h2⟩)
      have hv2 : s'.vars = s.vars ++ [some x] := by
        rw [hvars]; show (s.vars ++ [_]).set _ _ = _; simp
      have hx : s.exec (.copy w) = .ok (0, s') := by
        show (s.var w >>= fun x => Heap.setPtr { s with vars := s.vars ++ [some ⟨x.cap0, x.cap1, none⟩] } s.vars.length x.ptr >>= fun s' => (.ok (0, s') : Res _)) = _
        rw [var_ok hv, res_bind_ok, e]; rfl
      rw [hx]
      refine ⟨hw', fun ht => ?_, ?_⟩
      · rw [tight_iff] at ht ⊢
        intro c hc
        exact ht c (hsp c hc).1
      · show (shown (views s) w >>= fun x => (.ok (0, views s ++ [some x]) : Res _)) = _
        rw [shown_ok hv, res_bind_ok, views_push (s := s) (s' := s') (fun x b hx hb => hcaps b) hv2]
        simp only [Option.map_some, shows_congr (s := s) (s' := s') hcaps]
    · have hv' : ∀ x, s.vars[w]? ≠ some (some x) := fun x hx => hv ⟨x, hx⟩
      have : s.exec (.copy w) = .error .ub := by
        show (s.var w >>= _) = _
        rw [var_err hv']; rfl
      rw [this]
      show (shown (views s) w >>= _) = _
      rw [shown_err hv']; rfl
  | assign v w =>
    by_cases hw : ∃ x, s.vars[w]? = some (some x)
    · obtain ⟨x, hw⟩ := hw
      have hlive : ∀ b, x.ptr = some b → ∃ y, s.bodies[b]? = some y ∧ y.live = true := by
        intro c hc
        obtain ⟨y, h1, h2, -⟩ := ptr_body h hw hc
        exact ⟨y, h1, h2⟩
      by_cases hv : ∃ z, s.vars[v]? = some (some z)
      · obtain ⟨z, hv⟩ := hv
        obtain ⟨s', e, hw', hvars, hcaps, hsp⟩ := setPtr_ok h (p := x.ptr) hv hlive
        have hvl := (List.getElem?_eq_some_iff.mp hv).1
        have hv2 : s'.vars[v]? = some (some { z with ptr := x.ptr }) := by rw [hvars]; simp [hvl]
        have hw2 : ∃ x2, s'.vars[w]? = some (some x2) ∧ x2.cap0 = x.cap0 ∧ x2.cap1 = x.cap1 := by
          by_cases hwv : v = w
          · subst hwv
            rw [hw] at hv; cases hv
            exact ⟨_, hv2, rfl, rfl⟩
          · exact ⟨x, by rw [hvars, List.getElem?_set_ne hwv]; exact hw, rfl, rfl⟩
        obtain ⟨x2, hx2, hc0, hc1⟩ := hw2
        have hx : s.exec (.assign v w) = .ok (0, s'.setVar v ⟨x.cap0, x.cap1, x.ptr⟩) := by
          show (s.var w >>= fun x => s.setPtr v x.ptr >>= fun s => s.var w >>= fun x => s.var v >>= fun y =>
            (.ok (0, s.setVar v ⟨x.cap0, x.cap1, y.ptr⟩) : Res _)) = _
          rw [var_ok hw, res_bind_ok, e, res_bind_ok, var_ok hx2, res_bind_ok, var_ok hv2, res_bind_ok, hc0, hc1]
        rw [hx]
        refine ⟨wf_setVar hw' hv2 rfl, fun ht => ?_, ?_⟩
        · rw [tight_iff] at ht
          have : Tight s' := (tight_iff s').mpr fun c hc => ht c (hsp c hc).1
          exact this
        · show (shown (views s) w >>= fun x => update (views s) v fun _ => .ok (0, x)) = _
          rw [shown_ok hw, res_bind_ok]
          unfold update
          rw [shown_ok hv, res_bind_ok, res_bind_ok]
          congr 2
          rw [views_set (s := s) (s' := s'.setVar v ⟨x.cap0, x.cap1, x.ptr⟩) (v := v) (o := some x) (fun b => hcaps b) (by
            show s'.vars.set v _ = _
            rw [hvars]; simp)]
          rfl
      · have hv' : ∀ z, s.vars[v]? ≠ some (some z) := fun x hx => hv ⟨x, hx⟩
        have : s.setPtr v x.ptr = .error .ub := by
          obtain ⟨s1, e1, v1, -⟩ := addRef_ok (s := s) hlive
          unfold Heap.setPtr
          rw [e1, res_bind_ok, var_err (by rw [v1]; exact hv')]; rfl
        have hx : s.exec (.assign v w) = .error .ub := by
          show (s.var w >>= fun x => s.setPtr v x.ptr >>= _) = _
          rw [var_ok hw, res_bind_ok, this]; rfl
        rw [hx]
        show (shown (views s) w >>= fun x => update (views s) v fun _ => .ok (0, x)) = _
        rw [shown_ok hw, res_bind_ok]
        unfold update
        rw [shown_err hv']; rfl
    · have hw' : ∀ x, s.vars[w]? ≠ some (some x) := fun x hx => hw ⟨x, hx⟩
      have : s.exec (.assign v w) = .error .ub := by
        show (s.var w >>= _) = _
        rw [var_err hw']; rfl
      rw [this]
      show (shown (views s) w >>= _) = _
      rw [shown_err hw']; rfl
  | clear v =>
    by_cases hv : ∃ x, s.vars[v]? = some (some x)
    · obtain ⟨x, hv⟩ := hv
      obtain ⟨s', e, hw', hvars, hcaps, hsp⟩ := setPtr_ok h (p := none) hv (by intro b hb; cases hb)
      have hvl := (List.getElem?_eq_some_iff.mp hv).1
      have hv2 : s'.vars[v]? = some (some { x with ptr := none }) := by rw [hvars]; simp [hvl]
      have hx : s.exec (.clear v) = .ok (0, s'.setVar v ⟨0, none, none⟩) := by
        show (s.setPtr v none >>= fun s => (.ok (0, s.setVar v ⟨0, none, none⟩) : Res _)) = _
        rw [e]; rfl
      rw [hx]
      refine ⟨wf_setVar hw' hv2 rfl, fun ht => ?_, ?_⟩
      · rw [tight_iff] at ht
        have : Tight s' := (tight_iff s').mpr fun c hc => ht c (hsp c hc).1
        exact this
      · show update (views s) v _ = _
        unfold update
        rw [shown_ok hv, res_bind_ok, res_bind_ok]
        congr 2
        rw [views_set (s := s) (s' := s'.setVar v ⟨0, none, none⟩) (v := v) (o := some ⟨0, none, none⟩) (fun b => hcaps b) (by
          show s'.vars.set v _ = _
          rw [hvars]; simp)]
        rfl
    · have hv' : ∀ x, s.vars[v]? ≠ some (some x) := fun x hx => hv ⟨x, hx⟩
      have : s.exec (.clear v) = .error .ub := by
        show (s.setPtr v none >>= _) = _
        unfold Heap.setPtr
        show (s.var v >>= _) >>= _ = _
        rw [var_err hv']; rfl
      rw [this]
      show update _ _ _ = _
      unfold update
      rw [shown_err hv']; rfl
  | destroy v =>
    by_cases hv : ∃ x, s.vars[v]? = some (some x)
    · obtain ⟨x, hv⟩ := hv
      obtain ⟨s', e, hw', hvars, hcaps, hsp⟩ := setPtr_ok h (p := none) hv (by intro b hb; cases hb)
      have hvl := (List.getElem?_eq_some_iff.mp hv).1
      have hv2 : s'.vars[v]? = some (some { x with ptr := none }) := by rw [hvars]; simp [hvl]
      have hx : s.exec (.destroy v) = .ok (0, { s' with vars := s'.vars.set v none }) := by
        show (s.setPtr v none >>= fun s => (.ok (0, { s with vars := s.vars.set v none }) : Res _)) = _
        rw [e]; rfl
      rw [hx]
      have hc : ∀ b, cnt { s' with vars := s'.vars.set v none } b = cnt s' b := by
        intro b
        have := cnt_set hv2 none b
        have h1 : holds b none = false := rfl
        have h2 : holds b (some { x with ptr := none }) = false := rfl
        rw [h1, h2] at this
        exact this
      refine ⟨⟨fun b y hy => by rw [hc]; exact hw'.count b y hy, hw'.live, fun z b hz hb => ?_⟩, fun ht => ?_, ?_⟩
      · rcases List.mem_or_eq_of_mem_set hz with hz | hz
        · exact hw'.ptr z b hz hb
        · cases hz
      · rw [tight_iff] at ht
        have : Tight s' := (tight_iff s').mpr fun c hc => ht c (hsp c hc).1
        exact this
      · show (shown (views s) v >>= fun _ => (.ok (0, (views s).set v none) : Res _)) = _
        rw [shown_ok hv, res_bind_ok]
        congr 2
        rw [views_set (s := s) (s' := { s' with vars := s'.vars.set v none }) (v := v) (o := none) (fun b => hcaps b) (by
          show s'.vars.set v _ = _
          rw [hvars]; simp)]
        rfl
    · have hv' : ∀ x, s.vars[v]? ≠ some (some x) := fun x hx => hv ⟨x, hx⟩
      have : s.exec (.destroy v) = .error .ub := by
        show (s.setPtr v none >>= _) = _
        unfold Heap.setPtr
        show (s.var v >>= _) >>= _ = _
        rw [var_err hv']; rfl
      rw [this]
      show (shown (views s) v >>= _) = _
      rw [shown_err hv']; rfl
  | captureSet v i val =>
    by_cases hv : ∃ x, s.vars[v]? = some (some x)
    · obtain ⟨x, hv⟩ := hv
      by_cases hi : i ≤ 1
      · have hx : s.exec (.captureSet v i val) = .ok (0, s.setVar v (if i = 0 then { x with cap0 := val } else { x with cap1 := some val })) := by
          unfold Heap.exec
          simp only [var_ok hv, res_bind_ok, if_pos hi]
        rw [hx]
        have hptr : (if i = 0 then { x with cap0 := val } else { x with cap1 := some val }).ptr = x.ptr := by split <;> rfl
        refine ⟨wf_setVar h hv hptr, fun ht => ht, ?_⟩
        show update _ _ _ = _
        unfold update
        rw [shown_ok hv, res_bind_ok]
        simp only [captureSet_small _ hi]
        simp only [unitResult, res_bind_ok]
        congr 2
        rw [views_set (s := s) (s' := s.setVar v _) (v := v) (fun _ => rfl) rfl]
        congr 1
        simp only [Option.map_some]
        congr 1
        split <;> rfl
      · cases hb : x.ptr with
        | none =>
          have hx : s.exec (.captureSet v i val) = .error .assertion := by
            unfold Heap.exec
            simp only [var_ok hv, res_bind_ok, if_neg hi, hb]
            rfl
          rw [hx]
          show update _ _ _ = _
          unfold update
          rw [shown_ok hv, res_bind_ok]
          unfold shows
          rw [hb]
          show (unitResult (RVal.captureSet ⟨x.cap0, x.cap1, none⟩ i val) >>= _) = _
          rw [captureSet_none _ _ hi]; rfl
        | some b =>
          have hx : s.exec (.captureSet v i val) = (s.unshare v >>= fun s => s.modify v (Caps.unit fun c => c.captureSet i val)) := by
            unfold Heap.exec
            simp only [var_ok hv, res_bind_ok, if_neg hi, hb, Option.isSome_some]
            rfl
          obtain ⟨s', b', e, hw', ht, hviews, hv', hexc⟩ := unshare_ok h hv hb
          rw [hx, e, res_bind_ok]
          show Agrees s _ (update (views s) v _)
          rw [← hviews]
          have := modify_ok hw' hv' rfl hexc (Caps.unit fun c => c.captureSet i val) (fun x => unitResult (x.captureSet i val)) (by
            intro a1 a2 c
            rw [captureSet_some _ _ _ hi]
            unfold Caps.unit unitResult
            simp only
            cases c.captureSet i val <;> rfl)
          unfold Agrees at this ⊢
          split
          · rename_i e he; rw [he] at this; exact this
          · rename_i r hr
            rw [hr] at this
            exact ⟨this.1, fun h => this.2.1 (ht h), this.2.2⟩
    · have hv' : ∀ x, s.vars[v]? ≠ some (some x) := fun x hx => hv ⟨x, hx⟩
      have : s.exec (.captureSet v i val) = .error .ub := by
        simp only [Heap.exec, var_err hv']; rfl
      rw [this]
      show update _ _ _ = _
      unfold update
      rw [shown_err hv']; rfl
  | pushZero v off =>
    exact change_ok h v _ (fun x => unitResult (x.pushZero off)) (by
      intro a1 a2 c
      unfold Caps.unit unitResult RVal.pushZero
      simp only
      cases c.pushZero off <;> rfl) (fun _ _ => rfl)
  | incr v off =>
    exact change_ok h v _ (fun x => x.incr off) (by
      intro a1 a2 c
      unfold RVal.incr
      simp only) (fun _ _ => rfl)
  | pop v =>
    exact change_ok h v _ (fun x => unitResult x.pop) (by
      intro a1 a2 c
      unfold Caps.unit unitResult RVal.pop
      simp only
      cases c.pop <;> rfl) (fun _ _ => rfl)

theorem init_wf : WF Heap.init ∧ Tight Heap.init := by
  refine ⟨⟨?_, ?_, ?_⟩, ?_⟩ <;> simp [Heap.init, Tight]

/-- What `read` gives -/
theorem read_views {s : Heap} (h : WF s) (v : Nat) : s.read v = shown (views s) v := by
  by_cases hv : ∃ x, s.vars[v]? = some (some x)
  · obtain ⟨x, hv⟩ := hv
    rw [shown_ok hv]
    unfold Heap.read shows
    rw [var_ok hv, res_bind_ok]
    cases hb : x.ptr with
    | none => rfl
    | some b =>
      obtain ⟨y, h1, h2, -, h4⟩ := ptr_body h hv hb
      simp only [body_ok h1 h2, res_bind_ok]
      show _ = Except.ok (RVal.mk _ _ (capsOf s b))
      rw [h4]
  · have hv' : ∀ x, s.vars[v]? ≠ some (some x) := fun x hx => hv ⟨x, hx⟩
    rw [shown_err hv']
    unfold Heap.read
    rw [var_err hv']; rfl

end Strpp.Rx
