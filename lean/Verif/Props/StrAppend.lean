import Verif.Spec.StrAppend
import Verif.Proof.StrAppend
set_option linter.unusedVariables false
set_option linter.unusedSimpArgs false
/-! C104: how far `+=` walks. `addEqWalk`, `repeatWalk` (Verif/Model/StrAppend.lean) count the characters that the loops of
the code look at; `WholeText`, `Counted`, `SharedVar` are in Verif/Spec/StrAppend.lean, `Alone` in Verif/Spec/StrSlice.lean. -/
namespace Strpp.SV

open Spec Arr

theorem WholeText.den {s : State} (h : Inv s) {v : Nat} {t : List UCS4} (hw : WholeText s v t) :
    ∃ x b, s.vars[v]? = some (some x) ∧ s.bodies[x.body]? = some b ∧ getStr s v = .ok ⟨b, x.off, x.num, x.mark⟩ ∧
      Den ⟨b, x.off, x.num, x.mark⟩ [] t [] ∧ x.mark.cn ≤ t.length ∧ x.off = 0 := by
  obtain ⟨σ, e, htx, ho, hn, hm⟩ := hw
  have e' := e
  unfold getStr at e'
  obtain ⟨x, hx, e'⟩ := hbind e'
  obtain ⟨b, hb, e'⟩ := hbind e'
  cases e'
  have hx := getVar_eq hx
  obtain ⟨b', pre, t', post, hb', hd, he⟩ := h.vars v x hx
  have hbb : b = b' := by
    rw [getBody_ok hb'] at hb
    cases hb; rfl
  subst hbb
  have o' := hd.off
  have n' := hd.num
  simp only at o' n' ho hn htx hm
  have hp : pre = [] := List.eq_nil_of_length_eq_zero (by omega)
  subst hp
  have e2 := den_text hd.body
  rw [htx] at e2
  have hl := congrArg List.length e2
  simp only [List.nil_append, List.length_append] at hl
  have hp2 : post = [] := List.eq_nil_of_length_eq_zero (by omega)
  subst hp2
  simp only [List.nil_append, List.append_nil] at e2
  subst e2
  exact ⟨x, b, hx, hb', e, hd, hm, ho⟩

theorem counted_iff {s : State} {v : Nat} {x : Var} {b : SBody} (hg : getStr s v = .ok ⟨b, x.off, x.num, x.mark⟩) :
    Counted s v ↔ b.nc ≠ 0 := by
  unfold Counted
  rw [hg]
  constructor
  · rintro ⟨σ, e, h⟩; cases e; exact h
  · exact fun h => ⟨_, rfl, h⟩

theorem Owned.alone {s : State} {v : Nat} {x : Var} {b : SBody} {pre t post : List UCS4} (h : Owned s v x b pre t post) :
    Alone s v pre t post :=
  ⟨x, b, h.var, h.body, h.rc, den_text h.den.body, h.den.off, h.den.num⟩

/-- what `C104_append` and `C104_repeat` begin with -/
theorem start {s : State} (h : Reached s) {v w : Nat} {t u : List UCS4} (ha : Alone s v [] t []) (hv : WholeText s v t) (hw : WholeText s w u)
    (hcw : Counted s w) {k : Nat} (hr : Roomy s k) :
    ∃ x b y c, Owned s v x b [] t [] ∧ getStr s v = .ok ⟨b, x.off, x.num, x.mark⟩ ∧ x.mark.cn ≤ t.length ∧ unshare s v = .ok s ∧
      s.vars[w]? = some (some y) ∧ s.bodies[y.body]? = some c ∧ Den ⟨c, y.off, y.num, y.mark⟩ [] u [] ∧
      Str.bytesCost ⟨c, y.off, y.num, y.mark⟩ = 0 := by
  have hi := h.inv.1
  obtain ⟨x, b, ho, hu⟩ := ha.owned hi hr
  obtain ⟨x', b', hx, hb, hg, hd, hm, -⟩ := hv.den hi
  have e1 := ho.var
  rw [hx] at e1; cases e1
  have e2 := ho.body
  rw [hb] at e2; cases e2
  obtain ⟨y, c, hy, hc, hg2, hd2, hm2, -⟩ := hw.den hi
  exact ⟨x, b, y, c, ho, hg, hm, hu, hy, hc, hd2, bytesCost_whole hd2 hm2 ((counted_iff hg2).mp hcw)⟩

/-- C104. `v.insert(pos, w)` for a `v` that shows the whole of a storage of its own: what C102 says of finding character
`pos` (0 if it is the first, or the characters have been counted and are one byte each). -/
theorem C104_insert {s : State} (h : Reached s) {v w : Nat} {t u : List UCS4} (hne : v ≠ w) (ha : Alone s v [] t [])
    (hv : WholeText s v t) (hw : WholeText s w u) (hcw : Counted s w) (pos : Nat) (hp : pos ≤ t.length) :
    ∃ σ, getStr s v = .ok σ ∧ insertWalk s v pos w =
      if pos = 0 ∨ σ.b.nc = (encodeAll t).length then 0 else (if σ.b.nc = 0 then t.length else 0) + walk t.length σ.mark.cn pos := by
  obtain ⟨x, b, y, c, ho, hg, hm, hu, hy, hc, hd, hz⟩ := start h ha hv hw hcw h.inv.2
  refine ⟨_, hg, ?_⟩
  rw [insert_walk h.inv.1 hne ho hu hy hc pos hp, hz, Nat.zero_add, nthCost_spec ho.den pos hp]
  have hn := ho.den.body.num
  simp only [List.nil_append, List.append_nil] at hn
  simp only [List.nil_append, List.append_nil, List.length_nil, Nat.zero_add]
  rw [hn, Nat.add_sub_cancel]

/-- C104. The addend may be any part `u` of a counted storage: its two ends are then found as C102 says, too. -/
theorem C104_insert_part {s : State} (h : Reached s) {v w : Nat} {t u : List UCS4} (hne : v ≠ w) (ha : Alone s v [] t [])
    (hv : WholeText s v t) (hw : view s w = some u) (hcw : Counted s w) (pos : Nat) (hp : pos ≤ t.length) :
    ∃ σ τ, getStr s v = .ok σ ∧ getStr s w = .ok τ ∧ insertWalk s v pos w =
      (if τ.off = 0 ∨ τ.b.nc = τ.b.arr.num - 1 then 0 else walk (decodeAll τ.b.arr.elems.dropLast).length τ.mark.cn τ.off) +
      (if τ.off + u.length = 0 ∨ τ.b.nc = τ.b.arr.num - 1 then 0
        else walk (decodeAll τ.b.arr.elems.dropLast).length τ.mark.cn (τ.off + u.length)) +
      if pos = 0 ∨ σ.b.nc = (encodeAll t).length then 0 else (if σ.b.nc = 0 then t.length else 0) + walk t.length σ.mark.cn pos := by
  have hi := h.inv.1
  obtain ⟨x, b, ho, hu⟩ := ha.owned hi h.inv.2
  have hg := getStr_ok ho.var ho.body
  obtain ⟨y, c, pre, post, hy, hc, hd, -⟩ := hi.txt hw
  have hg2 := getStr_ok hy hc
  have hcn := (counted_iff hg2).mp hcw
  refine ⟨_, _, hg, hg2, ?_⟩
  rw [insert_walk hi hne ho hu hy hc pos hp, bytesCost_counted hd hcn, nthCost_spec hd 0 (by omega), nthCost_spec hd u.length (Nat.le_refl _),
    nthCost_spec ho.den pos hp]
  have hn := ho.den.body.num
  have hoff := hd.off
  have htx := den_text hd.body
  simp only [List.nil_append, List.append_nil] at hn hoff htx
  simp only [List.nil_append, List.append_nil, List.length_nil, Nat.zero_add, Nat.add_zero]
  rw [hn, Nat.add_sub_cancel, hoff, htx, if_neg hcn, Nat.zero_add, Nat.zero_add]

/-- C104. So `v.prepend(w)` looks at none, counted or not: building up a string from its end is not quadratic. -/
theorem C104_prepend {s : State} (h : Reached s) {v w : Nat} {t u : List UCS4} (hne : v ≠ w) (ha : Alone s v [] t [])
    (hv : WholeText s v t) (hw : WholeText s w u) (hcw : Counted s w) : insertWalk s v 0 w = 0 := by
  obtain ⟨σ, -, e⟩ := C104_insert h hne ha hv hw hcw 0 (Nat.zero_le _)
  rw [e, if_pos (Or.inl rfl)]

/-- C104. `v += w` for a `v` that shows the whole of a storage of its own: no character is looked at if those of `v` have
been counted, and each of them if not; and afterwards they have not been. (`w`: any other whole, counted string.) -/
theorem C104_append (S : Type) {s : State} (h : Reached s) {v w : Nat} {t u : List UCS4} (hne : v ≠ w) (ha : Alone s v [] t [])
    (hv : WholeText s v t) (ht : t ≠ []) (hw : WholeText s w u) (hcw : Counted s w) (hr : Roomy s (encodeAll u).length) :
    (Counted s v → addEqWalk s v w = 0) ∧ (¬ Counted s v → addEqWalk s v w = t.length) ∧
    ∃ s', exec s (.addEq v w : Op S) = .ok s' ∧ Alone s' v [] (t ++ u) [] ∧ WholeText s' v (t ++ u) ∧ ¬ Counted s' v := by
  obtain ⟨x, b, y, c, ho, hg, hm, hu, hy, hc, hd, hz⟩ := start h ha hv hw hcw hr
  obtain ⟨hcost, s', x', b', hrun, i1, i2, i3, i4, i5, i6, i7, i8⟩ :=
    append_step h.inv.1 hne ho hm ht hu hy hc hd (k := 0) (by rw [Nat.zero_add]; exact hr)
  rw [hz, Nat.zero_add] at hcost
  have hg' := getStr_ok i3.var i3.body
  refine ⟨fun hcv => ?_, fun hcv => ?_, s', hrun, i3.alone, ⟨_, hg', ?_, ?_, ?_, i5⟩, ?_⟩
  · rw [hcost, if_neg ((counted_iff hg).mp hcv)]
  · rw [hcost, if_pos]
    rw [counted_iff hg] at hcv
    omega
  · have := den_text i3.den.body
    simpa using this
  · exact i3.den.off
  · exact i3.den.num
  · rw [counted_iff hg', i4]; simp

/-- C104. So `v += w` done `n` times looks at `n * |v| + (0 + 1 + ... + (n-1)) * |w|` characters if those of `v` have not been
counted: appending is quadratic even if every character is one byte. -/
theorem C104_repeat {s : State} (h : Reached s) {v w : Nat} {t u : List UCS4} (hne : v ≠ w) (ha : Alone s v [] t [])
    (hv : WholeText s v t) (ht : t ≠ []) (hcv : ¬ Counted s v) (hw : WholeText s w u) (hcw : Counted s w) (n : Nat)
    (hr : Roomy s (n * (encodeAll u).length)) :
    2 * repeatWalk v w n s = 2 * (n * t.length) + n * (n - 1) * u.length := by
  obtain ⟨x, b, y, c, ho, hg, hm, hu, hy, hc, hd, hz⟩ := start h ha hv hw hcw hr
  rw [counted_iff hg] at hcv
  rw [repeat_walk hne hd n s x b t h.inv.1 ho hm ht hu hy hc hr (by omega), hz]
  simp only [Nat.zero_add]
  exact sum_linear _ _ n

/-- C104. If they have been counted, only the first time is free. -/
theorem C104_repeat_counted {s : State} (h : Reached s) {v w : Nat} {t u : List UCS4} (hne : v ≠ w) (ha : Alone s v [] t [])
    (hv : WholeText s v t) (ht : t ≠ []) (hcv : Counted s v) (hw : WholeText s w u) (hcw : Counted s w) (n : Nat)
    (hr : Roomy s ((n + 1) * (encodeAll u).length)) :
    2 * repeatWalk v w (n + 1) s = 2 * (n * (t.length + u.length)) + n * (n - 1) * u.length := by
  have hr' : Roomy s (n * (encodeAll u).length + (encodeAll u).length) := by rw [← Nat.succ_mul]; exact hr
  obtain ⟨x, b, y, c, ho, hg, hm, hu, hy, hc, hd, hz⟩ := start h ha hv hw hcw hr
  obtain ⟨hcost, s', x', b', hrun, i1, i2, i3, i4, i5, i6, i7, i8⟩ := append_step h.inv.1 hne ho hm ht hu hy hc hd hr'
  rw [hz, Nat.zero_add, if_neg ((counted_iff hg).mp hcv)] at hcost
  rw [repeatWalk, hcost, hrun, Nat.zero_add]
  simp only
  rw [repeat_walk hne hd n s' x' b' (t ++ u) i1 i3 i5 (by simp [ht]) i6 i7 i8 i2 i4, hz]
  simp only [Nat.zero_add]
  rw [sum_linear, List.length_append]

/-- C104. And to a string whose storage is shared, even counted, `+=` looks at all characters once: they are copied and
the copy is counted. (Unless `w` is the part of the same storage that follows `v`.) -/
theorem C104_shared {s : State} (h : Reached s) {v w : Nat} {t u : List UCS4} (hne : v ≠ w) (hs : SharedVar s v)
    (hv : WholeText s v t) (ht : t ≠ []) (hcv : Counted s v) (hw : WholeText s w u) (hcw : Counted s w) :
    addEqWalk s v w = t.length := by
  have hi := h.inv.1
  obtain ⟨x, b, hx, hb, hg, hd, hm, -⟩ := hv.den hi
  obtain ⟨x', hx', hrc⟩ := hs
  rw [hx] at hx'; cases hx'
  obtain ⟨y, c, hy, hc, hg2, hd2, hm2, hyo⟩ := hw.den hi
  have hxn := hd.num
  simp only at hxn
  rw [append_shared hi hne hx hb hd hrc hm ht ((counted_iff hg).mp hcv) hy hc hd2 ?_ h.inv.2,
    bytesCost_whole hd2 hm2 ((counted_iff hg2).mp hcw), Nat.zero_add]
  rintro ⟨-, e⟩
  exact ht (List.eq_nil_of_length_eq_zero (by omega))

/-- C104. `v * n` looks at `(1 + 2 + ... + (n-1)) * |v|` characters: the room asked for in advance is not used (the result begins
as the empty string, which has none), the storage is shared, copied and counted, and counted again for each `+=`. -/
theorem C104_times {s : State} (h : Reached s) {v : Nat} {t : List UCS4} (hv : WholeText s v t) (ht : t ≠ []) (hcv : Counted s v)
    (hb : ¬ Borrowed s v) (n : Int) (hr : Roomy s (n.toNat * (encodeAll t).length)) :
    2 * timesWalk s v n = n.toNat * (n.toNat - 1) * t.length := by
  have hi := h.inv.1
  obtain ⟨x, b, hx, hbd, hg, hd, hm, -⟩ := hv.den hi
  have hst : b.isStatic = false := by
    cases hs : b.isStatic with
    | false => rfl
    | true => exact absurd ⟨_, hg, hs⟩ hb
  have e : timesWalk s v n = timesWalk s v (n.toNat : Int) := by
    unfold timesWalk
    rw [Int.toNat_natCast]
  rw [e]
  exact times_walk hi hx hbd hd hm ht ((counted_iff hg).mp hcv) hst n.toNat hr

/-- Non-vacuity of C104_append and C104_repeat_counted: "x" of `sampleState`, and "aéc" to append. -/
example : Alone sampleState 3 [] [0x78#32] [] ∧ WholeText sampleState 3 [0x78#32] ∧ Counted sampleState 3 ∧
    WholeText sampleState 0 [0x61#32, 0xE9#32, 0x63#32] ∧ Counted sampleState 0 :=
  ⟨⟨v3, b2, rfl, rfl, by decide +kernel, by decide +kernel, rfl, rfl⟩, ⟨_, rfl, by decide +kernel, rfl, rfl, by decide +kernel⟩,
    ⟨_, rfl, by decide +kernel⟩, ⟨_, rfl, by decide +kernel, rfl, rfl, by decide +kernel⟩, ⟨_, rfl, by decide +kernel⟩⟩

/-- `sampleState` after `3 += 0`: "xaéc", not counted. -/
def b2x : SBody := ⟨⟨[0x78#8, 0x61#8, 0xC3#8, 0xA9#8, 0x63#8, 0#8, 0#8, 0#8], 6, 8, false⟩, 0⟩
def appState : State := ⟨[nullBody, b1, b2x], [some v1, some v1, some v2, some ⟨2, 0, 4, ⟨0, 0⟩⟩]⟩

theorem app_reached : Reached appState := by
  refine ⟨Unit, noMeaning, sample ++ [.addEq 3 0], ?_, by decide +kernel⟩
  have app : ∀ (ops more : List (Op Unit)) (s s' : State), SafeRun noMeaning s ops → execAll s ops = .ok s' → SafeRun noMeaning s' more →
      SafeRun noMeaning s (ops ++ more) := by
    intro ops more
    induction ops with
    | nil => intro s s' _ h1 h2; cases h1; exact h2
    | cons op ops ih =>
      intro s s' h0 h1 h2
      unfold execAll at h1
      obtain ⟨s1, g1, g2⟩ := hbind h1
      exact ⟨h0.1, fun s2 e => by rw [g1] at e; cases e; exact ih s1 s' (h0.2 s1 g1) g2 h2⟩
  refine app _ _ _ _ sample_safe sample_run ?_
  refine SafeRun.cons (s1 := appState) (by decide +kernel) ?_ trivial
  refine ⟨live (t := [0x78#32]) (by decide +kernel), live (t := [0x61#32, 0xE9#32, 0x63#32]) (by decide +kernel), by decide, ?_, ?_⟩
  · intro x hx
    left
    simp only [sampleState] at hx
    cases hx
    rfl
  · rw [text_eq (show view sampleState 0 = some [0x61#32, 0xE9#32, 0x63#32] by decide +kernel)]
    exact sample_roomy.mono (by decide +kernel)

/-- Non-vacuity of C104_repeat: "xaéc" of `appState`, to which "aéc" is appended once more, and once more: 4 + 7. -/
example : repeatWalk 3 0 2 appState = 11 := by
  have := C104_repeat app_reached (v := 3) (w := 0) (by decide) (t := [0x78#32, 0x61#32, 0xE9#32, 0x63#32])
    ⟨_, b2x, rfl, rfl, by decide +kernel, by decide +kernel, rfl, rfl⟩
    ⟨_, rfl, by decide +kernel, rfl, rfl, by decide +kernel⟩ (by decide)
    (by rintro ⟨σ, e, h⟩; cases e; exact h rfl) (u := [0x61#32, 0xE9#32, 0x63#32])
    ⟨_, rfl, by decide +kernel, rfl, rfl, by decide +kernel⟩ ⟨_, rfl, by decide +kernel⟩ 2
    (by
      have e : (encodeAll [0x61#32, 0xE9#32, 0x63#32]).length = 4 := by decide +kernel
      intro b hb
      simp only [appState, List.mem_cons, List.not_mem_nil, or_false] at hb
      rw [e]
      rcases hb with rfl | rfl | rfl <;> decide)
  simp only [List.length_cons, List.length_nil] at this
  omega

/-- C104_insert: "aéc" into "xaéc", not counted, at 1 and at its front. -/
example : insertWalk appState 3 1 0 = 5 ∧ insertWalk appState 3 0 0 = 0 := by decide +kernel

/-- C104_shared: "aéc" of `sampleState`, to which "x" is appended. -/
example : addEqWalk sampleState 0 3 = 3 :=
  C104_shared sample_reached (by decide) ⟨v1, rfl, by decide +kernel⟩ (t := [0x61#32, 0xE9#32, 0x63#32])
    ⟨_, rfl, by decide +kernel, rfl, rfl, by decide +kernel⟩ (by decide) ⟨_, rfl, by decide +kernel⟩ (u := [0x78#32])
    ⟨_, rfl, by decide +kernel, rfl, rfl, by decide +kernel⟩ ⟨_, rfl, by decide +kernel⟩

/-- C104_insert_part: the part "éc" of "aéc" put before "x": one character to find its start, none to find its end. -/
example : insertWalk sampleState 3 0 2 = 1 := by
  obtain ⟨σ, τ, h1, h2, h⟩ := C104_insert_part sample_reached (v := 3) (w := 2) (t := [0x78#32]) (u := [0xE9#32, 0x63#32]) (by decide)
    ⟨v3, b2, rfl, rfl, by decide +kernel, by decide +kernel, rfl, rfl⟩ ⟨_, rfl, by decide +kernel, rfl, rfl, by decide +kernel⟩
    (by decide +kernel) ⟨_, rfl, by decide +kernel⟩ 0 (Nat.zero_le _)
  cases h1
  cases h2
  rw [h]
  decide +kernel

/-- C104_times: "aéc" of `sampleState` times 4 looks at 18 characters. -/
example : timesWalk sampleState 0 4 = 18 := by
  have := C104_times sample_reached (v := 0) (t := [0x61#32, 0xE9#32, 0x63#32])
    ⟨_, rfl, by decide +kernel, rfl, rfl, by decide +kernel⟩ (by decide) ⟨_, rfl, by decide +kernel⟩
    (by rintro ⟨σ, e, h⟩; cases e; revert h; decide) 4
    (sample_roomy.mono (by decide +kernel))
  have e : ((4 : Int).toNat * ((4 : Int).toNat - 1) * [0x61#32, 0xE9#32, 0x63#32].length) = 36 := by decide
  omega

/-- the characters that `n` times `0 += 1` looks at after a history -/
def walkAfter (ops : List (Op Unit)) (n : Nat) : Res Nat := do
  let s ← execAll State.init ops
  .ok (repeatWalk 0 1 n s)

/-- "abc" four times += "x": 0 + 4 + 5 + 6; a copy of "abc" once: 3. -/
example : walkAfter [.ofC [0x61#8, 0x62#8, 0x63#8, 0#8], .ofC [0x78#8, 0#8]] 4 = .ok 15 ∧
    walkAfter [.ofC [0x61#8, 0x62#8, 0x63#8, 0#8], .ofC [0x78#8, 0#8], .copy 0] 1 = .ok 3 := by decide +kernel

/-- C104. Before a shared string, or a part of one, is changed its start is looked for in the shared storage, as C102 says;
a string alone on storage of its own needs nothing of the kind. -/
theorem C104_detach {s : State} (h : Reached s) {v : Nat} {t : List UCS4} (hv : view s v = some t) (hcv : Counted s v) :
    ∃ σ, getStr s v = .ok σ ∧
      (SharedVar s v → (if σ.off = 0 ∨ σ.b.nc = σ.b.arr.num - 1 then 0
        else walk (decodeAll σ.b.arr.elems.dropLast).length σ.mark.cn σ.off) ≤ unshareWalk s v) ∧
      (¬ SharedVar s v → unshareWalk s v = 0) := by
  have hi := h.inv.1
  obtain ⟨x, b, pre, post, hx, hb, hd, -⟩ := hi.txt hv
  have hg := getStr_ok hx hb
  have hcn := (counted_iff hg).mp hcv
  have hoff := hd.off
  have htx := den_text hd.body
  obtain ⟨m, e1, e2⟩ := mustCopyStatic_ok hd
  obtain ⟨b1, f1, f2⟩ := hd.body.count
  have hsame : b1 = b := by
    have f1' := f1
    unfold SBody.count at f1'
    rw [if_neg (by simp only [Bool.and_eq_true, beq_iff_eq]; intro hh; exact hcn hh.1)] at f1'
    cases f1'
    rfl
  subst hsame
  have hu : unshareWalk s v = if m || decide (refCount s x.body > 1) then Str.bothCost ⟨b1, x.off, x.num, x.mark⟩ 0 x.num else 0 := by
    unfold unshareWalk
    rw [getVar_ok hx, hg]
    simp only at f1 ⊢
    rw [e1, f1]
    simp only
    have hcc : b1.countCost = 0 := by
      unfold SBody.countCost
      rw [if_neg (by simp only [Bool.and_eq_true, beq_iff_eq]; intro hh; exact hcn hh.1)]
    simp only [hcc, ite_self, Nat.zero_add]
  refine ⟨_, hg, fun hs => ?_, fun hs => ?_⟩
  · obtain ⟨x', hx', hrc⟩ := hs
    rw [hx] at hx'; cases hx'
    rw [if_pos (by simp [hrc])] at hu
    rw [hu]
    refine Nat.le_trans ?_ (Nat.le_add_right _ _)
    rw [nthCost_spec hd 0 (by omega)]
    simp only at hoff ⊢
    rw [htx, if_neg hcn, Nat.zero_add, Nat.add_zero, hoff]
    exact Nat.le_refl _
  · have hnr : ¬ refCount s x.body > 1 := fun hh => hs ⟨x, hx, hh⟩
    have hm : m = false := by
      cases hm : m with
      | false => rfl
      | true => exact absurd (static_shared hx hb (e2 hm)) hnr
    rw [if_neg (by simp [hm]; omega)] at hu
    exact hu

/-- C104_detach: "éc", a part of the shared "aéc". -/
example : SharedVar sampleState 2 ∧ Counted sampleState 2 ∧ unshareWalk sampleState 2 = 1 ∧ ¬ SharedVar sampleState 3 :=
  ⟨⟨v2, rfl, by decide +kernel⟩, ⟨_, rfl, by decide +kernel⟩, by decide +kernel, by
    rintro ⟨x, hx, hr⟩
    cases hx
    revert hr
    decide +kernel⟩

end Strpp.SV
