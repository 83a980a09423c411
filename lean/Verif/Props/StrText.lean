import Verif.Model.StrText
import Verif.Spec.StrAppend
import Verif.Proof.StrText
import Verif.Props.StrVal
set_option linter.unusedVariables false
set_option linter.unusedSimpArgs false
/-! C105: string literals as operands, and as elements of a StringArray. -/
namespace Strpp.SV

open Spec Arr

/-- `mem` begins with the C string of the text `cs`: its UTF-8 and a NUL, which `cs` does not contain -/
def IsC (mem : List Byte) (cs : List UCS4) : Prop :=
  ∃ rest, mem = encodeAll cs ++ 0#8 :: rest ∧ (∀ c ∈ cs, ¬ Reserved c) ∧ ∀ c ∈ cs, c ≠ 0#32

theorem made_same {s s' : State} (h : Inv s) {k : Nat} {t : List UCS4} {P T : Nat → Prop} (hm : Made s s' k t P) (hf : Frame s s' T)
    {v : Nat} (hv : v < s.vars.length) (hT : ¬ T v) : view s' v = view s v := (hf.same v hv hT).view h.ids hv

/-- C105. `"text" + w` is a new string: the text, followed by that of `w`; nothing else changes. -/
theorem C105_plus {s : State} (h : Reached s) {w : Nat} {u cs : List UCS4} (hw : view s w = some u) {mem : List Byte} (hm : IsC mem cs)
    (hr : Roomy s (encodeAll u).length) (hsz : (encodeAll cs).length + 1 + (encodeAll u).length ≤ 1073741824) :
    ∃ s', textPlus s mem w = .ok s' ∧ view s' (s.vars.length + 2) = some (cs ++ u) ∧
      ∀ v, v ≠ s.vars.length + 2 → view s' v = view s v := by
  obtain ⟨rest, rfl, hg, hz⟩ := hm
  have hi := h.inv.1
  have hwt := hi.txt hw
  have hwl := hwt.lt
  obtain ⟨s1, e1, m1⟩ := copy_made hi hwt hr
  have f1 := frame_exec hi.ids hi.pos (.copy w : Op Unit) e1
  have l1 := m1.len
  obtain ⟨s2, e2, m2⟩ := newC_made m1.inv (k := 0 + (encodeAll u).length) (by rw [Nat.zero_add]; exact m1.roomy) (fun _ => True) cs rest hg hz (by omega)
  have f2 := frame_exec m1.inv.ids m1.inv.pos (.ofC (encodeAll cs ++ 0#8 :: rest) : Op Unit) e2
  have l2 := m2.len
  rw [l1] at l2
  have t2 := m2.txt
  rw [l1] at t2
  have u2 : Txt s2 s.vars.length u := m2.inv.txt (by
    rw [made_same m1.inv m2 f2 (by omega) (fun hh => hh)]; exact m1.txt.view)
  obtain ⟨s3, e3, m3⟩ := plus_made m2.inv t2 u2 (k := 0) m2.roomy
  have f3 := frame_exec m2.inv.ids m2.inv.pos (.plus (s.vars.length + 1) s.vars.length : Op Unit) e3
  have l3 := m3.len
  rw [l2] at l3
  have t3 : Txt s3 (s.vars.length + 1) cs := m3.inv.txt (by
    rw [made_same m2.inv m3 f3 (by omega) (fun hh => hh)]; exact t2.view)
  obtain ⟨s4, e4, i4, r4, l4, n4⟩ := destroy_ok m3.inv t3 m3.roomy
  have f4 := frame_exec m3.inv.ids m3.inv.pos (.destroy (s.vars.length + 1) : Op Unit) e4
  rw [l3] at l4
  have t4 : Txt s4 s.vars.length u := i4.txt (by
    rw [(f4.same s.vars.length (by omega) (fun hh : _ = _ => by omega)).view m3.inv.ids (by omega),
      made_same m2.inv m3 f3 (by omega) (fun hh => hh)]
    exact u2.view)
  obtain ⟨s5, e5, i5, r5, l5, n5⟩ := destroy_ok i4 t4 r4
  have f5 := frame_exec i4.ids i4.pos (.destroy s.vars.length : Op Unit) e5
  rw [l4] at l5
  refine ⟨s5, ?_, ?_, fun v hv => ?_⟩
  · unfold textPlus
    simp only
    rw [e1, res_bind_ok, e2, res_bind_ok, e3, res_bind_ok, e4, res_bind_ok, e5]
  · have t := m3.txt.view
    rw [l2] at t
    rw [(f5.same (s.vars.length + 2) (by omega) (fun hh : _ = _ => by omega)).view i4.ids (by omega),
      (f4.same (s.vars.length + 2) (by omega) (fun hh : _ = _ => by omega)).view m3.inv.ids (by omega)]
    exact t
  · rcases Nat.lt_or_ge v s.vars.length with hl | hl
    · rw [(f5.same v (by omega) (fun hh : _ = _ => by omega)).view i4.ids (by omega),
        (f4.same v (by omega) (fun hh : _ = _ => by omega)).view m3.inv.ids (by omega),
        made_same m2.inv m3 f3 (by omega) (fun hh => hh), made_same m1.inv m2 f2 (by omega) (fun hh => hh),
        made_same hi m1 f1 hl (fun hh => hh)]
    · rw [view_out (s := s) hl]
      rcases Nat.lt_or_ge v (s.vars.length + 1) with h1 | h1
      · have : v = s.vars.length := by omega
        rw [this]; exact n5
      · rcases Nat.lt_or_ge v (s.vars.length + 2) with h2 | h2
        · have : v = s.vars.length + 1 := by omega
          rw [this, (f5.same (s.vars.length + 1) (by omega) (fun hh : _ = _ => by omega)).view i4.ids (by omega)]
          exact n4
        · exact view_out (by omega)

/-- C105. `v + c` is a new string: the text of `v`, followed by the character; nothing else changes. The result has memory
of its own: the character was borrowed from the stack of the call, and the result borrows nothing. -/
theorem C105_plus_char {s : State} (h : Reached s) {v : Nat} {t : List UCS4} (hv : view s v = some t) {c : UCS4} (hg : ¬ Reserved c)
    (hr : Roomy s 12) :
    ∃ s', plusChar s v c = .ok s' ∧ view s' (s.vars.length + 1) = some (t ++ [c]) ∧
      (∀ u, u ≠ s.vars.length + 1 → view s' u = view s u) ∧ ¬ Borrowed s' (s.vars.length + 1) := by
  have hi := h.inv.1
  have hvt := hi.txt hv
  have hvl := hvt.lt
  have hput : (utf8Put c).length ≤ 6 := by rw [(C02_utf8_len c).1]; exact (C02_utf8_len c).2.2
  have hpp := put_len_pos c
  have hsz := hvt.size hr
  have e6 : (encodeAll [c]).length = (utf8Put c).length := by simp [encodeAll]
  have e7 : utf8Put c ++ [0#8] = encodeAll [c] ++ [0#8] := by simp [encodeAll]
  obtain ⟨s1, e1, m1⟩ := newStatic_made hi (k := 0 + (encodeAll [c]).length) (hr.mono (by omega)) (fun _ => False) [c] (by simpa using hg) (by omega)
  have f1 := frame_newStatic hi.ids _ e1
  have l1 := m1.len
  obtain ⟨y, cb, hy, hyb, hcb, hst, hbl⟩ := newStatic_var (by simp) e1
  have t1 : Txt s1 v t := m1.inv.txt (by rw [made_same hi m1 f1 hvl (fun hh => hh)]; exact hv)
  obtain ⟨s2, e2, m2⟩ := plus_made m1.inv t1 m1.txt (k := 0) m1.roomy
  have f2 := frame_exec m1.inv.ids m1.inv.pos (.plus v s.vars.length : Op Unit) e2
  have l2 := m2.len
  rw [l1] at l2
  have u2 : Txt s2 s.vars.length [c] := m2.inv.txt (by
    rw [made_same m1.inv m2 f2 (by omega) (fun hh => hh)]; exact m1.txt.view)
  obtain ⟨s3, e3, i3, r3, l3, n3⟩ := destroy_ok m2.inv u2 m2.roomy
  have f3 := frame_exec m2.inv.ids m2.inv.pos (.destroy s.vars.length : Op Unit) e3
  rw [l2] at l3
  have tr := m2.txt.view
  rw [l1] at tr
  have hown : ∃ x b, s2.vars[s.vars.length + 1]? = some (some x) ∧ s2.bodies[x.body]? = some b ∧ b.arr.static = false := by
    obtain ⟨x, b, pre, post, hx, hb, hd, he⟩ := t1
    have hxb : x.body ≠ y.body := by
      obtain ⟨x0, b0, -, -, hx0, -⟩ := hvt
      obtain ⟨x1, a1, a2, -⟩ := (f1.same v hvl (fun hh => hh)).2 x0 hx0
      rw [hx] at a1
      cases a1
      have := hi.ids v x0 hx0
      omega
    obtain ⟨y', c2, pre2, post2, hy2, hc2, hd2, -⟩ := m1.txt
    rw [hy] at hy2
    cases hy2
    unfold plus at e2
    rw [getVar_ok hx, res_bind_ok, getVar_ok hy, res_bind_ok, if_neg (by
      intro hh
      simp only [Bool.and_eq_true, beq_iff_eq] at hh
      exact hxb hh.1), getStr_ok hx hb, res_bind_ok, getStr_ok hy hc2, res_bind_ok, hd.nthC 0 (by omega), res_bind_ok] at e2
    simp only [deref, res_bind_ok] at e2
    rw [hd.numBytes, res_bind_ok, hd2.numBytes, res_bind_ok, bpos_mid pre t post 0 (by omega), bpos_zero, Nat.add_zero] at e2
    obtain ⟨slack, hm⟩ := hd.memAt
    obtain ⟨z, rest, hzr⟩ : ∃ z rest, encodeAll post ++ ([0#8] ++ slack) = z :: rest := by
      cases h' : encodeAll post ++ ([0#8] ++ slack) with
      | nil => simp at h'
      | cons z rest => exact ⟨z, rest, rfl⟩
    rw [hzr] at hm
    obtain ⟨s4, d1, d2⟩ := newData_made m1.inv m1.roomy (fun _ => False) b.arr.mem (encodeAll pre).length
      ((encodeAll t).length + (encodeAll [c]).length) (encodeAll pre) t z rest hm rfl hd.good (by omega) (by omega)
    have b4 := newData_body d1
    have g4 := frame_newData m1.inv.ids m1.inv.pos _ _ _ _ d1
    rw [d1, res_bind_ok] at e2
    obtain ⟨y4, q1, q2, -, -, q5⟩ := (g4.same s.vars.length (by omega) (fun hh => hh)).2 y hy
    obtain ⟨c4, q6, q7⟩ := q5 cb hcb
    have hp := hi.pos
    have := addEq_own d2.inv d2.txt d2.roomy q1 (by rw [q2]; exact q6) (by
      unfold SBody.isStatic at hst ⊢
      rw [q7]; exact hst) (fun x4 hx4 => by
      rcases b4 x4 hx4 with h4 | h4 <;> rw [h4, q2, hyb] <;> omega) e2
    rw [l1] at this
    exact this
  refine ⟨s3, ?_, ?_, fun u hu => ?_, ?_⟩
  · unfold plusChar
    simp only
    rw [e7, e1, res_bind_ok, e2, res_bind_ok, e3]
  · rw [(f3.same (s.vars.length + 1) (by omega) (fun hh : _ = _ => by omega)).view m2.inv.ids (by omega)]
    exact tr
  · rcases Nat.lt_or_ge u s.vars.length with hl | hl
    · rw [(f3.same u (by omega) (fun hh : _ = _ => by omega)).view m2.inv.ids (by omega), made_same m1.inv m2 f2 (by omega) (fun hh => hh),
        made_same hi m1 f1 hl (fun hh => hh)]
    · rw [view_out (s := s) hl]
      rcases Nat.lt_or_ge u (s.vars.length + 1) with h1 | h1
      · have : u = s.vars.length := by omega
        rw [this]; exact n3
      · exact view_out (by omega)
  · rintro ⟨σ, hσ, hs⟩
    obtain ⟨x, b, hx, hb, hns⟩ := hown
    unfold destroy at e3
    obtain ⟨_, -, e3⟩ := hbind e3
    cases e3
    have hx' : (s2.vars.set s.vars.length none)[s.vars.length + 1]? = some (some x) := by
      rw [List.getElem?_set_ne (by omega)]; exact hx
    rw [getStr_ok (s := { s2 with vars := s2.vars.set s.vars.length none }) hx' hb] at hσ
    cases hσ
    obtain ⟨x1, b1, pre, post, hx1, hb1, hd1, -⟩ := m2.txt
    rw [l1, hx] at hx1
    cases hx1
    rw [hb] at hb1
    cases hb1
    rw [isStatic_iff hd1.body, hns] at hs
    cases hs

theorem ofTexts_ok : ∀ (mems : List (List Byte)) (css : List (List UCS4)) (s : State) (k : Nat), Inv s → Roomy s k → mems.length = css.length →
    (∀ p ∈ mems.zip css, IsC p.1 p.2 ∧ (encodeAll p.2).length + 1 + k ≤ 1073741824) →
    ∃ s', ofTexts s mems = .ok s' ∧ Inv s' ∧ Roomy s' k ∧ s'.vars.length = s.vars.length + mems.length ∧
      (∀ (i : Nat), i < css.length → view s' (s.vars.length + i) = css[i]?) ∧ ∀ v, v < s.vars.length → view s' v = view s v := by
  intro mems
  induction mems with
  | nil =>
    intro css s k hi hr hl _
    refine ⟨s, rfl, hi, hr, rfl, fun i hi => ?_, fun v _ => rfl⟩
    simp only [List.length_nil] at hl
    omega
  | cons mem mems ih =>
    intro css s k hi hr hl hp
    match css, hl, hp with
    | cs :: css, hl, hp =>
      obtain ⟨⟨rest, hmem, hg, hz⟩, hsz⟩ := hp (mem, cs) (List.mem_cons_self ..)
      simp only at hmem hg hz hsz
      subst hmem
      obtain ⟨s1, e1, m1⟩ := newC_made hi hr (fun _ => True) cs rest hg hz hsz
      have f1 := frame_exec hi.ids hi.pos (.ofC (encodeAll cs ++ 0#8 :: rest) : Op Unit) e1
      have l1 := m1.len
      obtain ⟨s2, e2, i2, r2, l2, v2, o2⟩ := ih css s1 k m1.inv m1.roomy (by simpa using hl)
        (fun p hpm => hp p (List.mem_cons_of_mem _ hpm))
      refine ⟨s2, ?_, i2, r2, by rw [l2, l1]; simp only [List.length_cons]; omega, fun i hi' => ?_, fun v hv => ?_⟩
      · rw [ofTexts, e1, res_bind_ok, e2]
      · cases i with
        | zero =>
          rw [Nat.add_zero, o2 _ (by omega), m1.txt.view]
          rfl
        | succ i =>
          have := v2 i (by simpa using hi')
          rw [l1] at this
          rw [show s.vars.length + (i + 1) = s.vars.length + 1 + i by omega, this]
          rfl
      · rw [o2 v (by omega), made_same hi m1 f1 hv (fun hh => hh)]

/-- C105. A StringArray made of C strings has as many elements, each showing the text of the C string at its place; nothing
else changes. -/
theorem C105_elements {s : State} (h : Reached s) (mems : List (List Byte)) (css : List (List UCS4)) (hl : mems.length = css.length)
    (hm : ∀ p ∈ mems.zip css, IsC p.1 p.2 ∧ (encodeAll p.2).length + 1 ≤ 1073741824) :
    ∃ s', ofTexts s mems = .ok s' ∧ s'.vars.length = s.vars.length + mems.length ∧
      (∀ (i : Nat), i < css.length → view s' (s.vars.length + i) = css[i]?) ∧ ∀ v, v < s.vars.length → view s' v = view s v := by
  obtain ⟨s', e, -, -, l, v, o⟩ := ofTexts_ok mems css s 0 h.inv.1 h.inv.2 hl hm
  exact ⟨s', e, l, v, o⟩

/-- C105. And joining it with `j` gives the texts with that of `j` between them. -/
theorem C105_join {s : State} (h : Reached s) {j : Nat} {d : List UCS4} (hj : view s j = some d) (mems : List (List Byte))
    (css : List (List UCS4)) (hl : mems.length = css.length)
    (hm : ∀ p ∈ mems.zip css, IsC p.1 p.2 ∧ (encodeAll p.2).length + 1 + joinCost d (css.drop 1) ≤ 1073741824)
    (hr : Roomy s (joinCost d (css.drop 1))) :
    ∃ s', joinTexts s j mems = .ok s' ∧
      view s' (s.vars.length + mems.length + if mems = [] then 0 else 1) = some (joined d css) ∧
      ∀ u, u < s.vars.length → view s' u = view s u := by
  obtain ⟨s1, e, i1, r1, l, v, o⟩ := ofTexts_ok mems css s _ h.inv.1 hr hl hm
  have hjl := (h.inv.1.txt hj).lt
  have hj1 : view s1 j = some d := by rw [o j hjl]; exact hj
  have hmap : (List.range' s.vars.length mems.length).map (text (view s1)) = css := by
    apply List.ext_getElem
    · simp [hl]
    · intro i h1 h2
      simp only [List.getElem_map, List.getElem_range', Nat.one_mul]
      rw [text_eq (t := css[i]) (by rw [v i h2, List.getElem?_eq_getElem h2])]
  have hlive : ∀ w ∈ List.range' s.vars.length mems.length, view s1 w ≠ none := by
    intro w hw
    rw [List.mem_range'_1] at hw
    have := v (w - s.vars.length) (by omega)
    rw [show s.vars.length + (w - s.vars.length) = w by omega] at this
    rw [this, List.getElem?_eq_getElem (by omega)]
    nofun
  obtain ⟨s2, e2, -, -, -, v2⟩ := refine_step (fun _ st _ => (st, [], 0) : Meaning Unit) i1 (r1.mono (Nat.zero_le _))
    (.join j (List.range' s.vars.length mems.length) : Op Unit)
    ⟨live hj1, hlive, by rw [text_eq hj1, hmap]; exact r1⟩
  have hplace : (effect (fun _ st _ => (st, [], 0) : Meaning Unit) (view s1) s1.vars.length
      (.join j (List.range' s.vars.length mems.length) : Op Unit)) =
      (s.vars.length + mems.length + (if mems = [] then 0 else 1), some (joined d css)) := by
    match mems, css, hl, hmap, l with
    | [], [], _, _, l => simp [effect, l, joined]
    | m :: ms, c :: cs, _, hmap, l =>
      rw [← hmap, l]
      rw [List.length_cons, List.range'_succ]
      show (_, some (joined (text (view s1) j) _)) = _
      rw [text_eq hj1, if_neg (by simp)]
  rw [hplace] at v2
  refine ⟨s2, ?_, ?_, fun u hu => ?_⟩
  · unfold joinTexts
    simp only
    rw [e, res_bind_ok]
    exact e2
  · rw [v2, if_pos rfl]
  · rw [v2, if_neg (by simp only; omega), o u hu]

/-- the bytes that variable `v` shows after a composed call on `sampleState` -/
def shownIn (r : Res State) (v : Nat) : Res (List Byte) := do
  let s ← r
  let σ ← getStr s v
  σ.bytes

/-- `"q" + "éc"`, and "q", "aé" joined with "x". -/
example : shownIn (textPlus sampleState [0x71#8, 0#8] 2) 6 = .ok [0x71#8, 0xC3#8, 0xA9#8, 0x63#8] ∧
    shownIn (joinTexts sampleState 3 [[0x71#8, 0#8], [0x61#8, 0xC3#8, 0xA9#8, 0#8]]) 7 = .ok [0x71#8, 0x78#8, 0x61#8, 0xC3#8, 0xA9#8] := by
  decide +kernel

theorem q_isC : IsC [0x71#8, 0#8] [0x71#32] := ⟨[], by decide +kernel, small_good _ (by simp), by simp⟩

/-- Non-vacuity of C105_plus and C105_join. -/
example : ∃ s', textPlus sampleState [0x71#8, 0#8] 2 = .ok s' ∧ view s' 6 = some [0x71#32, 0xE9#32, 0x63#32] ∧
    ∀ v, v ≠ 6 → view s' v = view sampleState v :=
  C105_plus sample_reached (u := [0xE9#32, 0x63#32]) (by decide +kernel) q_isC (sample_roomy.mono (by decide +kernel)) (by decide +kernel)

example : ∃ s', joinTexts sampleState 3 [[0x71#8, 0#8], [0x71#8, 0#8]] = .ok s' ∧ view s' 7 = some [0x71#32, 0x78#32, 0x71#32] ∧
    ∀ u, u < 4 → view s' u = view sampleState u :=
  C105_join sample_reached (d := [0x78#32]) (by decide +kernel) _ [[0x71#32], [0x71#32]] rfl (by
    intro p hp
    simp only [List.zip_cons_cons, List.zip_nil_right, List.mem_cons, List.not_mem_nil, or_false, or_self] at hp
    subst hp
    exact ⟨q_isC, by decide +kernel⟩) (sample_roomy.mono (by decide +kernel))

/-- C105_plus_char: "éc", a part of a shared body, and "", to which "é" is appended. -/
example : ∃ s', plusChar sampleState 2 0xE9#32 = .ok s' ∧ view s' 5 = some [0xE9#32, 0x63#32, 0xE9#32] ∧
    (∀ u, u ≠ 5 → view s' u = view sampleState u) ∧ ¬ Borrowed s' 5 :=
  C105_plus_char sample_reached (t := [0xE9#32, 0x63#32]) (by decide +kernel) (small_good [0xE9#32] (by simp) _ (by simp)) (sample_roomy.mono (by decide))

/-- The temporary itself does borrow: `Borrowed` is not false everywhere. -/
example : ∃ s', newStatic sampleState [0x71#8, 0#8] = .ok s' ∧ Borrowed s' 4 := ⟨_, rfl, _, rfl, by decide +kernel⟩

end Strpp.SV
