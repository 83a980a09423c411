import Verif.Proof.StrVal
namespace Strpp.SV

open Spec Arr

/-- the slice begins its body, or something in `P` (or borrowed data) keeps the body shared -/
def Anch (s : State) (v : Nat) (P : Nat → Prop) : Prop :=
  ∀ (x : Var), s.vars[v]? = some (some x) → x.off = 0 ∨ (∃ b : SBody, s.bodies[x.body]? = some b ∧ b.arr.static = true) ∨
    ∃ (u : Nat) (y : Var), P u ∧ s.vars[u]? = some (some y) ∧ y.body = x.body

theorem Anch.front {s : State} {v : Nat} {P : Nat → Prop} (h : Anch s v P) (hP : ¬ P v) : AtFront s v := by
  intro x hx
  rcases h x hx with h | ⟨b, h1, h2⟩ | ⟨u, y, h1, h2, h3⟩
  · exact Or.inl h
  · exact Or.inr (static_shared hx h1 h2)
  · exact Or.inr (shared_of_two hx h2 (fun e => hP (e ▸ h1)) h3)

theorem Anch.mono {s : State} {v : Nat} {P Q : Nat → Prop} (h : Anch s v P) (hPQ : ∀ u, P u → Q u) : Anch s v Q := by
  intro x hx
  rcases h x hx with h | h | ⟨u, y, h1, h2⟩
  · exact Or.inl h
  · exact Or.inr (Or.inl h)
  · exact Or.inr (Or.inr ⟨u, y, hPQ u h1, h2⟩)

theorem Anch.frame {s s' : State} {v : Nat} {P T : Nat → Prop} (h : Anch s v P) (hf : Frame s s' T) (hvl : v < s.vars.length) (hv : ¬ T v)
    (hPT : ∀ u, P u → ¬ T u) : Anch s' v P := by
  intro x' hx'
  have hs := hf.same v hvl hv
  have ho : ∃ o : Option Var, s.vars[v]? = some o := ⟨s.vars[v], List.getElem?_eq_getElem hvl⟩
  obtain ⟨o, ho⟩ := ho
  cases o with
  | none => rw [hs.1 ho] at hx'; cases hx'
  | some x =>
    obtain ⟨x2, a1, a2, a3, a4, a5⟩ := hs.2 x ho
    rw [a1] at hx'
    cases hx'
    rcases h x ho with h | ⟨b, h1, h2⟩ | ⟨u, y, h1, h2, h3⟩
    · exact Or.inl (by omega)
    · obtain ⟨b', e1, e2⟩ := a5 b h1
      exact Or.inr (Or.inl ⟨b', by rw [a2]; exact e1, by rw [e2]; exact h2⟩)
    · have hul := get_lt h2
      obtain ⟨y2, c1, c2, -⟩ := (hf.same u hul (hPT u h1)).2 y h2
      exact Or.inr (Or.inr ⟨u, y2, h1, c1, by rw [c2, h3, a2]⟩)

theorem Txt.lt {s : State} {v : Nat} {t : List UCS4} (h : Txt s v t) : v < s.vars.length := by
  obtain ⟨x, b, pre, post, hx, -⟩ := h; exact get_lt hx

theorem Txt.uniq {s : State} {v : Nat} {t u : List UCS4} (h : Txt s v t) (h' : Txt s v u) : t = u := by
  have := h.view; rw [h'.view] at this; exact (Option.some.inj this).symm

theorem Txt.size {s : State} {v : Nat} {t : List UCS4} (h : Txt s v t) {n : Nat} (hr : Roomy s n) : (encodeAll t).length + 1 + n ≤ 1073741824 := by
  obtain ⟨x, b, pre, post, hx, hb, hd, -⟩ := h
  have h1 := hr.at hb
  have h2 := hd.body.num
  simp only [encodeAll_append, List.length_append] at h2
  omega

theorem Txt.good {s : State} {v : Nat} {t : List UCS4} (h : Txt s v t) : ∀ c ∈ t, ¬ Reserved c := by
  obtain ⟨x, b, pre, post, hx, hb, hd, -⟩ := h
  exact hd.good

theorem stays_anch {s s' : State} {v : Nat} (h : Stays s s' v) {P : Nat → Prop} (ha : Anch s v P) (hP : ¬ P v) (hx : ∃ x, s.vars[v]? = some (some x)) :
    Anch s' v P := by
  obtain ⟨x, hx⟩ := hx
  obtain ⟨x', h1, h2⟩ := h x hx
  intro z hz
  rw [h1] at hz
  cases hz
  rcases h2 with h2 | ⟨rfl, h3, h4⟩
  · exact Or.inl h2
  · rcases ha x hx with h | ⟨b, g1, g2⟩ | ⟨u, y, g1, g2, g3⟩
    · exact Or.inl (by omega)
    · exact Or.inr (Or.inl ⟨b, by rw [h3]; exact g1, g2⟩)
    · refine Or.inr (Or.inr ⟨u, y, g1, ?_, by rw [g3, h3]⟩)
      simp only [SV.setVar]
      rw [List.getElem?_set_ne (by rintro rfl; exact hP g1)]
      exact g2

theorem splice_end (t a : List UCS4) : splice t t.length a = t ++ a := by simp [splice]

/-- `operator+=` -/
theorem addEq_ok {s : State} (h : Inv s) {v w : Nat} (hne : v ≠ w) {t a : List UCS4} (hv : Txt s v t) (hw : Txt s w a)
    (hfront : AtFront s v) {k : Nat} (hr : Roomy s (k + (encodeAll a).length)) :
    ∃ s', addEq s v w = .ok s' ∧ Inv s' ∧ Roomy s' k ∧ s'.vars.length = s.vars.length ∧ Txt s' v (t ++ a) ∧ AtFront s' v ∧
      (∀ P : Nat → Prop, ¬ P v → Anch s v P → (P w ∨ Anch s w P) → Anch s' v P) := by
  have hv' := hv
  have hw' := hw
  obtain ⟨x, b, pre, post, hx, hb, hd, he⟩ := hv
  obtain ⟨y, c, pre2, post2, hy, hc, hd2, he2⟩ := hw
  have hn := hd.num
  simp only at hn
  have hvl := get_lt hx
  unfold addEq
  rw [getVar_ok hx, res_bind_ok, getVar_ok hy, res_bind_ok, getBody_ok hc, res_bind_ok]
  by_cases hcase : (x.num == 0 && !c.isStatic) = true
  · rw [if_pos hcase]
    unfold assign
    rw [getVar_ok hx, res_bind_ok, getVar_ok hy, res_bind_ok]
    have ht : t = [] := by
      simp only [Bool.and_eq_true, beq_iff_eq] at hcase
      exact List.eq_nil_of_length_eq_zero (by omega)
    subst ht
    have hxv : (setVar s v y).vars[v]? = some (some y) := by simp [SV.setVar, hvl]
    have hyw : (setVar s v y).vars[w]? = some (some y) := by simp only [SV.setVar]; rw [List.getElem?_set_ne hne]; exact hy
    refine ⟨_, rfl, h.setVar v ⟨c, pre2, a, post2, hc, hd2, he2⟩, hr.mono (by omega), by simp [SV.setVar], ?_, ?_, ?_⟩
    · exact ⟨y, c, pre2, post2, hxv, hc, hd2, he2⟩
    · intro z hz
      rw [hxv] at hz
      cases hz
      exact Or.inr (shared_of_two hxv hyw hne rfl)
    · intro P hP _ hPw z hz
      rw [hxv] at hz
      cases hz
      rcases hPw with hPw | hPw
      · exact Or.inr (Or.inr ⟨w, y, hPw, hyw, rfl⟩)
      · rcases hPw y hy with g | g | ⟨u, y2, g1, g2, g3⟩
        · exact Or.inl g
        · exact Or.inr (Or.inl g)
        · refine Or.inr (Or.inr ⟨u, y2, g1, ?_, g3⟩)
          simp only [SV.setVar]
          rw [List.getElem?_set_ne (by rintro rfl; exact hP g1)]
          exact g2
  · rw [if_neg hcase, hn]
    obtain ⟨s', i1, i2, i3, i4, i5, i6, i7⟩ := insert_ok h hne hv' hw' t.length (Nat.le_refl _) hfront (markBefore_end h hv') hr
    rw [splice_end] at i5
    exact ⟨s', i1, i2, i3, i4, i5, i6, fun P hP ha _ => stays_anch i7 ha hP ⟨x, hx⟩⟩

/-! ### making values -/

theorem newVar_txt {s : State} (h : Inv s) {x : Var} {b : SBody} {pre t post : List UCS4} (hb : s.bodies[x.body]? = some b)
    (hd : Den ⟨b, x.off, x.num, x.mark⟩ pre t post) (he : t = [] → pre ++ post = []) {k : Nat} (hr : Roomy s k) :
    Inv (newVar s x) ∧ Roomy (newVar s x) k ∧ (newVar s x).vars.length = s.vars.length + 1 ∧ Txt (newVar s x) s.vars.length t ∧
    (newVar s x).vars[s.vars.length]? = some (some x) := by
  have : (newVar s x).vars[s.vars.length]? = some (some x) := by simp [SV.newVar]
  exact ⟨h.newVar ⟨b, pre, t, post, hb, hd, he⟩, hr, by simp [SV.newVar], ⟨x, b, pre, post, this, hb, hd, he⟩, this⟩

/-- the outcome of making a value in a new variable -/
structure Made (s s' : State) (k : Nat) (t : List UCS4) (P : Nat → Prop) : Prop where
  inv : Inv s'
  roomy : Roomy s' k
  len : s'.vars.length = s.vars.length + 1
  txt : Txt s' s.vars.length t
  anch : Anch s' s.vars.length P

theorem newEmpty_made {s : State} (h : Inv s) {k : Nat} (hr : Roomy s k) (P : Nat → Prop) : Made s (newEmpty s) k [] P := by
  obtain ⟨h1, h2, h3, h4, h5⟩ := newVar_txt (x := ⟨0, 0, 0, ⟨0, 0⟩⟩) h h.null (Den.whole nullBody_den) (fun _ => rfl) hr
  exact ⟨h1, h2, h3, h4, fun x hx => Or.inl (by rw [show (newEmpty s).vars[s.vars.length]? = _ from h5] at hx; cases hx; rfl)⟩

theorem newStr_made {s : State} (h : Inv s) {k : Nat} (hr : Roomy s k) (P : Nat → Prop) {σ : Str} {t : List UCS4} (hd : Den σ [] t [])
    (hsz : (encodeAll t).length + 1 + k ≤ 1073741824) : Made s (newStr s σ) k t P := by
  have hn := hd.body.num
  simp only [List.nil_append, List.append_nil] at hn
  have hbod : (addBody s σ.b).bodies[s.bodies.length]? = some σ.b := by simp [SV.addBody]
  obtain ⟨h1, h2, h3, h4, h5⟩ := newVar_txt (s := addBody s σ.b) (x := ⟨s.bodies.length, σ.off, σ.num, σ.mark⟩) (h.addBody σ.b) hbod hd
    (fun _ => rfl) (hr.addBody σ.b (by omega))
  refine ⟨h1, h2, h3, h4, fun x hx => Or.inl ?_⟩
  have hx' : (newStr s σ).vars[s.vars.length]? = some (some ⟨s.bodies.length, σ.off, σ.num, σ.mark⟩) := h5
  rw [hx'] at hx
  cases hx
  have := hd.off
  simpa using this

/-- data of a given length -/
theorem newData_made {s : State} (h : Inv s) {k : Nat} (hr : Roomy s k) (P : Nat → Prop) (mem : List Byte) (p allocate : Nat) (a : List Byte)
    (cs : List UCS4) (z : Byte) (rest : List Byte) (hm : mem = a ++ (encodeAll cs ++ z :: rest)) (hp : p = a.length)
    (hg : ∀ c ∈ cs, ¬ Reserved c) (hsz : (encodeAll cs).length + 1 + k ≤ 1073741824) (h2 : allocate ≤ 2147483647) :
    ∃ s', newData s mem p (encodeAll cs).length allocate = .ok s' ∧ Made s s' k cs P := by
  unfold newData
  by_cases h0 : (encodeAll cs).length = 0
  · rw [if_pos (by simpa using h0)]
    have : cs = [] := List.eq_nil_of_length_eq_zero (by have := encodeAll_length_ge cs; omega)
    subst this
    exact ⟨_, rfl, newEmpty_made h hr P⟩
  · rw [if_neg (by simpa using h0)]
    have hcs : cs = [] → z = 0#8 := by rintro rfl; exact absurd (by simp) h0
    obtain ⟨b, b1, b2, b3, b4⟩ := mkBody_spec mem p (if allocate ≤ (encodeAll cs).length then 0 else allocate) a cs z rest hm hp hcs hg
      (by omega) (by split <;> omega)
    rw [b1, res_bind_ok]
    obtain ⟨b', c1, c2, c3, c4⟩ := ofBody_spec b2
    rw [c1, res_bind_ok]
    exact ⟨_, rfl, newStr_made h hr P (Den.whole c2) hsz⟩

theorem encodeAll_nz (cs : List UCS4) (hg : ∀ c ∈ cs, ¬ Reserved c) (hz : ∀ c ∈ cs, c ≠ 0#32) : ∀ b ∈ encodeAll cs, b ≠ 0#8 := by
  induction cs with
  | nil => simp
  | cons c cs ih =>
    intro b hb
    rw [encodeAll_cons, List.mem_append] at hb
    rcases hb with hb | hb
    · exact put_nz c (hg c (by simp)) (hz c (by simp)) b hb
    · exact ih (fun d hd => hg d (by simp [hd])) (fun d hd => hz d (by simp [hd])) b hb

/-- NUL-terminated data -/
theorem newC_made {s : State} (h : Inv s) {k : Nat} (hr : Roomy s k) (P : Nat → Prop) (cs : List UCS4) (rest : List Byte)
    (hg : ∀ c ∈ cs, ¬ Reserved c) (hz : ∀ c ∈ cs, c ≠ 0#32) (hsz : (encodeAll cs).length + 1 + k ≤ 1073741824) :
    ∃ s', newC s (encodeAll cs ++ 0#8 :: rest) = .ok s' ∧ Made s s' k cs P := by
  have hnz := encodeAll_nz cs hg hz
  have hstr : strlen (encodeAll cs ++ 0#8 :: rest) 0 = .ok (encodeAll cs).length := by
    refine strlenLoop_spec _ _ 0 _ (by simp) (by simp) ?_
    intro i hi
    refine ⟨(encodeAll cs)[i], ?_, hnz _ (List.getElem_mem hi)⟩
    rw [Nat.zero_add, List.getElem?_append_left hi, List.getElem?_eq_getElem hi]
  unfold newC
  by_cases h0 : cs = []
  · subst h0
    exact ⟨_, rfl, newEmpty_made h hr P⟩
  · have hlen : 0 < (encodeAll cs).length := by
      have := encodeAll_length_ge cs
      have := List.length_pos_iff.mpr h0
      omega
    have hrd : rd (encodeAll cs ++ 0#8 :: rest) 0 = .ok (encodeAll cs)[0] := by
      simp [List.getElem?_append_left hlen]
    rw [hrd, res_bind_ok, if_neg (by simpa using hnz _ (List.getElem_mem hlen))]
    obtain ⟨b, b1, b2, b3, b4⟩ := mkBody_gen (encodeAll cs ++ 0#8 :: rest) 0 0 0 [] cs 0#8 rest rfl rfl (fun _ => rfl)
      (by unfold lenOr; rw [if_pos (by simp), hstr]) hg (by omega) (by omega)
    obtain ⟨b', c1, c2, c3, c4⟩ := ofBody_spec b2
    rw [b1, res_bind_ok, c1, res_bind_ok]
    exact ⟨_, rfl, newStr_made h hr P (Den.whole c2) hsz⟩

/-- one character -/
theorem newChar_made {s : State} (h : Inv s) {k : Nat} (hr : Roomy s k) (P : Nat → Prop) (c : UCS4)
    (hg : ¬ Reserved c) (hsz : 7 + k ≤ 1073741824) :
    ∃ s', newChar s c = .ok s' ∧ Made s s' k [c] P := by
  unfold newChar
  have hput : (utf8Put c).length ≤ 6 := by rw [(C02_utf8_len c).1]; exact (C02_utf8_len c).2.2
  obtain ⟨b, b1, b2, b3, b4⟩ := mkBody_spec (utf8Put c ++ [0#8]) 0 0 [] [c] 0#8 [] (by simp [encodeAll]) rfl (by simp) (by simpa using hg)
    (by simp [encodeAll]; omega) (by omega)
  have e : (encodeAll [c]).length = (utf8Put c).length := by simp [encodeAll]
  rw [e] at b1
  rw [b1, res_bind_ok]
  exact ⟨_, rfl, newStr_made h hr P (Den.whole b2) (by rw [e]; omega)⟩

theorem newStatic_made {s : State} (h : Inv s) {k : Nat} (hr : Roomy s k) (P : Nat → Prop) (cs : List UCS4)
    (hg : ∀ c ∈ cs, ¬ Reserved c) (hsz : (encodeAll cs).length + 1 + k ≤ 1073741824) :
    ∃ s', newStatic s (encodeAll cs ++ [0#8]) = .ok s' ∧ Made s s' k cs P := by
  unfold newStatic
  obtain ⟨b', c1, c2, c3, c4⟩ := ofBody_spec (staticBody_spec cs hg (by omega))
  rw [c1, res_bind_ok]
  exact ⟨_, rfl, newStr_made h hr P (Den.whole c2) hsz⟩

theorem unshare_txt {s : State} (h : Inv s) {v : Nat} {t : List UCS4} (ht : Txt s v t) {k : Nat} (hr : Roomy s k) :
    ∃ s', unshare s v = .ok s' ∧ Inv s' ∧ Roomy s' k ∧ s'.vars.length = s.vars.length ∧ Txt s' v t ∧
      ∀ P, Anch s v P → Anch s' v P := by
  obtain ⟨x, b, pre, post, hx, hb, hd, he⟩ := ht
  obtain ⟨s1, u1, u2, u3, u4, u5⟩ := unshare_spec h hx hb hd he hr
  refine ⟨s1, u1, u2, u3, u4, ?_⟩
  rcases u5 with ⟨r1, rfl, r3⟩ | ⟨r1, x1, b1, r2, r3, r4⟩
  · exact ⟨r3.txt, fun P hP => hP⟩
  · refine ⟨r2.txt, fun P _ z hz => Or.inl ?_⟩
    rw [r2.var] at hz
    cases hz
    exact r4

theorem newNull_made {s : State} (h : Inv s) {k : Nat} (hr : Roomy s k) (P : Nat → Prop) : ∃ s', newNull s = .ok s' ∧ Made s s' k [] P := by
  have h1 := newEmpty_made h hr P
  obtain ⟨s2, u1, u2, u3, u4, u5, u6⟩ := unshare_txt h1.inv h1.txt h1.roomy
  exact ⟨s2, u1, u2, u3, by rw [u4, h1.len], u5, u6 P h1.anch⟩

theorem den_nomark {b : SBody} {off num : Nat} {m : Mark} {pre t post : List UCS4} (h : Den ⟨b, off, num, m⟩ pre t post) :
    Den ⟨b, off, num, ⟨0, 0⟩⟩ pre t post :=
  ⟨h.body, h.off, h.num, Or.inl ⟨by simp, by simp⟩, Or.inl (by simp)⟩

theorem copy_made {s : State} (h : Inv s) {w : Nat} {t : List UCS4} (ht : Txt s w t) {k : Nat} (hr : Roomy s k) :
    ∃ s', copy s w = .ok s' ∧ Made s s' k t (· = w) := by
  have hwl := ht.lt
  obtain ⟨x, b, pre, post, hx, hb, hd, he⟩ := ht
  unfold copy
  rw [getVar_ok hx, res_bind_ok, getBody_ok hb, res_bind_ok]
  simp only
  obtain ⟨h1, h2, h3, h4, h5⟩ := newVar_txt (x := ⟨x.body, x.off, x.num, ⟨0, 0⟩⟩) h hb (den_nomark hd) he hr
  have ha : Anch (newVar s ⟨x.body, x.off, x.num, ⟨0, 0⟩⟩) s.vars.length (· = w) := by
    intro z hz
    rw [h5] at hz
    cases hz
    exact Or.inr (Or.inr ⟨w, x, rfl, by simp only [SV.newVar]; rw [List.getElem?_append_left hwl]; exact hx, rfl⟩)
  split
  · obtain ⟨s2, u1, u2, u3, u4, u5, u6⟩ := unshare_txt h1 h4 h2
    exact ⟨s2, u1, u2, u3, by rw [u4, h3], u5, u6 _ ha⟩
  · exact ⟨_, rfl, h1, h2, h3, h4, ha⟩

theorem assign_ok {s : State} (h : Inv s) {v w : Nat} {t a : List UCS4} (hv : Txt s v t) (hw : Txt s w a) {k : Nat} (hr : Roomy s k) :
    ∃ s', assign s v w = .ok s' ∧ Inv s' ∧ Roomy s' k ∧ s'.vars.length = s.vars.length ∧ Txt s' v a := by
  obtain ⟨x, b, pre, post, hx, hb, hd, he⟩ := hv
  obtain ⟨y, c, pre2, post2, hy, hc, hd2, he2⟩ := hw
  unfold assign
  rw [getVar_ok hx, res_bind_ok, getVar_ok hy, res_bind_ok]
  exact ⟨_, rfl, h.setVar v ⟨c, pre2, a, post2, hc, hd2, he2⟩, hr, by simp [SV.setVar],
    y, c, pre2, post2, by simp [SV.setVar, get_lt hx], hc, hd2, he2⟩

theorem destroy_ok {s : State} (h : Inv s) {v : Nat} {t : List UCS4} (hv : Txt s v t) {k : Nat} (hr : Roomy s k) :
    ∃ s', destroy s v = .ok s' ∧ Inv s' ∧ Roomy s' k ∧ s'.vars.length = s.vars.length ∧ view s' v = none := by
  obtain ⟨x, b, pre, post, hx, hb, hd, he⟩ := hv
  unfold destroy
  rw [getVar_ok hx, res_bind_ok]
  exact ⟨_, rfl, h.destroy v, hr, by simp, by simp [view, get_lt hx]⟩

/-- `substr`: where it begins and how long it is, in plain terms -/
theorem substr_made {s : State} (h : Inv s) {w : Nat} {t : List UCS4} (ht : Txt s w t) (at_ : Nat) (len : Int) {k : Nat} (hr : Roomy s k)
    (hl : -2147483648 ≤ len ∧ len < 2147483648) :
    ∃ s', substr s w at_ len = .ok s' ∧
      Made s s' k (if len < -1 then [] else if len = -1 then t.drop at_ else (t.drop at_).take len.toNat) (· = w) := by
  have hwl := ht.lt
  obtain ⟨x, b, pre, post, hx, hb, hd, he⟩ := ht
  have hn := hd.num
  have ho := hd.off
  have hcap := hd.cap
  simp only at hn ho
  unfold substr
  rw [getVar_ok hx, res_bind_ok]
  by_cases hc : (decide (len < -1) || len == 0 || decide (at_ ≥ x.num)) = true
  · rw [if_pos hc]
    have e : (if len < -1 then [] else if len = -1 then t.drop at_ else (t.drop at_).take len.toNat) = [] := by
      simp only [Bool.or_eq_true, decide_eq_true_eq, beq_iff_eq] at hc
      split
      · rfl
      · rcases hc with (hc | hc) | hc
        · omega
        · subst hc; simp
        · rw [List.drop_eq_nil_of_le (by omega)]; simp
    rw [e]
    exact newNull_made h hr _
  · rw [if_neg hc]
    simp only [Bool.or_eq_true, decide_eq_true_eq, beq_iff_eq, not_or] at hc
    obtain ⟨⟨g1, g2⟩, g3⟩ := hc
    obtain ⟨n, hn', hres⟩ : ∃ n : Nat, (if len > 0 then (if wrap len > x.num - at_ then x.num - at_ else wrap len) else x.num - at_) = n ∧
        ((if len < -1 then [] else if len = -1 then t.drop at_ else (t.drop at_).take len.toNat) = (t.drop at_).take n ∧ 0 < n ∧ at_ + n ≤ t.length) := by
      refine ⟨_, rfl, ?_⟩
      rw [if_neg g1]
      by_cases hp : len > 0
      · rw [if_neg (by omega), if_pos hp]
        have hw : wrap len = len.toNat := by unfold wrap; omega
        rw [hw]
        split
        · refine ⟨?_, by omega, by omega⟩
          rw [List.take_of_length_le (by simp; omega), List.take_of_length_le (by simp; omega)]
        · exact ⟨rfl, by omega, by omega⟩
      · rw [if_pos (by omega), if_neg hp]
        exact ⟨by rw [List.take_of_length_le (by simp; omega)], by omega, by omega⟩
    simp only [hn']
    rw [hres.1]
    obtain ⟨-, r1, r2⟩ := hres
    have hd' : Den ⟨b, x.off + at_, n, ⟨0, 0⟩⟩ (pre ++ t.take at_) ((t.drop at_).take n) ((t.drop at_).drop n ++ post) := by
      have e : pre ++ t.take at_ ++ (t.drop at_).take n ++ ((t.drop at_).drop n ++ post) = pre ++ t ++ post := by
        have h1 : t = t.take at_ ++ ((t.drop at_).take n ++ (t.drop at_).drop n) := by rw [List.take_append_drop, List.take_append_drop]
        conv => rhs; rw [h1]
        simp only [List.append_assoc]
      refine ⟨by rw [e]; exact hd.body, ?_, ?_, Or.inl ⟨by simp, by simp⟩, Or.inl (by simp)⟩
      · simp; omega
      · simp; omega
    have hne : (t.drop at_).take n = [] → (pre ++ t.take at_) ++ ((t.drop at_).drop n ++ post) = [] := by
      intro e
      have := congrArg List.length e
      simp at this; omega
    obtain ⟨h1, h2, h3, h4, h5⟩ := newVar_txt (x := ⟨x.body, x.off + at_, n, ⟨0, 0⟩⟩) h hb hd' hne hr
    refine ⟨_, rfl, h1, h2, h3, h4, ?_⟩
    intro z hz
    rw [h5] at hz
    cases hz
    exact Or.inr (Or.inr ⟨w, x, rfl, by simp only [SV.newVar]; rw [List.getElem?_append_left hwl]; exact hx, rfl⟩)

theorem toInt_small {n : Nat} (h : n < 2147483648) : toInt n = n := by unfold toInt; rw [if_pos h]

theorem toInt_range (n : Nat) (h : n < 4294967296) : -2147483648 ≤ toInt n ∧ toInt n < 2147483648 := by
  unfold toInt; split <;> omega

theorem head_made {s : State} (h : Inv s) {w : Nat} {t : List UCS4} (ht : Txt s w t) (n : Nat) {k : Nat} (hr : Roomy s k)
    (hn : n < 2147483648 ∨ n = 4294967295) : ∃ s', head s w n = .ok s' ∧ Made s s' k (t.take n) (· = w) := by
  unfold head
  have hcap : t.length < 1073741824 := by obtain ⟨x, b, pre, post, hx, hb, hd, he⟩ := ht; have := hd.cap; omega
  obtain ⟨s', e1, e2⟩ := substr_made h ht 0 (toInt n) hr (toInt_range n (by omega))
  refine ⟨s', e1, ?_⟩
  rcases hn with hn | hn
  · rw [toInt_small hn, if_neg (by omega), if_neg (by omega)] at e2
    simpa using e2
  · have : toInt n = -1 := by subst hn; rfl
    rw [this, if_neg (by omega), if_pos rfl] at e2
    rw [List.take_of_length_le (by omega)]
    simpa using e2

theorem tail_made {s : State} (h : Inv s) {w : Nat} {t : List UCS4} (ht : Txt s w t) (n : Nat) {k : Nat} (hr : Roomy s k)
    (hn : n < 4294967296) : ∃ s', tail s w n = .ok s' ∧ Made s s' k (if n ≤ t.length then t.drop (t.length - n) else []) (· = w) := by
  have ht' := ht
  obtain ⟨x, b, pre, post, hx, hb, hd, he⟩ := ht
  have hcap := hd.cap
  have hnum := hd.num
  simp only at hnum
  unfold tail
  rw [getVar_ok hx, res_bind_ok, hnum]
  obtain ⟨s', e1, e2⟩ := substr_made h ht' (wrap ((t.length : Int) - n)) (toInt n) hr (toInt_range n hn)
  refine ⟨s', e1, ?_⟩
  by_cases hle : n ≤ t.length
  · rw [if_pos hle]
    rw [toInt_small (by omega), if_neg (by omega), if_neg (by omega), wrap_of_nonneg hle (by omega),
      List.take_of_length_le (by simp; omega)] at e2
    exact e2
  · rw [if_neg hle]
    rw [List.drop_eq_nil_of_le (by rw [wrap_of_neg (by omega) hn]; omega)] at e2
    simpa using e2

theorem shorter_made {s : State} (h : Inv s) {w : Nat} {t : List UCS4} (ht : Txt s w t) (n : Nat) {k : Nat} (hr : Roomy s k)
    (hn : n ≤ t.length) : ∃ s', shorter s w n = .ok s' ∧ Made s s' k (t.take (t.length - n)) (· = w) := by
  have ht' := ht
  obtain ⟨x, b, pre, post, hx, hb, hd, he⟩ := ht
  have hcap := hd.cap
  have hnum := hd.num
  simp only at hnum
  unfold shorter
  rw [getVar_ok hx, res_bind_ok, hnum, wrap_of_nonneg hn (by omega), toInt_small (by omega)]
  obtain ⟨s', e1, e2⟩ := substr_made h ht' 0 ((t.length - n : Nat) : Int) hr (by omega)
  refine ⟨s', e1, ?_⟩
  rw [if_neg (by omega), if_neg (by omega)] at e2
  simpa using e2

/-! ### putting strings together -/

theorem Made.front {s s' : State} {k : Nat} {t : List UCS4} {P : Nat → Prop} (h : Made s s' k t P) (hP : ∀ u, P u → u < s.vars.length) :
    AtFront s' s.vars.length := h.anch.front (fun hh => by have := hP _ hh; omega)

/-- `operator+` -/
theorem plus_made {s : State} (h : Inv s) {v w : Nat} {t a : List UCS4} (hv : Txt s v t) (hw : Txt s w a)
    {k : Nat} (hr : Roomy s (k + (encodeAll a).length)) :
    ∃ s', plus s v w = .ok s' ∧ Made s s' k (t ++ a) (fun u => u = v ∨ u = w) := by
  have hv' := hv
  have hw' := hw
  have hvl := hv.lt
  have hwl := hw.lt
  have hsz := hv.size hr
  obtain ⟨x, b, pre, post, hx, hb, hd, he⟩ := hv
  obtain ⟨y, c, pre2, post2, hy, hc, hd2, he2⟩ := hw
  have hn := hd.num
  have ho := hd.off
  have hn2 := hd2.num
  have ho2 := hd2.off
  simp only at hn ho hn2 ho2
  unfold plus
  rw [getVar_ok hx, res_bind_ok, getVar_ok hy, res_bind_ok]
  by_cases hfast : x.body = y.body ∧ x.off + x.num = y.off
  · rw [if_pos (by simpa using hfast)]
    obtain ⟨f2, f3⟩ := hfast
    have hb' := hb
    rw [f2] at hb
    rw [hb] at hc
    cases hc
    have hcs := bden_inj hd.body hd2.body
    have hpre2 : pre2 = pre ++ t := by
      have := congrArg (List.take pre2.length) hcs
      rw [List.append_assoc pre2, List.take_left, show pre2.length = (pre ++ t).length by simp; omega, List.take_left] at this
      exact this.symm
    have hpost : post = a ++ post2 := by
      rw [hpre2, List.append_assoc, List.append_assoc, List.append_assoc, List.append_cancel_left_eq, List.append_cancel_left_eq] at hcs
      exact hcs
    have hd' : Den ⟨b, x.off, x.num + y.num, ⟨0, 0⟩⟩ pre (t ++ a) post2 := by
      have e : pre ++ (t ++ a) ++ post2 = pre ++ t ++ post := by rw [hpost]; simp
      refine ⟨by rw [e]; exact hd.body, hd.off, ?_, Or.inl ⟨by simp, by simp⟩, Or.inl (by simp)⟩
      simp only [List.length_append]; omega
    have hemp : t ++ a = [] → pre ++ post2 = [] := by
      intro hta
      obtain ⟨h1, h2⟩ := List.append_eq_nil_iff.mp hta
      have e1 := List.append_eq_nil_iff.mp (he h1)
      have e2 := List.append_eq_nil_iff.mp (he2 h2)
      rw [e1.1, e2.2]; rfl
    obtain ⟨h1, h2, h3, h4, h5⟩ := newVar_txt (x := ⟨x.body, x.off, x.num + y.num, ⟨0, 0⟩⟩) h hb' hd' hemp (hr.mono (show k ≤ _ by omega))
    refine ⟨_, rfl, h1, h2, h3, h4, ?_⟩
    intro z hz
    rw [h5] at hz
    cases hz
    exact Or.inr (Or.inr ⟨v, x, Or.inl rfl, by simp only [SV.newVar]; rw [List.getElem?_append_left hvl]; exact hx, rfl⟩)
  · rw [if_neg (by simpa using hfast), getStr_ok hx hb, res_bind_ok, getStr_ok hy hc, res_bind_ok, hd.nthC 0 (by omega), res_bind_ok]
    simp only [deref, res_bind_ok]
    rw [hd.numBytes, res_bind_ok, hd2.numBytes, res_bind_ok, bpos_mid pre t post 0 (by omega), bpos_zero, Nat.add_zero]
    obtain ⟨slack, hm⟩ := hd.memAt
    have hsz2 := hw'.size hr
    obtain ⟨z, rest, hzr⟩ : ∃ z rest, encodeAll post ++ ([0#8] ++ slack) = z :: rest := by
      cases h' : encodeAll post ++ ([0#8] ++ slack) with
      | nil => simp at h'
      | cons z rest => exact ⟨z, rest, rfl⟩
    rw [hzr] at hm
    obtain ⟨s1, d1, d2⟩ := newData_made h hr (fun u => u = v ∨ u = w) b.arr.mem (encodeAll pre).length
      ((encodeAll t).length + (encodeAll a).length) (encodeAll pre) t z rest hm rfl hd.good (by omega) (by omega)
    rw [d1, res_bind_ok]
    have hf1 := frame_newData h.ids h.pos _ _ _ _ d1
    have hw1 := other_txt h d2.inv hf1 (by simp) hw'
    obtain ⟨s2, a1, a2, a3, a4, a5, a6, a7⟩ := addEq_ok d2.inv (show s.vars.length ≠ w by omega) d2.txt hw1 (d2.front (by
      rintro u (rfl | rfl) <;> omega)) d2.roomy
    exact ⟨s2, a1, a2, a3, by rw [a4, d2.len], a5, a7 _ (by omega) d2.anch (Or.inl (Or.inr rfl))⟩

theorem AtFront.anch {s : State} {v : Nat} (h : AtFront s v) : Anch s v (fun u => u ≠ v ∧ u < s.vars.length) := by
  intro x hx
  rcases h x hx with h | h
  · exact Or.inl h
  · right
    have hvl := get_lt hx
    unfold refCount at h
    by_cases hst : ∃ b : SBody, s.bodies[x.body]? = some b ∧ b.arr.static = true
    · exact Or.inl hst
    · right
      have h0 : ownRef s.bodies[x.body]? = 0 := by
        cases hb : s.bodies[x.body]? with
        | none => rfl
        | some b =>
          cases hs : b.arr.static with
          | true => exact absurd ⟨b, hb, hs⟩ hst
          | false => simp [ownRef, hs]
      have hset := List.countP_set (p := holds x.body) (l := s.vars) (i := v) (a := none) (h := hvl)
      have hgx : s.vars[v] = some x := by rw [List.getElem?_eq_getElem hvl] at hx; exact Option.some.inj hx
      rw [hgx] at hset
      have hh : holds x.body (some x) = true := by simp [holds]
      rw [hh] at hset
      simp only [holds, ↓reduceIte, Bool.false_eq_true] at hset
      have hp : 0 < (s.vars.set v none).countP (holds x.body) := by omega
      obtain ⟨o, ho1, ho2⟩ := List.countP_pos_iff.mp hp
      obtain ⟨u, hu⟩ := List.mem_iff_getElem?.mp ho1
      cases o with
      | none => cases ho2
      | some y =>
        rw [List.getElem?_set] at hu
        split at hu
        · first | cases hu | (split at hu <;> cases hu)
        · rename_i hne
          exact ⟨u, y, ⟨fun e => hne e.symm, get_lt hu⟩, hu, by simpa [holds] using ho2⟩

/-- `operator+=(UCS4)`; the temporary is a new, destroyed, variable -/
theorem addEqChar_ok {s : State} (h : Inv s) {v : Nat} {t : List UCS4} (hv : Txt s v t) (c : UCS4) (hg : ¬ Reserved c)
    (hfront : AtFront s v) {k : Nat} (hr : Roomy s (k + 12)) :
    ∃ s', addEqChar s v c = .ok s' ∧ Inv s' ∧ Roomy s' k ∧ s'.vars.length = s.vars.length + 1 ∧ Txt s' v (t ++ [c]) ∧ AtFront s' v ∧
      s'.vars[s.vars.length]? = some none := by
  have hvl := hv.lt
  have hput : (utf8Put c).length ≤ 6 := by rw [(C02_utf8_len c).1]; exact (C02_utf8_len c).2.2
  have hpp := put_len_pos c
  have hsz := hv.size hr
  have e6 : (encodeAll [c]).length = (utf8Put c).length := by simp [encodeAll]
  have e7 : utf8Put c ++ [0#8] = encodeAll [c] ++ [0#8] := by simp [encodeAll]
  have ha := hfront.anch
  unfold addEqChar
  have hb : Roomy s (k + (utf8Put c).length) := hr.mono (by omega)
  obtain ⟨s1, d1, d2⟩ := newStatic_made h hb (fun _ => False) [c] (by simpa using hg) (by omega)
  rw [e7, d1, res_bind_ok]
  have hf1 := frame_newStatic h.ids _ d1
  have hv1 := other_txt h d2.inv hf1 (by simp) hv
  have ha1 := ha.frame hf1 hvl (by simp) (by simp)
  have hne : v ≠ s.vars.length := by omega
  obtain ⟨s2, a1, a2, a3, a4, a5, a6, a7⟩ := addEq_ok d2.inv hne hv1 d2.txt (ha1.front (by simp)) (k := k) (by rw [e6]; exact d2.roomy)
  rw [a1, res_bind_ok]
  have ha2 := a7 _ (by simp) ha1 (Or.inr (d2.anch.mono (by simp)))
  have hf2 := frame_addEq d2.inv.ids _ _ a1
  have ht2 := other_txt d2.inv a2 hf2 (fun e => hne e.symm) d2.txt
  obtain ⟨s3, g1, g2, g3, g4, g5⟩ := destroy_ok a2 ht2 a3
  have hf3 := frame_destroy a2.ids _ g1
  refine ⟨s3, g1, g2, g3, by rw [g4, a4, d2.len], other_txt a2 g2 hf3 hne a5, ?_, ?_⟩
  · exact (ha2.frame hf3 a5.lt hne (by rintro u ⟨-, hu⟩; omega)).front (by simp)
  · unfold destroy at g1
    obtain ⟨x, -, g1⟩ := hbind g1
    cases g1
    rw [List.getElem?_set_self (by rw [a4, d2.len]; omega)]

theorem timesLoop_ok {v r : Nat} (hne : r ≠ v) {t : List UCS4} : ∀ (n : Nat) {s : State} {u : List UCS4}, Inv s → Txt s v t → Txt s r u →
    AtFront s r → ∀ {k : Nat}, Roomy s (k + n * (encodeAll t).length) → ∀ {P : Nat → Prop}, ¬ P r → P v → Anch s r P →
    ∃ s', timesLoop s r v n = .ok s' ∧ Inv s' ∧ Roomy s' k ∧ s'.vars.length = s.vars.length ∧ Txt s' r (u ++ rep t n) ∧ Anch s' r P := by
  intro n
  induction n with
  | zero =>
    intro s u h hv hr hf k hroom P hP hPv ha
    exact ⟨s, rfl, h, by simpa using hroom, rfl, by simpa [rep] using hr, ha⟩
  | succ n ih =>
    intro s u h hv hr hf k hroom P hP hPv ha
    have hroom' : Roomy s (k + n * (encodeAll t).length + (encodeAll t).length) := by
      rw [Nat.add_mul, Nat.one_mul] at hroom
      exact hroom.mono (by omega)
    obtain ⟨s1, a1, a2, a3, a4, a5, a6, a7⟩ := addEq_ok h hne hr hv hf hroom'
    have hf1 := frame_addEq h.ids _ _ a1
    have hv1 := other_txt h a2 hf1 (fun e => hne e.symm) hv
    obtain ⟨s2, b1, b2, b3, b4, b5, b6⟩ := ih a2 hv1 a5 a6 a3 hP hPv (a7 P hP ha (Or.inl hPv))
    unfold timesLoop
    rw [a1, res_bind_ok]
    refine ⟨s2, b1, b2, b3, by rw [b4, a4], ?_, b6⟩
    have : u ++ rep t (n + 1) = u ++ t ++ rep t n := by simp [rep, List.replicate_succ]
    rw [this]; exact b5

/-- `operator*` -/
theorem times_made {s : State} (h : Inv s) {v : Nat} {t : List UCS4} (hv : Txt s v t) (n : Int)
    {k : Nat} (hr : Roomy s (k + n.toNat * (encodeAll t).length)) :
    ∃ s', times s v n = .ok s' ∧ Made s s' k (rep t n.toNat) (· = v) := by
  have hvl := hv.lt
  obtain ⟨x, b, pre, post, hx, hb, hd, he⟩ := hv
  have hn := hd.num
  have ho := hd.off
  simp only at hn ho
  unfold times
  rw [getVar_ok hx, res_bind_ok, getStr_ok hx hb, res_bind_ok]
  obtain ⟨σ1, e1, d1, a1, o1, n1, m1⟩ := hd.nth 0 (by omega)
  obtain ⟨σ2, e2, d2, a2, o2, n2, m2⟩ := d1.nth t.length (Nat.le_refl _)
  rw [e1, res_bind_ok]
  simp only
  rw [hn, e2, res_bind_ok]
  simp only
  have hd' : Den ⟨b, x.off, x.num, σ2.mark⟩ pre t post := ⟨hd.body, hd.off, hd.num, d2.mark, d2.markIn⟩
  have hd'' : Den ⟨b, x.off, t.length, σ2.mark⟩ pre t post := by rw [hn] at hd'; exact hd'
  have h1 : Inv (setVar s v ⟨x.body, x.off, t.length, σ2.mark⟩) := h.setVar v ⟨b, pre, t, post, hb, hd'', he⟩
  have hx1 : (setVar s v ⟨x.body, x.off, t.length, σ2.mark⟩).vars[v]? = some (some ⟨x.body, x.off, t.length, σ2.mark⟩) := by
    simp [SV.setVar, hvl]
  have hv1 : Txt (setVar s v ⟨x.body, x.off, t.length, σ2.mark⟩) v t := ⟨_, b, pre, post, hx1, hb, hd'', he⟩
  have hl : (setVar s v ⟨x.body, x.off, t.length, σ2.mark⟩).vars.length = s.vars.length := by simp [SV.setVar]
  have hm := newEmpty_made h1 (show Roomy (setVar s v ⟨x.body, x.off, t.length, σ2.mark⟩) _ from hr) (· = v)
  rw [← hn] at h1 hx1 hv1 hl hm ⊢
  have hv2 := other_txt h1 hm.inv (frame_newEmpty h1.ids h1.pos) (by simp) hv1
  obtain ⟨s2, b1, b2, b3, b4, b5, b6⟩ := timesLoop_ok (r := s.vars.length) (v := v) (by omega) n.toNat hm.inv hv2 (by rw [← hl]; exact hm.txt)
    (by rw [← hl]; exact hm.front (by rintro u rfl; omega)) hm.roomy (P := (· = v)) (by omega) rfl (by rw [← hl]; exact hm.anch)
  exact ⟨s2, b1, b2, b3, by rw [b4, hm.len, hl], by simpa using b5, b6⟩

theorem asUTF8_ok {s : State} (h : Inv s) {v : Nat} {t : List UCS4} (hv : Txt s v t) {k : Nat} (hr : Roomy s k) :
    ∃ s', asUTF8 s v = .ok s' ∧ Inv s' ∧ Roomy s' k ∧ s'.vars.length = s.vars.length ∧ Txt s' v t := by
  have hvl := hv.lt
  have hsz := hv.size hr
  have hv' := hv
  obtain ⟨x, b, pre, post, hx, hb, hd, he⟩ := hv
  unfold asUTF8
  rw [getStr_ok hx hb, res_bind_ok]
  obtain ⟨b', c1, c2, c3, c4⟩ := hd.body.count
  have hn := hd.body.num
  have hz : ∃ z, b'.nulTerminated = .ok z := by
    unfold SBody.nulTerminated
    split
    · exact ⟨true, rfl⟩
    · have hlt : b'.arr.num - 1 < b'.arr.mem.length := by
        rw [c4]
        have := hd.body.wf.le
        omega
      refine ⟨b'.arr.mem[b'.arr.num - 1] == 0#8, ?_⟩
      have hrd : rd b'.arr.mem (b'.arr.num - 1) = .ok b'.arr.mem[b'.arr.num - 1] := by
        simp [List.getElem?_eq_getElem hlt]
      rw [hrd, res_bind_ok]
  obtain ⟨z, hz⟩ := hz
  have hmc : ∃ m, (Str.mustCopy ⟨b, x.off, x.num, x.mark⟩) = .ok (⟨b', x.off, x.num, x.mark⟩, m) := by
    unfold Str.mustCopy
    rw [c1, res_bind_ok, hz, res_bind_ok]
    exact ⟨_, rfl⟩
  obtain ⟨m, hm⟩ := hmc
  rw [hm, res_bind_ok]
  cases m with
  | false => exact ⟨s, rfl, h, hr, rfl, hv'⟩
  | true =>
    simp only [↓reduceIte]
    obtain ⟨σ', c1, c2, c3, c4⟩ := hd.copyBody' (fun ht => (List.append_eq_nil_iff.mp (he ht)).2)
    rw [c1, res_bind_ok]
    have hsn := c2.body.num
    simp only [List.nil_append, List.append_nil] at hsn
    have hbod : (addBody s σ'.b).bodies[s.bodies.length]? = some σ'.b := by simp [SV.addBody]
    refine ⟨_, rfl, (h.addBody σ'.b).setVar v ⟨σ'.b, [], t, [], hbod, c2, fun _ => rfl⟩, hr.addBody σ'.b (by omega),
      by simp [ownStr, SV.setVar, SV.addBody], ⟨s.bodies.length, σ'.off, σ'.num, σ'.mark⟩, σ'.b, [], [], ?_, hbod, c2, fun _ => rfl⟩
    simp [ownStr, SV.setVar, SV.addBody, hvl]

/-- what `join` gives: the first string, then the delimiter and the next, and so on -/
def joinTail (d : List UCS4) (ts : List (List UCS4)) : List UCS4 := (ts.map (d ++ ·)).flatten

def joinCost (d : List UCS4) (ts : List (List UCS4)) : Nat := (ts.map (fun t => (encodeAll d).length + 2 * (encodeAll t).length)).sum

theorem joinLoop_ok {r j : Nat} {d : List UCS4} : ∀ (ws : List Nat) (ts : List (List UCS4)) {s : State} {u : List UCS4}, Inv s →
    Txt s j d → Txt s r u → ws.length = ts.length → (∀ (i : Nat) (w : Nat) (t : List UCS4), ws[i]? = some w → ts[i]? = some t → Txt s w t) →
    ∀ {k : Nat}, Roomy s (k + joinCost d ts) → ∀ {P : Nat → Prop}, ¬ P r → P j → (∀ w ∈ ws, P w) → (∀ w, P w → w < s.vars.length) →
    Anch s r P →
    ∃ s', joinLoop s r j ws = .ok s' ∧ Inv s' ∧ Roomy s' k ∧ s.vars.length ≤ s'.vars.length ∧ Txt s' r (u ++ joinTail d ts) ∧ Anch s' r P ∧
      (∀ i, s.vars.length ≤ i → i < s'.vars.length → s'.vars[i]? = some none) := by
  intro ws
  induction ws with
  | nil =>
    intro ts s u h hj hr hl _ k hroom P _ _ _ _ ha
    have : ts = [] := List.eq_nil_of_length_eq_zero (by simpa using hl.symm)
    subst this
    exact ⟨s, rfl, h, by simpa [joinCost] using hroom, Nat.le_refl _, by simpa [joinTail] using hr, ha, by intro i h1 h2; omega⟩
  | cons w ws ih =>
    intro ts s u h hj hr hl hts k hroom P hPr hPj hPw hPl ha
    obtain ⟨t, ts, rfl⟩ : ∃ t ts', ts = t :: ts' := by
      cases ts with
      | nil => simp at hl
      | cons t ts => exact ⟨t, ts, rfl⟩
    have hw : Txt s w t := hts 0 w t rfl rfl
    have hrl := hr.lt
    have hroom1 : Roomy s (k + joinCost d ts + (encodeAll (d ++ t)).length + (encodeAll t).length) := by
      refine hroom.mono ?_
      simp only [joinCost, List.map_cons, List.sum_cons, encodeAll_append, List.length_append]; omega
    obtain ⟨s1, p1, p2⟩ := plus_made h hj hw hroom1
    have hf1 := frame_plus h.ids h.pos _ _ p1
    have hr1 := other_txt h p2.inv hf1 (by simp) hr
    have ha1 := ha.frame hf1 hrl (by simp) (by simp)
    obtain ⟨s2, a1, a2, a3, a4, a5, a6, a7⟩ := addEq_ok p2.inv (show r ≠ s.vars.length by omega) hr1 p2.txt (ha1.front hPr) p2.roomy
    have hf2 := frame_addEq p2.inv.ids _ _ a1
    have ha2 := a7 P hPr ha1 (Or.inr (p2.anch.mono (by
      rintro x (rfl | rfl)
      · exact hPj
      · exact hPw _ (by simp))))
    have ht2 := other_txt p2.inv a2 hf2 (show ¬ s.vars.length = r by omega) p2.txt
    obtain ⟨s3, g1, g2, g3, g4, g5⟩ := destroy_ok a2 ht2 a3
    have hf3 := frame_destroy a2.ids _ g1
    have ha3 := ha2.frame hf3 a5.lt (show ¬ r = s.vars.length by omega) (fun x hx => by have := hPl x hx; omega)
    have hr3 := other_txt a2 g2 hf3 (show ¬ r = s.vars.length by omega) a5
    have hl3 : s3.vars.length = s.vars.length + 1 := by rw [g4, a4, p2.len]
    have keep : ∀ (i : Nat) (c : List UCS4), P i → Txt s i c → Txt s3 i c := by
      intro i c hPi hi
      have hil := hi.lt
      have hir : ¬ i = r := fun e => hPr (e ▸ hPi)
      exact other_txt a2 g2 hf3 (show ¬ i = s.vars.length by omega)
        (other_txt p2.inv a2 hf2 hir (other_txt h p2.inv hf1 (by simp) hi))
    obtain ⟨s4, e1, e2, e3, e4, e5, e6, e7⟩ := ih ts g2 (keep j d hPj hj) hr3 (by simpa using hl)
      (fun i w' t' h1 h2 => keep w' t' (hPw w' (by simp [List.mem_of_getElem? h1])) (hts (i + 1) w' t' (by simpa using h1) (by simpa using h2)))
      g3 hPr hPj (fun w' hw' => hPw w' (by simp [hw'])) (fun w' hw' => by have := hPl w' hw'; omega) ha3
    unfold joinLoop
    rw [p1, res_bind_ok, a1, res_bind_ok, g1, res_bind_ok]
    refine ⟨s4, e1, e2, e3, by omega, ?_, e6, ?_⟩
    · have : u ++ joinTail d (t :: ts) = u ++ (d ++ t) ++ joinTail d ts := by simp [joinTail]
      rw [this]; exact e5
    · intro i hi hi'
      rcases Nat.lt_or_ge i (s.vars.length + 1) with hlt | hge
      · have hii : i = s.vars.length := by omega
        subst hii
        have hnone : s3.vars[s.vars.length]? = some none := by
          unfold destroy at g1
          obtain ⟨x, -, g1⟩ := hbind g1
          cases g1
          rw [List.getElem?_set_self (by rw [a4, p2.len]; omega)]
        have hf4 := frame_joinLoop ws g2.ids g2.pos e1
        exact (hf4.same s.vars.length (by omega) (by omega)).1 hnone
      · exact e7 i (by omega) hi'

end Strpp.SV
