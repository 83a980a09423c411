import Verif.Proof.StrTransform
import Verif.Proof.StrFrame
namespace Strpp.SV

open Spec Arr

/-- variable `x` of `s` is a correct string -/
def GoodVar (s : State) (x : Var) : Prop :=
  ∃ (b : SBody) (pre t post : List UCS4), s.bodies[x.body]? = some b ∧ Den ⟨b, x.off, x.num, x.mark⟩ pre t post ∧ (t = [] → pre ++ post = [])

structure Inv (s : State) : Prop where
  null : s.bodies[0]? = some nullBody
  vars : ∀ (v : Nat) (x : Var), s.vars[v]? = some (some x) → GoodVar s x

/-- variable `v` correctly shows the text `t` -/
def Txt (s : State) (v : Nat) (t : List UCS4) : Prop :=
  ∃ (x : Var) (b : SBody) (pre post : List UCS4), s.vars[v]? = some (some x) ∧ s.bodies[x.body]? = some b ∧
    Den ⟨b, x.off, x.num, x.mark⟩ pre t post ∧ (t = [] → pre ++ post = [])

theorem Inv.ids {s : State} (h : Inv s) : Ids s := by
  intro v x hv
  obtain ⟨b, _, _, _, hb, _⟩ := h.vars v x hv
  exact get_lt hb

theorem Inv.pos {s : State} (h : Inv s) : 0 < s.bodies.length := get_lt h.null

theorem den_text {b : SBody} {cs : List UCS4} (h : BDen b cs) : decodeAll b.arr.elems.dropLast = cs := by
  rw [h.txt, List.dropLast_concat]
  have := decodeAll_encodeAll cs h.good []
  simpa [decodeAll_nil] using this

theorem Txt.view {s : State} {v : Nat} {t : List UCS4} (h : Txt s v t) : view s v = some t := by
  obtain ⟨x, b, pre, post, hx, hb, hd, -⟩ := h
  unfold SV.view
  rw [hx]
  simp only
  rw [hb]
  simp only
  have ho := hd.off
  have hn := hd.num
  simp only at ho hn
  rw [den_text hd.body, ho, hn]
  simp

theorem Inv.txt {s : State} (h : Inv s) {v : Nat} {t : List UCS4} (hv : view s v = some t) : Txt s v t := by
  unfold SV.view at hv
  split at hv
  · rename_i x hx
    obtain ⟨b, pre, t', post, hb, hd, he⟩ := h.vars v x hx
    have : Txt s v t' := ⟨x, b, pre, post, hx, hb, hd, he⟩
    have h2 := this.view
    unfold SV.view at h2
    rw [hx] at h2
    simp only at h2
    rw [hv] at h2
    cases h2
    exact this
  · cases hv

theorem Inv.txt_of {s : State} (h : Inv s) {v : Nat} {x : Var} (hx : s.vars[v]? = some (some x)) : ∃ t, Txt s v t := by
  obtain ⟨b, pre, t', post, hb, hd, he⟩ := h.vars v x hx
  exact ⟨t', x, b, pre, post, hx, hb, hd, he⟩

theorem nullBody_den : BDen nullBody [] := by
  have := staticBody_spec [] (by simp) (by simp)
  simpa [nullBody] using this

theorem null_good {s : State} (h : s.bodies[0]? = some nullBody) : GoodVar s ⟨0, 0, 0, ⟨0, 0⟩⟩ :=
  ⟨nullBody, [], [], [], h, Den.whole nullBody_den, fun _ => rfl⟩

theorem GoodVar.mono {s s' : State} {x : Var} (h : GoodVar s x) (hb : ∀ (b : SBody), s.bodies[x.body]? = some b → s'.bodies[x.body]? = some b) :
    GoodVar s' x := by
  obtain ⟨b, pre, t, post, h1, h2, h3⟩ := h
  exact ⟨b, pre, t, post, hb b h1, h2, h3⟩

theorem Inv.addBody {s : State} (h : Inv s) (b : SBody) : Inv (addBody s b) := by
  have e : ∀ (i : Nat) (c : SBody), s.bodies[i]? = some c → (SV.addBody s b).bodies[i]? = some c := by
    intro i c hc
    simp only [SV.addBody]; rw [List.getElem?_append_left (get_lt hc)]; exact hc
  exact ⟨e _ _ h.null, fun v x hx => (h.vars v x hx).mono (fun c hc => e _ c hc)⟩

theorem Inv.newVar {s : State} (h : Inv s) {x : Var} (hx : GoodVar s x) : Inv (newVar s x) := by
  refine ⟨h.null, fun v y hv => ?_⟩
  simp only [SV.newVar, List.getElem?_append] at hv
  split at hv
  · exact h.vars v y hv
  · have : v - s.vars.length = 0 := by
      rcases Nat.eq_zero_or_pos (v - s.vars.length) with h0 | h0
      · exact h0
      · rw [List.getElem?_eq_none (by simp; omega)] at hv; cases hv
    rw [this] at hv
    simp only [List.getElem?_cons_zero, Option.some.injEq] at hv
    subst hv; exact hx

theorem Inv.setVar {s : State} (h : Inv s) {x : Var} (v : Nat) (hx : GoodVar s x) : Inv (setVar s v x) := by
  refine ⟨h.null, fun w y hw => ?_⟩
  simp only [SV.setVar, List.getElem?_set] at hw
  split at hw
  · split at hw
    · simp only [Option.some.injEq] at hw; subst hw; exact hx
    · cases hw
  · exact h.vars w y hw

theorem Inv.destroy {s : State} (h : Inv s) (v : Nat) : Inv { s with vars := s.vars.set v none } := by
  refine ⟨h.null, fun w y hw => ?_⟩
  simp only [List.getElem?_set] at hw
  split at hw
  · split at hw <;> cases hw
  · exact h.vars w y hw

theorem Roomy.mono {s : State} {m n : Nat} (h : Roomy s n) (hm : m ≤ n) : Roomy s m := fun b hb => by have := h b hb; omega

theorem Roomy.addBody {s : State} {n : Nat} (h : Roomy s n) (b : SBody) (hb : b.arr.num + n ≤ 1073741824) : Roomy (addBody s b) n := by
  intro c hc
  simp only [SV.addBody, List.mem_append, List.mem_singleton] at hc
  rcases hc with hc | rfl
  · exact h c hc
  · exact hb

theorem Roomy.at {s : State} {n i : Nat} {b : SBody} (h : Roomy s n) (hb : s.bodies[i]? = some b) : b.arr.num + n ≤ 1073741824 :=
  h b (List.mem_of_getElem? hb)

theorem getStr_ok {s : State} {v : Nat} {x : Var} {b : SBody} (hx : s.vars[v]? = some (some x)) (hb : s.bodies[x.body]? = some b) :
    getStr s v = .ok ⟨b, x.off, x.num, x.mark⟩ := by
  unfold getStr
  rw [getVar_ok hx, res_bind_ok, getBody_ok hb, res_bind_ok]

theorem isStatic_iff {b : SBody} {cs : List UCS4} (h : BDen b cs) : b.isStatic = b.arr.static := by
  unfold SBody.isStatic
  have hn := h.num
  have hle := h.wf.le
  cases hs : b.arr.static with
  | true => rw [h.wf.static hs]; simp; omega
  | false =>
    have := h.wf.alloc hs
    have : (b.arr.alloc == 0) = false := by rw [beq_eq_false_iff_ne]; omega
    rw [this]; rfl

/-- two variables on one body: it is shared -/
theorem shared_of_two {s : State} {v w : Nat} {x y : Var} (hv : s.vars[v]? = some (some x)) (hw : s.vars[w]? = some (some y))
    (hne : v ≠ w) (he : y.body = x.body) : refCount s x.body > 1 := by
  rcases Nat.lt_or_ge 1 (refCount s x.body) with h | h
  · exact h
  · exact absurd (sole h hv hw he).symm hne

theorem refCount_pos {s : State} {v : Nat} {x : Var} (hv : s.vars[v]? = some (some x)) :
    1 + ownRef s.bodies[x.body]? ≤ refCount s x.body := by
  unfold refCount
  have : 0 < s.vars.countP (holds x.body) := List.countP_pos_iff.mpr ⟨some x, List.mem_of_getElem? hv, by simp [holds]⟩
  omega

theorem static_shared {s : State} {v : Nat} {x : Var} {b : SBody} (hv : s.vars[v]? = some (some x)) (hb : s.bodies[x.body]? = some b)
    (hs : b.arr.static = true) : refCount s x.body > 1 := by
  have := refCount_pos hv
  rw [hb] at this
  simp only [ownRef, hs, ↓reduceIte] at this
  omega

theorem refCount_own {s : State} (h : Ids s) (v : Nat) (σ : Str) (hs : σ.b.arr.static = false) :
    refCount (ownStr s v σ) s.bodies.length ≤ 1 := by
  unfold refCount ownStr
  simp only [SV.setVar, SV.addBody]
  have hb : (s.bodies ++ [σ.b])[s.bodies.length]? = some σ.b := by simp
  rw [hb]
  simp only [ownRef, hs]
  have h0 : s.vars.countP (holds s.bodies.length) = 0 := by
    rw [List.countP_eq_zero]
    intro o ho
    cases o with
    | none => simp [holds]
    | some x =>
      obtain ⟨i, hi⟩ := List.mem_iff_getElem?.mp ho
      have := h i x hi
      simp [holds]; omega
  rcases Nat.lt_or_ge v s.vars.length with hv | hv
  · rw [List.countP_set (h := hv), h0]; simp
    split <;> omega
  · rw [List.set_eq_of_length_le hv, h0]; simp

theorem mustCopyStatic_ok {σ : Str} {pre t post : List UCS4} (h : Den σ pre t post) : ∃ m, mustCopyStatic σ = .ok m ∧
    (m = true → σ.b.arr.static = true) := by
  unfold mustCopyStatic
  rw [isStatic_iff h.body]
  split
  · rename_i hs
    obtain ⟨b', e, -⟩ := h.body.count
    rw [e, res_bind_ok]
    exact ⟨_, rfl, fun _ => hs⟩
  · exact ⟨false, rfl, nofun⟩

/-- what is known of a variable after `Unshare` -/
structure Owned (s : State) (v : Nat) (x : Var) (b : SBody) (pre t post : List UCS4) : Prop where
  var : s.vars[v]? = some (some x)
  body : s.bodies[x.body]? = some b
  den : Den ⟨b, x.off, x.num, x.mark⟩ pre t post
  emp : t = [] → pre ++ post = []
  st : b.arr.static = false
  rc : refCount s x.body ≤ 1

theorem Owned.txt {s : State} {v : Nat} {x : Var} {b : SBody} {pre t post : List UCS4} (h : Owned s v x b pre t post) : Txt s v t :=
  ⟨x, b, pre, post, h.var, h.body, h.den, h.emp⟩

theorem bpos_sub_le (a b : List UCS4) : (encodeAll a).length ≤ (encodeAll (a ++ b)).length := by simp

theorem unshare_spec {s : State} (h : Inv s) {v : Nat} {x : Var} {b : SBody} {pre t post : List UCS4}
    (hx : s.vars[v]? = some (some x)) (hb : s.bodies[x.body]? = some b) (hd : Den ⟨b, x.off, x.num, x.mark⟩ pre t post)
    (he : t = [] → pre ++ post = []) {k : Nat} (hr : Roomy s k) :
    ∃ s', unshare s v = .ok s' ∧ Inv s' ∧ Roomy s' k ∧ s'.vars.length = s.vars.length ∧
      ((refCount s x.body ≤ 1 ∧ s' = s ∧ Owned s v x b pre t post) ∨
       (refCount s x.body > 1 ∧ ∃ x' b', Owned s' v x' b' [] t [] ∧ x'.mark.cn = wrap ((x.mark.cn : Int) - x.off) ∧ x'.off = 0)) := by
  obtain ⟨m, hm, hms⟩ := mustCopyStatic_ok hd
  unfold unshare
  rw [getVar_ok hx, res_bind_ok, getStr_ok hx hb, res_bind_ok, hm, res_bind_ok]
  by_cases hrc : refCount s x.body > 1
  · rw [if_pos (by simp [hrc])]
    obtain ⟨σ', c1, c2, c3, c4⟩ : ∃ σ', (Str.copyBody ⟨b, x.off, x.num, x.mark⟩) = .ok σ' ∧ Den σ' [] t [] ∧ σ'.b.arr.static = false ∧
        σ'.mark.cn = wrap ((x.mark.cn : Int) - x.off) := by
      obtain ⟨σ', c1, c2, c3, c4⟩ := hd.copyBody' (fun ht => (List.append_eq_nil_iff.mp (he ht)).2)
      exact ⟨σ', c1, c2, c3, c4⟩
    rw [c1, res_bind_ok]
    have hvl := get_lt hx
    have hsz : σ'.b.arr.num + k ≤ 1073741824 := by
      have h1 := c2.body.num
      have h2 := hd.body.num
      have h3 := hr.at hb
      simp only [List.nil_append, List.append_nil, encodeAll_append, List.length_append] at h1 h2
      omega
    have hbod : (addBody s σ'.b).bodies[s.bodies.length]? = some σ'.b := by simp [SV.addBody]
    have hgood : GoodVar (addBody s σ'.b) ⟨s.bodies.length, σ'.off, σ'.num, σ'.mark⟩ :=
      ⟨σ'.b, [], t, [], hbod, c2, fun _ => rfl⟩
    refine ⟨_, rfl, (h.addBody σ'.b).setVar v hgood, ?_, by simp [ownStr, SV.setVar, SV.addBody], Or.inr ⟨hrc, ?_⟩⟩
    · exact hr.addBody σ'.b hsz
    · refine ⟨⟨s.bodies.length, σ'.off, σ'.num, σ'.mark⟩, σ'.b, ⟨?_, hbod, c2, fun _ => rfl, c3, ?_⟩, c4, ?_⟩
      · simp [ownStr, SV.setVar, SV.addBody, hvl]
      · exact refCount_own h.ids v σ' c3
      · have := c2.off; simpa using this
  · have hmf : m = false := by
      cases hm' : m with
      | false => rfl
      | true => exact absurd (static_shared hx hb (hms hm')) hrc
    have hst : b.arr.static = false := by
      cases hs : b.arr.static with
      | false => rfl
      | true => exact absurd (static_shared hx hb hs) hrc
    rw [if_neg (by simp [hmf]; omega)]
    exact ⟨s, rfl, h, hr, rfl, Or.inl ⟨by omega, rfl, hx, hb, hd, he, hst, by omega⟩⟩

/-- changing an owned body in place -/
theorem put_spec {s : State} (h : Inv s) {v : Nat} {x : Var} {b : SBody} {pre t post : List UCS4} (ho : Owned s v x b pre t post)
    {k : Nat} (hr : Roomy s k) (σ : Str) {pre' t' post' : List UCS4} (hd : Den σ pre' t' post') (he : t' = [] → pre' ++ post' = [])
    (hs : σ.b.arr.static = false) (hsz : σ.b.arr.num + k ≤ 1073741824) :
    ∃ s', putStr s v σ = .ok s' ∧ Inv s' ∧ Roomy s' k ∧ s'.vars.length = s.vars.length ∧
      Owned s' v ⟨x.body, σ.off, σ.num, σ.mark⟩ σ.b pre' t' post' := by
  unfold putStr
  rw [getVar_ok ho.var, res_bind_ok]
  have hvl := get_lt ho.var
  have hbl := get_lt ho.body
  have hbod : (setBody s x.body σ.b).bodies[x.body]? = some σ.b := by simp [SV.setBody, hbl]
  refine ⟨_, rfl, ?_, ?_, by simp [SV.setVar, SV.setBody], ?_⟩
  · refine ⟨?_, fun w y hw => ?_⟩
    · simp only [SV.setVar, SV.setBody]
      by_cases h0 : x.body = 0
      · have := ho.body; rw [h0, h.null] at this
        cases this
        have := ho.st
        simp [nullBody, staticBody, Body.ofStatic] at this
      · rw [List.getElem?_set_ne h0]; exact h.null
    · simp only [SV.setVar, SV.setBody, List.getElem?_set] at hw
      split at hw
      · first
        | (simp only [Option.some.injEq] at hw; subst hw
           exact ⟨σ.b, pre', t', post', hbod, hd, he⟩)
        | (split at hw
           · simp only [Option.some.injEq] at hw; subst hw
             exact ⟨σ.b, pre', t', post', hbod, hd, he⟩
           · cases hw)
      · rename_i hne
        refine (h.vars w y hw).mono (fun c hc => ?_)
        have hyb : y.body ≠ x.body := fun he' => hne (sole ho.rc ho.var hw he').symm
        simp only [SV.setVar, SV.setBody]
        rw [List.getElem?_set_ne (by omega)]; exact hc
  · intro c hc
    simp only [SV.setVar, SV.setBody] at hc
    rcases List.mem_or_eq_of_mem_set hc with hc | rfl
    · exact hr c hc
    · exact hsz
  · refine ⟨by simp [SV.setVar, SV.setBody, hvl], hbod, hd, he, hs, ?_⟩
    have hrc := ho.rc
    unfold refCount at hrc ⊢
    simp only [SV.setVar]
    rw [hbod]
    simp only [SV.setBody]
    rw [List.countP_set (h := hvl)]
    simp only [ownRef, hs]
    have hgx : s.vars[v] = some x := by
      have := ho.var; rw [List.getElem?_eq_getElem hvl] at this; exact Option.some.inj this
    rw [hgx]
    simp only [holds, beq_self_eq_true, ↓reduceIte]
    have hp : 0 < s.vars.countP (holds x.body) := List.countP_pos_iff.mpr ⟨some x, List.mem_of_getElem? ho.var, by simp [holds]⟩
    simp only [Bool.false_eq_true, ↓reduceIte]
    omega

theorem markBefore_end {s : State} (h : Inv s) {v : Nat} {t : List UCS4} (ht : Txt s v t) : MarkBefore s v t.length := by
  intro y hy
  obtain ⟨x, b, pre, post, hx, hb, hd, -⟩ := ht
  rw [hx] at hy
  cases hy
  have h1 := hd.markIn
  have h2 := hd.off
  simp only at h1 h2
  rcases h1 with h1 | h1
  · left; omega
  · right; exact h1.2

theorem other_txt {s s' : State} (hi : Inv s) (h' : Inv s') {T : Nat → Prop} (hf : Frame s s' T) {w : Nat} (hw : ¬ T w) {a : List UCS4}
    (ht : Txt s w a) : Txt s' w a := by
  have hwl : w < s.vars.length := by
    obtain ⟨x, b, pre, post, hx, -⟩ := ht
    exact get_lt hx
  refine h'.txt ?_
  rw [(hf.same w hwl hw).view hi.ids hwl]
  exact ht.view

theorem txt_var {s : State} {v : Nat} {t : List UCS4} (h : Txt s v t) {x : Var} (hx : s.vars[v]? = some (some x)) :
    ∃ b pre post, s.bodies[x.body]? = some b ∧ Den ⟨b, x.off, x.num, x.mark⟩ pre t post ∧ (t = [] → pre ++ post = []) := by
  obtain ⟨y, b, pre, post, hy, hb, hd, he⟩ := h
  rw [hx] at hy
  cases hy
  exact ⟨b, pre, post, hb, hd, he⟩

theorem bden_inj {b : SBody} {cs ds : List UCS4} (h1 : BDen b cs) (h2 : BDen b ds) : cs = ds := by
  rw [← den_text h1, den_text h2]

/-- `v` either begins its own body or is where it was -/
def Stays (s s' : State) (v : Nat) : Prop :=
  ∀ (x : Var), s.vars[v]? = some (some x) → ∃ x' : Var, s'.vars[v]? = some (some x') ∧
    (x'.off = 0 ∨ (s' = setVar s v x' ∧ x'.body = x.body ∧ x'.off = x.off))

/-- `insert` -/
theorem insert_ok {s : State} (h : Inv s) {v w : Nat} (hne : v ≠ w) {t a : List UCS4} (hv : Txt s v t) (hw : Txt s w a) (pos : Nat)
    (hpos : pos ≤ t.length) (hfront : AtFront s v) (hmark : MarkBefore s v pos) {k : Nat} (hr : Roomy s (k + (encodeAll a).length)) :
    ∃ s', insert s v pos w = .ok s' ∧ Inv s' ∧ Roomy s' k ∧ s'.vars.length = s.vars.length ∧ Txt s' v (splice t pos a) ∧
      AtFront s' v ∧ Stays s s' v := by
  obtain ⟨x, b, pre, post, hx, hb, hd, he⟩ := hv
  obtain ⟨y, c, pre2, post2, hy, hc, hd2, he2⟩ := hw
  have hn := hd.num
  have ho := hd.off
  have hn2 := hd2.num
  have ho2 := hd2.off
  simp only at hn ho hn2 ho2
  have hvl := get_lt hx
  unfold insert
  rw [getVar_ok hx, res_bind_ok, getVar_ok hy, res_bind_ok]
  by_cases hfast : pos = x.num ∧ x.body = y.body ∧ x.off + pos = y.off
  · rw [if_pos (by simp only [Bool.and_eq_true, beq_iff_eq]; exact ⟨⟨hfast.1, hfast.2.1⟩, hfast.2.2⟩)]
    obtain ⟨f1, f2, f3⟩ := hfast
    rw [f2] at hb
    rw [hb] at hc
    cases hc
    have hcs := bden_inj hd.body hd2.body
    have hpt : pos = t.length := by omega
    have hpre2 : pre2 = pre ++ t := by
      have := congrArg (List.take pre2.length) hcs
      rw [List.append_assoc pre2, List.take_left, show pre2.length = (pre ++ t).length by simp; omega, List.take_left] at this
      exact this.symm
    have hpost : post = a ++ post2 := by
      rw [hpre2, List.append_assoc, List.append_assoc, List.append_assoc, List.append_cancel_left_eq, List.append_cancel_left_eq] at hcs
      exact hcs
    have hspl : splice t pos a = t ++ a := by rw [hpt]; simp [splice]
    have hd' : Den ⟨b, x.off, x.num + y.num, x.mark⟩ pre (t ++ a) post2 := by
      have e : pre ++ (t ++ a) ++ post2 = pre ++ t ++ post := by rw [hpost]; simp
      refine ⟨by rw [e]; exact hd.body, hd.off, ?_, by rw [e]; exact hd.mark, ?_⟩
      · simp only [List.length_append]; omega
      · rcases hd.markIn with hm | hm
        · left; simp only [List.length_append]; simp only at hm; omega
        · exact Or.inr hm
    have hemp : t ++ a = [] → pre ++ post2 = [] := by
      intro hta
      obtain ⟨h1, h2⟩ := List.append_eq_nil_iff.mp hta
      have e1 := List.append_eq_nil_iff.mp (he h1)
      have e2 := List.append_eq_nil_iff.mp (he2 h2)
      rw [e1.1, e2.2]; rfl
    have hgood : GoodVar s { x with num := x.num + y.num } := ⟨b, pre, t ++ a, post2, by rw [f2]; exact hb, hd', hemp⟩
    refine ⟨_, rfl, h.setVar v hgood, hr.mono (by omega), by simp [SV.setVar], ?_, ?_, ?_⟩
    · rw [hspl]
      exact ⟨{ x with num := x.num + y.num }, b, pre, post2, by simp [SV.setVar, hvl], by rw [← f2] at hb; exact hb, hd', hemp⟩
    · intro z hz
      right
      have hz' : (SV.setVar s v { x with num := x.num + y.num }).vars[v]? = some (some { x with num := x.num + y.num }) := by
        simp [SV.setVar, hvl]
      rw [hz'] at hz
      cases hz
      exact shared_of_two (v := v) (w := w) hz' (by simp only [SV.setVar]; rw [List.getElem?_set_ne hne]; exact hy) hne f2.symm
    · intro z hz
      rw [hx] at hz
      cases hz
      exact ⟨{ x with num := x.num + y.num }, by simp [SV.setVar, hvl], Or.inr ⟨rfl, rfl, rfl⟩⟩
  · rw [if_neg (by simp only [Bool.and_eq_true, beq_iff_eq]; intro hc'; exact hfast ⟨hc'.1.1, hc'.1.2, hc'.2⟩)]
    obtain ⟨s1, u1, u2, u3, u4, u5⟩ := unshare_spec h hx hb hd he hr
    rw [u1, res_bind_ok, if_neg (by simpa using hne)]
    have hfu := frame_unshare h.ids v u1
    have hw1 : Txt s1 w a := other_txt h u2 hfu (fun h' => hne h'.symm) ⟨y, c, pre2, post2, hy, hc, hd2, he2⟩
    obtain ⟨y1, c1, q1, q2, hy1, hc1, hd1, -⟩ := hw1
    -- the owned string
    obtain ⟨x1, b1, post1, ho1, hm1, hoff⟩ : ∃ x1 b1 post1, Owned s1 v x1 b1 [] t post1 ∧
        (x1.mark.cn ≤ pos ∨ 3221225472 ≤ x1.mark.cn) ∧ x1.off = 0 := by
      have hmk := hmark x hx
      rcases u5 with ⟨r1, r2, r3⟩ | ⟨r1, x1, b1, r2, r3, r4⟩
      · have hoff : x.off = 0 := by rcases hfront x hx with hf' | hf'; exact hf'; omega
        have hpre : pre = [] := List.eq_nil_of_length_eq_zero (by omega)
        subst hpre
        refine ⟨x, b, post, by rw [r2]; exact r3, ?_, hoff⟩
        rw [hoff] at hmk; simpa using hmk
      · refine ⟨x1, b1, [], r2, ?_, r4⟩
        rw [r3]
        have hcap := hd.cap
        rcases Nat.lt_or_ge x.mark.cn x.off with hlt | hge
        · right; rw [wrap_of_neg hlt (by omega)]; omega
        · rcases hmk with hmk | hmk
          · left; rw [wrap_of_nonneg hge (by omega)]; omega
          · rcases hd.markIn with hmi | hmi
            · simp only at hmi; omega
            · have hp0 : x.off = 0 := by rw [ho, hmi.1]; rfl
              right
              rw [hp0]
              rcases hd.mark with hmm | hmm
              · simp only [List.length_append] at hmm; omega
              · have := hmm.2.1
                simp only at this
                rw [wrap_of_nonneg (by omega) this]; omega
    have hsz1 := u3.at ho1.body
    have hnum1 := ho1.den.body.num
    simp only [List.nil_append, encodeAll_append, List.length_append] at hnum1
    obtain ⟨σ', i1, i2, i3⟩ := ho1.den.insertOwn ho1.st _ ho1.rc pos hpos a hd2.good (by omega) hm1
    have hy1n := hd1.num
    simp only at hy1n
    rw [getVar_ok ho1.var, res_bind_ok, getStr_ok ho1.var ho1.body, res_bind_ok, getStr_ok hy1 hc1, res_bind_ok, hd1.bytes, res_bind_ok]
    simp only
    rw [hy1n, i1, res_bind_ok]
    have hsn := i2.body.num
    have hsb : (encodeAll (splice t pos a)).length = (encodeAll t).length + (encodeAll a).length := by
      rw [splice_bytes, encodeAll_split t pos]; simp; omega
    simp only [List.nil_append, encodeAll_append, List.length_append] at hsn
    have hemp : splice t pos a = [] → [] ++ post1 = [] := by
      intro hs
      have hl := congrArg List.length hs
      rw [splice_length t a pos hpos] at hl
      simp only [List.length_nil] at hl
      exact ho1.emp (List.eq_nil_of_length_eq_zero (by omega))
    obtain ⟨s2, p1, p2, p3, p4, p5⟩ := put_spec u2 ho1 (u3.mono (show k ≤ _ by omega)) σ' i2 hemp i3 (by omega)
    refine ⟨s2, p1, p2, p3, by rw [p4, u4], p5.txt, ?_, fun z hz => ⟨_, p5.var, Or.inl (by have := i2.off; simpa using this)⟩⟩
    intro z hz
    have := p5.var
    rw [this] at hz
    cases hz
    left
    have := i2.off
    simpa using this

end Strpp.SV
