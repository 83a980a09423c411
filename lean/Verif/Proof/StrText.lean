import Verif.Model.StrText
import Verif.Proof.StrAppend
set_option linter.unusedVariables false
set_option linter.unusedSimpArgs false
/-! That a string to which borrowed characters are appended does not borrow (C105). -/
namespace Strpp.SV

open Spec Arr

theorem nth_static {σ : Str} {k : Nat} {r : Str × Option Nat} (h : σ.nth k = .ok r) : r.1.b.arr.static = σ.b.arr.static := by
  unfold Str.nth at h
  split at h
  · cases h; rfl
  · obtain ⟨q, h1, h2⟩ := hbind h
    cases h2
    unfold nthChar at h1
    split at h1
    · cases h1; rfl
    · obtain ⟨b', h3, h4⟩ := hbind h1
      have hb : b'.arr.static = σ.b.arr.static := by
        unfold SBody.count at h3
        split at h3
        · obtain ⟨n, -, h5⟩ := hbind h3
          cases h5; rfl
        · cases h3; rfl
      split at h4
      · cases h4
      · obtain ⟨up, -, h6⟩ := hbind h4
        cases h6; exact hb

theorem resize_static {b b' : Arr.Body Byte} {m : Nat} (h : b.resize m = .ok b') : b'.static = b.static := by
  unfold Arr.Body.resize at h
  split at h
  · cases h; rfl
  · split at h
    · cases h
    · obtain ⟨_, -, h⟩ := hbind h
      obtain ⟨_, -, h⟩ := hbind h
      cases h; rfl

theorem bodyInsert_static {rc : Nat} {b b' : Arr.Body Byte} {pos : Nat} {es : List Byte} (h : b.insert rc pos es = .ok b') :
    b'.static = b.static := by
  unfold Arr.Body.insert at h
  obtain ⟨_, -, h⟩ := hbind h
  split at h
  · cases h; rfl
  · obtain ⟨_, -, h⟩ := hbind h
    obtain ⟨_, -, h⟩ := hbind h
    obtain ⟨c, h1, h⟩ := hbind h
    obtain ⟨_, -, h⟩ := hbind h
    obtain ⟨_, -, h⟩ := hbind h
    cases h
    show c.static = _
    exact resize_static h1

theorem insertOwn_static {rc : Nat} {σ σ' : Str} {pos : Nat} {ab : List Byte} {an : Nat} (h : σ.insertOwn rc pos ab an = .ok σ') :
    σ'.b.arr.static = σ.b.arr.static := by
  unfold Str.insertOwn at h
  obtain ⟨r, h1, h⟩ := hbind h
  simp only at h
  obtain ⟨r', h2, h⟩ := hbind h
  obtain ⟨a, -, h⟩ := hbind h
  obtain ⟨z, -, h⟩ := hbind h
  obtain ⟨arr, h3, h⟩ := hbind h
  cases h
  show arr.static = _
  rw [bodyInsert_static h3, nth_static h2, nth_static h1]

/-- appending a string on borrowed data leaves the changed one in memory of its own -/
theorem addEq_own {s s' : State} (h : Inv s) {v w : Nat} {t : List UCS4} (hv : Txt s v t) {k : Nat} (hr : Roomy s k) {y : Var} {c : SBody}
    (hy : s.vars[w]? = some (some y)) (hc : s.bodies[y.body]? = some c) (hst : c.isStatic = true)
    (hsep : ∀ x, s.vars[v]? = some (some x) → x.body ≠ y.body) (he : addEq s v w = .ok s') :
    ∃ x b, s'.vars[v]? = some (some x) ∧ s'.bodies[x.body]? = some b ∧ b.arr.static = false := by
  obtain ⟨x, b, pre, post, hx, hb, hd, hemp⟩ := hv
  unfold addEq at he
  rw [getVar_ok hx, res_bind_ok, getVar_ok hy, res_bind_ok, getBody_ok hc, res_bind_ok, if_neg (by simp [hst])] at he
  unfold insert at he
  rw [getVar_ok hx, res_bind_ok, getVar_ok hy, res_bind_ok,
    if_neg (by
      intro hh
      simp only [Bool.and_eq_true, beq_iff_eq] at hh
      exact hsep x hx hh.1.2)] at he
  obtain ⟨s1, hu, he⟩ := hbind he
  obtain ⟨s1', e1, i1, r1, l1, o1⟩ := unshare_spec h hx hb hd hemp hr
  rw [e1] at hu
  cases hu
  have ho : ∃ x' b' pre' post', Owned s1 v x' b' pre' t post' := by
    rcases o1 with ⟨-, hs1, ho⟩ | ⟨-, x', b', ho, -⟩
    · exact ⟨_, _, _, _, by rw [hs1]; exact ho⟩
    · exact ⟨_, _, _, _, ho⟩
  obtain ⟨x', b', pre', post', ho⟩ := ho
  split at he
  · cases he
  · rw [getVar_ok ho.var, res_bind_ok, getStr_ok ho.var ho.body, res_bind_ok] at he
    obtain ⟨τ, -, he⟩ := hbind he
    obtain ⟨ab, -, he⟩ := hbind he
    obtain ⟨σ', h1, he⟩ := hbind he
    have hs := insertOwn_static h1
    unfold putStr at he
    rw [getVar_ok ho.var, res_bind_ok] at he
    cases he
    have hvl := get_lt ho.var
    have hbl := get_lt ho.body
    refine ⟨⟨x'.body, σ'.off, σ'.num, σ'.mark⟩, σ'.b, ?_, ?_, by rw [hs]; exact ho.st⟩
    · simp [SV.setVar, SV.setBody, hvl]
    · simp [SV.setVar, SV.setBody, hbl]

theorem count_arr {b b' : SBody} (h : b.count = .ok b') : b'.arr = b.arr := by
  unfold SBody.count at h
  split at h
  · obtain ⟨n, -, h⟩ := hbind h
    cases h; rfl
  · cases h; rfl

/-- a new variable on borrowed data -/
theorem newStatic_var {s s' : State} {d : List Byte} (hd : d ≠ []) (h : newStatic s d = .ok s') :
    ∃ y c, s'.vars[s.vars.length]? = some (some y) ∧ y.body = s.bodies.length ∧ s'.bodies[y.body]? = some c ∧ c.isStatic = true ∧
      s'.bodies.length = s.bodies.length + 1 := by
  unfold newStatic at h
  obtain ⟨σ, h1, h⟩ := hbind h
  cases h
  refine ⟨⟨s.bodies.length, σ.off, σ.num, σ.mark⟩, σ.b, by simp [newStr, SV.newVar, SV.addBody], rfl, by simp [newStr, SV.newVar, SV.addBody], ?_,
    by simp [newStr, SV.newVar, SV.addBody]⟩
  unfold Str.ofBody at h1
  obtain ⟨b', h2, h1⟩ := hbind h1
  cases h1
  show SBody.isStatic b' = true
  unfold SBody.isStatic
  rw [count_arr h2]
  have : 0 < d.length := List.length_pos_iff.mpr hd
  simp [staticBody, Arr.Body.ofStatic]
  exact this

/-- the body of a new variable is the null body or a new one -/
theorem newData_body {s s' : State} {mem : List Byte} {p l a : Nat} (h : newData s mem p l a = .ok s') :
    ∀ x, s'.vars[s.vars.length]? = some (some x) → x.body = 0 ∨ x.body = s.bodies.length := by
  intro x hx
  unfold newData at h
  split at h
  · cases h
    simp [newEmpty, SV.newVar] at hx
    left; rw [← hx]
  · obtain ⟨b, -, h⟩ := hbind h
    obtain ⟨σ, -, h⟩ := hbind h
    cases h
    simp [newStr, SV.newVar, SV.addBody] at hx
    right; rw [← hx]

end Strpp.SV
