import Verif.Spec.StrBorrow
import Verif.Proof.StrText
set_option linter.unusedVariables false
set_option linter.unusedSimpArgs false
/-! Which calls make strings that borrow (C106). -/
namespace Strpp.SV

open Spec Arr

/-- `v` is on a body with memory of its own -/
def Own (s : State) (v : Nat) : Prop := ∃ x b, s.vars[v]? = some (some x) ∧ s.bodies[x.body]? = some b ∧ b.arr.static = false

theorem Own.not {s : State} {v : Nat} (h : Own s v) : ¬ Borrows s v := by
  obtain ⟨x, b, h1, h2, h3⟩ := h
  rintro ⟨x', b', g1, -, g2, g3⟩
  rw [h1] at g1; cases g1
  rw [h2] at g2; cases g2
  rw [h3] at g3; cases g3

theorem getVar_inv {s : State} {v : Nat} {x : Var} (h : getVar s v = .ok x) : s.vars[v]? = some (some x) := by
  unfold getVar at h
  split at h
  · cases h; assumption
  · cases h

theorem getBody_inv {s : State} {i : Nat} {b : SBody} (h : getBody s i = .ok b) : s.bodies[i]? = some b := by
  unfold getBody at h
  split at h
  · cases h; assumption
  · cases h

theorem getStr_inv {s : State} {v : Nat} {σ : Str} (h : getStr s v = .ok σ) :
    ∃ x, s.vars[v]? = some (some x) ∧ s.bodies[x.body]? = some σ.b ∧ σ.off = x.off ∧ σ.num = x.num := by
  unfold getStr at h
  obtain ⟨x, h1, h⟩ := hbind h
  obtain ⟨b, h2, h⟩ := hbind h
  cases h
  exact ⟨x, getVar_inv h1, getBody_inv h2, rfl, rfl⟩

theorem mkBody_static {mem : List Byte} {p l a : Nat} {b : SBody} (h : mkBody mem p l a = .ok b) : b.arr.static = false := by
  unfold mkBody at h
  obtain ⟨_, -, h⟩ := hbind h
  obtain ⟨_, -, h⟩ := hbind h
  obtain ⟨arr, h1, h⟩ := hbind h
  obtain ⟨_, -, h⟩ := hbind h
  cases h
  unfold Arr.Body.ofData at h1
  obtain ⟨c, h2, h1⟩ := hbind h1
  obtain ⟨_, -, h1⟩ := hbind h1
  cases h1
  exact resize_static h2

theorem copyBody_static {σ σ' : Str} (h : σ.copyBody = .ok σ') : σ'.b.arr.static = false := by
  unfold Str.copyBody at h
  obtain ⟨_, -, h⟩ := hbind h
  obtain ⟨_, -, h⟩ := hbind h
  obtain ⟨_, -, h⟩ := hbind h
  obtain ⟨_, -, h⟩ := hbind h
  obtain ⟨b, hb, h⟩ := hbind h
  cases h
  exact mkBody_static hb

theorem ownStr_own {s : State} {v : Nat} {x : Var} (hv : s.vars[v]? = some (some x)) {σ : Str} (h : σ.b.arr.static = false) : Own (ownStr s v σ) v := by
  have := get_lt hv
  exact ⟨⟨s.bodies.length, σ.off, σ.num, σ.mark⟩, σ.b, by simp [ownStr, SV.setVar, SV.addBody, this], by simp [ownStr, SV.setVar, SV.addBody], h⟩

theorem newStr_own {s : State} {σ : Str} (h : σ.b.arr.static = false) : Own (newStr s σ) s.vars.length :=
  ⟨⟨s.bodies.length, σ.off, σ.num, σ.mark⟩, σ.b, by simp [newStr, SV.newVar, SV.addBody], by simp [newStr, SV.newVar, SV.addBody], h⟩

theorem putStr_own {s s' : State} {v : Nat} {σ : Str} (hi : Ids s) (h : σ.b.arr.static = false) (hp : putStr s v σ = .ok s') : Own s' v := by
  unfold putStr at hp
  obtain ⟨x, h1, hp⟩ := hbind hp
  cases hp
  have hx := getVar_inv h1
  have h2 := get_lt hx
  have h3 := hi v x hx
  exact ⟨⟨x.body, σ.off, σ.num, σ.mark⟩, σ.b, by simp [SV.setVar, SV.setBody, h2], by simp [SV.setVar, SV.setBody, h3], h⟩

theorem unshare_own {s s' : State} {v : Nat} (h : unshare s v = .ok s') : Own s' v := by
  unfold unshare at h
  obtain ⟨x, h1, h⟩ := hbind h
  obtain ⟨σ, h2, h⟩ := hbind h
  obtain ⟨m, h3, h⟩ := hbind h
  have hx := getVar_inv h1
  obtain ⟨x', hx', hb, -, -⟩ := getStr_inv h2
  rw [hx] at hx'
  cases hx'
  split at h
  · obtain ⟨σ', h4, h⟩ := hbind h
    cases h
    exact ownStr_own hx (copyBody_static h4)
  · rename_i hc
    cases h
    refine ⟨x, σ.b, hx, hb, ?_⟩
    cases hs : σ.b.arr.static with
    | false => rfl
    | true =>
      have := static_shared hx hb hs
      simp only [Bool.or_eq_true, decide_eq_true_eq, not_or] at hc
      exact absurd this hc.2

theorem insert_borrow {s s' : State} {v pos w : Nat} (hi : Ids s) (h : insert s v pos w = .ok s') :
    Own s' v ∨ ∃ x y, s.vars[v]? = some (some x) ∧ s.vars[w]? = some (some y) ∧ pos = x.num ∧ x.body = y.body ∧ x.off + pos = y.off ∧
      s' = setVar s v { x with num := x.num + y.num } := by
  unfold insert at h
  obtain ⟨x, h1, h⟩ := hbind h
  obtain ⟨y, h2, h⟩ := hbind h
  split at h
  · rename_i hc
    simp only [Bool.and_eq_true, beq_iff_eq] at hc
    cases h
    exact Or.inr ⟨x, y, getVar_inv h1, getVar_inv h2, hc.1.1, hc.1.2, hc.2, rfl⟩
  · left
    obtain ⟨s1, h3, h⟩ := hbind h
    have ho := unshare_own h3
    have hi1 := (frame_unshare hi v h3).ids
    split at h
    · cases h
    · obtain ⟨x', h4, h⟩ := hbind h
      obtain ⟨σ, h5, h⟩ := hbind h
      obtain ⟨τ, -, h⟩ := hbind h
      obtain ⟨ab, -, h⟩ := hbind h
      obtain ⟨σ', h6, h⟩ := hbind h
      refine putStr_own hi1 ?_ h
      rw [insertOwn_static h6]
      obtain ⟨x1, b1, o1, o2, o3⟩ := ho
      obtain ⟨x2, g1, g2, -, -⟩ := getStr_inv h5
      rw [o1] at g1; cases g1
      rw [o2] at g2; cases g2
      exact o3

theorem setVar_borrows {s : State} {v : Nat} {x y : Var} (hv : s.vars[v]? = some (some x)) (he : y.body = x.body) :
    Borrows (setVar s v y) v → Borrows s v := by
  rintro ⟨z, b, h1, h2, h3, h4⟩
  have := get_lt hv
  simp [SV.setVar, this] at h1
  subst h1
  exact ⟨x, b, hv, by rw [← he]; exact h2, by rw [← he]; exact h3, h4⟩

theorem assign_borrows {s s' : State} {v w : Nat} (h : assign s v w = .ok s') : Borrows s' v ↔ Borrows s w := by
  unfold assign at h
  obtain ⟨x0, h1, h⟩ := hbind h
  obtain ⟨x, h2, h⟩ := hbind h
  cases h
  have hl := get_lt (getVar_inv h1)
  have hw := getVar_inv h2
  constructor
  · rintro ⟨z, b, g1, g2, g3, g4⟩
    simp [SV.setVar, hl] at g1
    subst g1
    exact ⟨x, b, hw, g2, g3, g4⟩
  · rintro ⟨z, b, g1, g2, g3, g4⟩
    rw [hw] at g1; cases g1
    exact ⟨x, b, by simp [SV.setVar, hl], g2, g3, g4⟩

/-- the body of `v` is borrowed as `isStatic` (include/strval.h:88) tells -/
def Plain (s : State) (v : Nat) : Prop :=
  ∀ x b, s.vars[v]? = some (some x) → s.bodies[x.body]? = some b → b.arr.static = true → b.isStatic = true

theorem plain_of {s : State} (hi : Inv s) (v : Nat) : Plain s v := by
  intro x b h1 h2 h3
  obtain ⟨b2, pre, t, post, k1, k2, -⟩ := hi.vars v x h1
  rw [h2] at k1; cases k1
  rw [isStatic_iff k2.body, h3]

theorem Own.plain {s : State} {v : Nat} (h : Own s v) : Plain s v := by
  obtain ⟨x, b, h1, h2, h3⟩ := h
  intro x' b' g1 g2 g3
  rw [h1] at g1; cases g1
  rw [h2] at g2; cases g2
  rw [h3] at g3; cases g3

theorem plain_same {s s' : State} {v : Nat} (hi : Ids s) (hv : v < s.vars.length) (h : Same s s' v) (hp : Plain s v) : Plain s' v := by
  intro x b h1 h2 h3
  cases hx : s.vars[v]? with
  | none => rw [List.getElem?_eq_none_iff] at hx; omega
  | some o =>
    cases o with
    | none => rw [h.1 hx] at h1; cases h1
    | some x0 =>
      obtain ⟨x1, a1, a2, -, -, a5⟩ := h.2 x0 hx
      rw [h1] at a1; cases a1
      have hl := hi v x0 hx
      obtain ⟨b1, c1, c2⟩ := a5 s.bodies[x0.body] (by rw [List.getElem?_eq_getElem hl])
      rw [a2, c1] at h2; cases h2
      have := hp x0 _ hx (List.getElem?_eq_getElem hl) (by rw [← c2]; exact h3)
      unfold SBody.isStatic at this ⊢
      rw [c2]; exact this

theorem borrows_same {s s' : State} {v : Nat} (hi : Ids s) (hv : v < s.vars.length) (h : Same s s' v) : Borrows s' v ↔ Borrows s v := by
  constructor
  · rintro ⟨x, b, h1, h0, h2, h3⟩
    cases hx : s.vars[v]? with
    | none => rw [List.getElem?_eq_none_iff] at hx; omega
    | some o =>
      cases o with
      | none => rw [h.1 hx] at h1; cases h1
      | some x0 =>
        obtain ⟨x1, a1, a2, -, -, a5⟩ := h.2 x0 hx
        rw [h1] at a1; cases a1
        have hl := hi v x0 hx
        obtain ⟨b1, c1, c2⟩ := a5 s.bodies[x0.body] (by rw [List.getElem?_eq_getElem hl])
        rw [a2, c1] at h2; cases h2
        exact ⟨x0, _, hx, by rw [← a2]; exact h0, List.getElem?_eq_getElem hl, by rw [← c2]; exact h3⟩
  · rintro ⟨x, b, h1, h0, h2, h3⟩
    obtain ⟨x1, a1, a2, -, -, a5⟩ := h.2 x h1
    obtain ⟨b1, c1, c2⟩ := a5 b h2
    exact ⟨x1, b1, a1, by rw [a2]; exact h0, by rw [a2]; exact c1, by rw [c2]; exact h3⟩

/-- `v += w`: the result borrows only if `v` did and `w` is the part that follows -/
theorem addEq_borrows {s s' : State} {v w : Nat} (hi : Ids s) (hp : Plain s w) (h : addEq s v w = .ok s') (hb : Borrows s' v) :
    Borrows s v ∧ Neighbours s v w := by
  unfold addEq at h
  obtain ⟨x, h1, h⟩ := hbind h
  obtain ⟨y, h2, h⟩ := hbind h
  obtain ⟨b, h3, h⟩ := hbind h
  split at h
  · rename_i hc
    simp only [Bool.and_eq_true, beq_iff_eq, Bool.not_eq_true'] at hc
    obtain ⟨y', b', g1, g2, g3, g4⟩ := (assign_borrows h).mp hb
    have hy := getVar_inv h2
    rw [hy] at g1; cases g1
    rw [getBody_inv h3] at g3; cases g3
    rw [hp y b hy (getBody_inv h3) g4] at hc
    exact absurd hc.2 (by simp)
  · rcases insert_borrow hi h with ho | ⟨x', y', k1, k2, k3, k4, k5, k6⟩
    · exact absurd hb ho.not
    · subst k6
      rw [getVar_inv h1] at k1
      cases k1
      exact ⟨setVar_borrows (y := { x with num := x.num + y'.num }) (getVar_inv h1) rfl hb, x, y', getVar_inv h1, k2, k4, k5⟩

theorem insert_borrows {s s' : State} {v pos w : Nat} (hi : Ids s) (h : insert s v pos w = .ok s') (hb : Borrows s' v) :
    Borrows s v ∧ Neighbours s v w := by
  rcases insert_borrow hi h with ho | ⟨x', y', k1, k2, k3, k4, k5, k6⟩
  · exact absurd hb ho.not
  · subst k6
    exact ⟨setVar_borrows (y := { x' with num := x'.num + y'.num }) k1 rfl hb, x', y', k1, k2, k4, by rw [← k3]; exact k5⟩

theorem newEmpty_not {s : State} : ¬ Borrows (newEmpty s) s.vars.length := by
  rintro ⟨x, b, h1, h0, -⟩
  simp [newEmpty, SV.newVar] at h1
  exact h0 (by rw [← h1])

theorem ofBody_arr {b : SBody} {σ : Str} (h : Str.ofBody b = .ok σ) : σ.b.arr = b.arr := by
  unfold Str.ofBody at h
  obtain ⟨b', h2, h⟩ := hbind h
  cases h
  exact count_arr h2

theorem newC_not {s s' : State} {mem : List Byte} (h : newC s mem = .ok s') : ¬ Borrows s' s.vars.length := by
  unfold newC at h
  obtain ⟨c, -, h⟩ := hbind h
  split at h
  · cases h; exact newEmpty_not
  · obtain ⟨b, h1, h⟩ := hbind h
    obtain ⟨σ, h2, h⟩ := hbind h
    cases h
    exact (newStr_own (by rw [ofBody_arr h2]; exact mkBody_static h1)).not

theorem newData_not {s s' : State} {mem : List Byte} {p l a : Nat} (h : newData s mem p l a = .ok s') : ¬ Borrows s' s.vars.length := by
  unfold newData at h
  split at h
  · cases h; exact newEmpty_not
  · obtain ⟨b, h1, h⟩ := hbind h
    obtain ⟨σ, h2, h⟩ := hbind h
    cases h
    exact (newStr_own (by rw [ofBody_arr h2]; exact mkBody_static h1)).not

theorem newChar_not {s s' : State} {c : UCS4} (h : newChar s c = .ok s') : ¬ Borrows s' s.vars.length := by
  unfold newChar at h
  obtain ⟨b, h1, h⟩ := hbind h
  cases h
  exact (newStr_own (mkBody_static h1)).not

theorem copy_not {s s' : State} {w : Nat} (hp : Plain s w) (h : copy s w = .ok s') : ¬ Borrows s' s.vars.length := by
  unfold copy at h
  obtain ⟨x, h1, h⟩ := hbind h
  obtain ⟨b, h2, h⟩ := hbind h
  simp only at h
  split at h
  · exact (unshare_own h).not
  · rename_i hc
    cases h
    rintro ⟨z, c, g1, g0, g2, g3⟩
    simp [SV.newVar] at g1
    subst g1
    simp only [SV.newVar] at g2
    rw [getBody_inv h2] at g2; cases g2
    exact hc (hp x b (getVar_inv h1) (getBody_inv h2) g3)

theorem transStep_static {S : Type} {x : XForm S} {rc : Nat} {old : List Byte} {ep : Nat} {after : Int} {t t' : TState S}
    (h : transStep x rc old ep after t = .ok t') : t'.out.arr.static = t.out.arr.static := by
  unfold transStep at h
  split at h
  · unfold xformStep at h
    obtain ⟨_, -, h⟩ := hbind h
    obtain ⟨r, -, h⟩ := hbind h
    simp only at h
    obtain ⟨_, -, h⟩ := hbind h
    obtain ⟨_, -, h⟩ := hbind h
    obtain ⟨arr, h1, h⟩ := hbind h
    cases h
    exact bodyInsert_static h1
  · unfold copyStep at h
    obtain ⟨_, -, h⟩ := hbind h
    obtain ⟨arr, h1, h⟩ := hbind h
    obtain ⟨_, -, h⟩ := hbind h
    cases h
    show arr.static = _
    unfold room at h1
    split at h1
    · exact resize_static h1
    · cases h1; rfl

theorem transLoop_static {S : Type} {x : XForm S} {rc : Nat} {old : List Byte} {ep : Nat} {after : Int} : ∀ {n : Nat} {t t' : TState S},
    transLoop x rc old ep after n t = .ok t' → t'.out.arr.static = t.out.arr.static := by
  intro n
  induction n with
  | zero => intro t t' h; cases h
  | succ n ih =>
    intro t t' h
    unfold transLoop at h
    split at h
    · obtain ⟨t1, h1, h⟩ := hbind h
      rw [ih h, transStep_static h1]
    · cases h; rfl

theorem bodyTransform_static {S : Type} {x : XForm S} {st : S} {rc : Nat} {b : SBody} {a : Int} {r : S × SBody}
    (h : b.transform x st rc a = .ok r) : r.2.arr.static = false := by
  unfold SBody.transform at h
  obtain ⟨_, -, h⟩ := hbind h
  obtain ⟨arr, h1, h⟩ := hbind h
  obtain ⟨t, h2, h⟩ := hbind h
  obtain ⟨arr2, h3, h⟩ := hbind h
  split at h
  · cases h
  · cases h
    show arr2.static = false
    rw [bodyInsert_static h3, transLoop_static h2]
    exact resize_static h1

theorem showAll_arr {σ σ' : Str} {b : SBody} (h : σ.showAll b = .ok σ') : σ'.b.arr = b.arr := by
  unfold Str.showAll at h
  obtain ⟨b', h1, h⟩ := hbind h
  cases h
  exact count_arr h1

theorem transform_own {S : Type} {s s' : State} {v : Nat} {x : XForm S} {st : S} {a : Int} (hi : Ids s) (h : transform s v x st a = .ok s') :
    Own s' v := by
  unfold transform at h
  obtain ⟨s1, h1, h⟩ := hbind h
  obtain ⟨y, -, h⟩ := hbind h
  obtain ⟨σ, -, h⟩ := hbind h
  obtain ⟨r, h2, h⟩ := hbind h
  obtain ⟨σ', h3, h⟩ := hbind h
  exact putStr_own (frame_unshare hi v h1).ids (by
    show σ'.b.arr.static = false
    rw [showAll_arr h3]; exact bodyTransform_static h2) h

theorem toCase_own {s s' : State} {v : Nat} {conv : Int → UCS4 → Res (UCS4 × Option Int)} {m : Int} (hi : Ids s)
    (h : toCase s v conv m = .ok s') : Own s' v := by
  unfold toCase at h
  obtain ⟨s1, h1, h⟩ := hbind h
  obtain ⟨y, -, h⟩ := hbind h
  obtain ⟨σ, -, h⟩ := hbind h
  obtain ⟨b, h2, h⟩ := hbind h
  obtain ⟨σ', h3, h⟩ := hbind h
  refine putStr_own (frame_unshare hi v h1).ids ?_ h
  rw [showAll_arr h3]
  unfold SBody.toCase at h2
  obtain ⟨r, h4, h2⟩ := hbind h2
  have := bodyTransform_static h4
  cases h2
  split <;> exact this

theorem asUTF8_borrows {s s' : State} {v : Nat} (h : asUTF8 s v = .ok s') (hb : Borrows s' v) : Borrows s v ∧ s' = s := by
  unfold asUTF8 at h
  obtain ⟨σ, h1, h⟩ := hbind h
  obtain ⟨r, h2, h⟩ := hbind h
  obtain ⟨x, hx, -⟩ := getStr_inv h1
  split at h
  · obtain ⟨σ', h3, h⟩ := hbind h
    cases h
    exact absurd hb (ownStr_own hx (copyBody_static h3)).not
  · cases h; exact ⟨hb, rfl⟩

theorem substr_borrows {s s' : State} {w a : Nat} {l : Int} (h : substr s w a l = .ok s') (hb : Borrows s' s.vars.length) : Borrows s w := by
  unfold substr at h
  obtain ⟨x, h1, h⟩ := hbind h
  split at h
  · unfold newNull at h
    exact absurd hb (unshare_own h).not
  · cases h
    obtain ⟨z, b, g1, g2, g3, g4⟩ := hb
    simp [SV.newVar] at g1
    subst g1
    exact ⟨x, b, getVar_inv h1, g2, g3, g4⟩

theorem addEqChar_not {s s' : State} {v : Nat} {c : UCS4} (hi : Ids s) (hv : v < s.vars.length)
    (h : addEqChar s v c = .ok s') : ¬ Borrows s' v := by
  unfold addEqChar at h
  obtain ⟨s1, h1, h⟩ := hbind h
  obtain ⟨s2, h2, h⟩ := hbind h
  have f1 := frame_newStatic hi _ h1
  obtain ⟨y, cb, hy, hyb, hcb, hst, hbl⟩ := newStatic_var (by simp) h1
  have f3 := frame_destroy (frame_addEq f1.ids _ _ h2).ids _ h
  intro hb
  have hv1 : v < s1.vars.length := by have := f1.vl; omega
  have f2 := frame_addEq f1.ids _ _ h2
  have hb2 := (borrows_same f2.ids (by have := f2.vl; omega) (f3.same v (by have := f2.vl; omega) (fun e : _ = _ => by omega))).mp hb
  obtain ⟨-, x, y', k1, k2, k3, -⟩ := addEq_borrows f1.ids (by
    intro x b g1 g2 _
    rw [hy] at g1; cases g1
    rw [hcb] at g2; cases g2
    exact hst) h2 hb2
  rw [hy] at k2; cases k2
  cases hx : s.vars[v]? with
  | none => rw [List.getElem?_eq_none_iff] at hx; omega
  | some o =>
    cases o with
    | none => rw [(f1.same v hv (fun hh => hh)).1 hx] at k1; cases k1
    | some x0 =>
      obtain ⟨x1, a1, a2, -⟩ := (f1.same v hv (fun hh => hh)).2 x0 hx
      rw [k1] at a1; cases a1
      have := hi v x0 hx
      omega

theorem plus_borrows {s s' : State} {v w : Nat} (hi : Ids s) (h0 : 0 < s.bodies.length) (hp : Plain s w) (hw : w < s.vars.length)
    (h : plus s v w = .ok s') (hb : Borrows s' s.vars.length) : Borrows s v ∧ Neighbours s v w := by
  unfold plus at h
  obtain ⟨x, h1, h⟩ := hbind h
  obtain ⟨y, h2, h⟩ := hbind h
  split at h
  · rename_i hc
    simp only [Bool.and_eq_true, beq_iff_eq] at hc
    cases h
    obtain ⟨z, b, g1, g2, g3, g4⟩ := hb
    simp [SV.newVar] at g1
    subst g1
    exact ⟨⟨x, b, getVar_inv h1, g2, g3, g4⟩, x, y, getVar_inv h1, getVar_inv h2, hc.1, hc.2⟩
  · obtain ⟨σ, -, h⟩ := hbind h
    obtain ⟨τ, -, h⟩ := hbind h
    obtain ⟨_, -, h⟩ := hbind h
    obtain ⟨_, -, h⟩ := hbind h
    obtain ⟨_, -, h⟩ := hbind h
    obtain ⟨_, -, h⟩ := hbind h
    obtain ⟨s1, h3, h⟩ := hbind h
    have f1 := frame_newData hi h0 _ _ _ _ h3
    obtain ⟨hh, -⟩ := addEq_borrows f1.ids (plain_same hi hw (f1.same w hw (fun hh => hh)) hp) h hb
    exact absurd hh (newData_not h3)

theorem timesLoop_not {r v : Nat} (hne : r ≠ v) : ∀ {n : Nat} {s s' : State}, Ids s → v < s.vars.length → Plain s v → ¬ Borrows s r →
    timesLoop s r v n = .ok s' → ¬ Borrows s' r := by
  intro n
  induction n with
  | zero => intro s s' _ _ _ hb h; cases h; exact hb
  | succ n ih =>
    intro s s' hi hv hp hb h
    unfold timesLoop at h
    obtain ⟨s1, h1, h⟩ := hbind h
    have f := frame_addEq hi _ _ h1
    exact ih f.ids (by have := f.vl; omega) (plain_same hi hv (f.same v hv (fun e : _ = _ => hne e.symm)) hp)
      (fun hh => hb (addEq_borrows hi hp h1 hh).1) h

theorem setVar_plain {s : State} {v w : Nat} {x y : Var} (hv : v < s.vars.length) (hw : s.vars[w]? = some (some y)) (he : x.body = y.body)
    (hp : Plain s w) : Plain (setVar s v x) v := by
  intro z b g1 g2 g3
  simp [SV.setVar, hv] at g1
  subst g1
  exact hp y b hw (by rw [← he]; exact g2) g3

theorem addEq_plain {s s' : State} {v w : Nat} (hi : Ids s) (hp : Plain s w) (h : addEq s v w = .ok s') : Plain s' v := by
  unfold addEq at h
  obtain ⟨x, h1, h⟩ := hbind h
  obtain ⟨y, h2, h⟩ := hbind h
  obtain ⟨b, h3, h⟩ := hbind h
  have hvl := get_lt (getVar_inv h1)
  split at h
  · unfold assign at h
    obtain ⟨x0, -, h⟩ := hbind h
    obtain ⟨x1, k2, h⟩ := hbind h
    cases h
    exact setVar_plain hvl (getVar_inv k2) rfl hp
  · rcases insert_borrow hi h with ho | ⟨x', y', k1, k2, k3, k4, k5, k6⟩
    · exact ho.plain
    · subst k6
      exact setVar_plain (x := { x' with num := x'.num + y'.num }) hvl k2 k4 hp

theorem plus_plain {s s' : State} {v w : Nat} (hi : Ids s) (h0 : 0 < s.bodies.length) (hp : Plain s w) (hw : w < s.vars.length)
    (h : plus s v w = .ok s') : Plain s' s.vars.length := by
  unfold plus at h
  obtain ⟨x, h1, h⟩ := hbind h
  obtain ⟨y, h2, h⟩ := hbind h
  split at h
  · rename_i hc
    simp only [Bool.and_eq_true, beq_iff_eq] at hc
    cases h
    intro z b g1 g2 g3
    simp [SV.newVar] at g1
    subst g1
    exact hp y b (getVar_inv h2) (by rw [← hc.1]; exact g2) g3
  · obtain ⟨σ, -, h⟩ := hbind h
    obtain ⟨τ, -, h⟩ := hbind h
    obtain ⟨_, -, h⟩ := hbind h
    obtain ⟨_, -, h⟩ := hbind h
    obtain ⟨_, -, h⟩ := hbind h
    obtain ⟨_, -, h⟩ := hbind h
    obtain ⟨s1, h3, h⟩ := hbind h
    have f1 := frame_newData hi h0 _ _ _ _ h3
    exact addEq_plain f1.ids (plain_same hi hw (f1.same w hw (fun hh => hh)) hp) h

theorem plus_len {s s' : State} {v w : Nat} (h : plus s v w = .ok s') (hi : Ids s) (h0 : 0 < s.bodies.length) : s.vars.length < s'.vars.length := by
  unfold plus at h
  obtain ⟨x, h1, h⟩ := hbind h
  obtain ⟨y, h2, h⟩ := hbind h
  split at h
  · cases h; simp [SV.newVar]
  · obtain ⟨σ, -, h⟩ := hbind h
    obtain ⟨τ, -, h⟩ := hbind h
    obtain ⟨_, -, h⟩ := hbind h
    obtain ⟨_, -, h⟩ := hbind h
    obtain ⟨_, -, h⟩ := hbind h
    obtain ⟨_, -, h⟩ := hbind h
    obtain ⟨s1, h3, h⟩ := hbind h
    unfold addEq at h
    obtain ⟨z, k1, h⟩ := hbind h
    have := get_lt (getVar_inv k1)
    have f1 := frame_newData hi h0 _ _ _ _ h3
    have f2 := frame_addEq f1.ids s.vars.length w (s' := s') (by unfold addEq; rw [k1, res_bind_ok]; exact h)
    have := f2.vl
    omega

theorem asUTF8_len {s s' : State} {v : Nat} (h : asUTF8 s v = .ok s') : s'.vars.length = s.vars.length := by
  unfold asUTF8 at h
  obtain ⟨σ, -, h⟩ := hbind h
  obtain ⟨r, -, h⟩ := hbind h
  split at h
  · obtain ⟨σ', -, h⟩ := hbind h
    cases h
    simp [ownStr, SV.setVar, SV.addBody]
  · cases h; rfl

theorem newData_len {s s' : State} {mem : List Byte} {p l a : Nat} (h : newData s mem p l a = .ok s') : s'.vars.length = s.vars.length + 1 := by
  unfold newData at h
  split at h
  · cases h; simp [newEmpty, SV.newVar]
  · obtain ⟨_, -, h⟩ := hbind h
    obtain ⟨_, -, h⟩ := hbind h
    cases h
    simp [newStr, SV.newVar, SV.addBody]

theorem joinLoop_not {r j : Nat} : ∀ {ws : List Nat} {s s' : State}, Ids s → 0 < s.bodies.length → r < s.vars.length →
    (∀ w ∈ ws, w < s.vars.length ∧ w ≠ r ∧ Plain s w) → ¬ Borrows s r → joinLoop s r j ws = .ok s' → ¬ Borrows s' r := by
  intro ws
  induction ws with
  | nil => intro s s' _ _ _ _ hb h; cases h; exact hb
  | cons w ws ih =>
    intro s s' hi h0 hr hw hb h
    unfold joinLoop at h
    simp only at h
    obtain ⟨s1, h1, h⟩ := hbind h
    obtain ⟨s2, h2, h⟩ := hbind h
    obtain ⟨s3, h3, h⟩ := hbind h
    obtain ⟨w1, w2, w3⟩ := hw w (List.mem_cons_self ..)
    have f1 := frame_plus hi h0 _ _ h1
    have p1 := plus_plain hi h0 w3 w1 h1
    have f2 := frame_addEq f1.ids _ _ h2
    have f3 := frame_destroy f2.ids _ h3
    have v1 := f1.vl
    have v2 := f2.vl
    have v3 := f3.vl
    have b1 := f1.bl
    have b2 := f2.bl
    have b3 := f3.bl
    refine ih f3.ids (by omega) (by omega) (fun u hu => ?_) ?_ h
    · obtain ⟨u1, u2, u3⟩ := hw u (List.mem_cons_of_mem _ hu)
      refine ⟨by omega, u2, ?_⟩
      exact plain_same f2.ids (by omega) (f3.same u (by omega) (fun e : _ = _ => by omega))
        (plain_same f1.ids (by omega) (f2.same u (by omega) (fun e : _ = _ => u2 e))
          (plain_same hi u1 (f1.same u u1 (fun e => e)) u3))
    · intro hh
      have g2 := (borrows_same f2.ids (by omega) (f3.same r (by omega) (fun e : _ = _ => by omega))).mp hh
      have g1 := (addEq_borrows f1.ids p1 h2 g2).1
      exact hb ((borrows_same hi hr (f1.same r hr (fun e => e))).mp g1)

theorem times_not {s s' : State} {v : Nat} {n : Int} (hi : Ids s) (hp : Plain s v) (h0 : 0 < s.bodies.length)
    (h : times s v n = .ok s') : ¬ Borrows s' s.vars.length := by
  unfold times at h
  obtain ⟨x, h1, h⟩ := hbind h
  obtain ⟨σ, -, h⟩ := hbind h
  obtain ⟨r, -, h⟩ := hbind h
  obtain ⟨r2, -, h⟩ := hbind h
  have hx := getVar_inv h1
  have hvl := get_lt hx
  simp only at h
  have hids1 : Ids (setVar s v { x with mark := r2.1.mark }) := by
    intro u y hu
    simp only [SV.setVar] at hu ⊢
    rw [List.getElem?_set] at hu
    split at hu
    · cases hu; exact hi v x hx
    · exact hi u y hu
  have hlen : (setVar s v { x with mark := r2.1.mark }).vars.length = s.vars.length := by simp [SV.setVar]
  have p1 : Plain (setVar s v { x with mark := r2.1.mark }) v := setVar_plain hvl hx rfl hp
  have f := frame_newEmpty hids1 h0
  have := newEmpty_not (s := setVar s v { x with mark := r2.1.mark })
  rw [hlen] at this
  exact timesLoop_not (by omega) f.ids (by have := f.vl; omega) (plain_same hids1 (by omega) (f.same v (by omega) (fun e => e)) p1) this h

theorem join_not {s s' : State} {j : Nat} {ws : List Nat} (hi : Ids s) (h0 : 0 < s.bodies.length) (hp : ∀ w ∈ ws, Plain s w ∧ w < s.vars.length)
    (h : join s j ws = .ok s') : ¬ Borrows s' (s.vars.length + (if ws = [] then 0 else 1)) := by
  match ws, hp, h with
  | [], _, h =>
    cases h
    exact newEmpty_not
  | w :: ws, hp, h =>
    rw [if_neg (by simp)]
    unfold join at h
    obtain ⟨x, h1, h⟩ := hbind h
    simp only at h
    obtain ⟨s1, h2, h⟩ := hbind h
    obtain ⟨σ, -, h⟩ := hbind h
    obtain ⟨_, -, h⟩ := hbind h
    obtain ⟨_, -, h⟩ := hbind h
    obtain ⟨_, -, h⟩ := hbind h
    obtain ⟨s2, h3, h⟩ := hbind h
    obtain ⟨s3, h4, h⟩ := hbind h
    have hx := getVar_inv h1
    have f1 := frame_newVar hi ⟨x.body, x.off, x.num, ⟨0, 0⟩⟩ (hi w x hx)
    have f2 := frame_asUTF8 f1.ids _ h2
    have a2 := asUTF8_len h2
    have hl1 : (newVar s ⟨x.body, x.off, x.num, ⟨0, 0⟩⟩).vars.length = s.vars.length + 1 := by simp [SV.newVar]
    have b1 := f1.bl
    have b2 := f2.bl
    have v1 := f1.vl
    have v2 := f2.vl
    have f3 := frame_newData f2.ids (by omega) _ _ _ _ h3
    have l3 := newData_len h3
    have n3 := newData_not h3
    have e : s1.vars.length = s.vars.length + 1 := by omega
    rw [e] at n3
    have b3 := f3.bl
    have g := joinLoop_not f3.ids (by omega) (by omega) (fun u hu => by
      obtain ⟨p, q⟩ := hp u (List.mem_cons_of_mem _ hu)
      refine ⟨by omega, by omega, ?_⟩
      exact plain_same f2.ids (by omega) (f3.same u (by omega) (fun e => e))
        (plain_same f1.ids (by omega) (f2.same u (by omega) (fun e : _ = _ => by omega))
          (plain_same hi q (f1.same u q (fun e => e)) p))) n3 h4
    intro hb
    have hd := h
    unfold destroy at hd
    obtain ⟨_, -, hd⟩ := hbind hd
    cases hd
    obtain ⟨z, b, g1, g2, g3, g4⟩ := hb
    simp only at g1
    rw [List.getElem?_set_ne (by omega)] at g1
    exact g ⟨z, b, g1, g2, g3, g4⟩

end Strpp.SV
