import Verif.Model.StrAppend
import Verif.Proof.StrCost
import Verif.Proof.StrSlice
set_option linter.unusedSimpArgs false
set_option linter.unusedVariables false
namespace Strpp.SV

open Spec Arr

theorem walk_end (n m : Nat) (h : m ≤ n) : walk n m n = 0 := by
  unfold walk
  split
  · omega
  · omega

theorem nthCost_spec {σ : Str} {pre t post : List UCS4} (h : Den σ pre t post) (k : Nat) (hk : k ≤ t.length) :
    σ.nthCost k = if pre.length + k = 0 ∨ σ.b.nc = σ.b.arr.num - 1 then 0
      else (if σ.b.nc = 0 then (pre ++ t ++ post).length else 0) + walk (pre ++ t ++ post).length σ.mark.cn (pre.length + k) := by
  unfold Str.nthCost
  rw [if_neg (by rw [h.num]; omega), h.off]
  exact nthRounds_spec h.body _ (by simp; omega) σ.mark h.mark

theorem nthCost_zero {σ : Str} {t post : List UCS4} (h : Den σ [] t post) : σ.nthCost 0 = 0 := by
  rw [nthCost_spec h 0 (by omega), if_pos (Or.inl (by simp))]

/-- walking to the end of a string that shows its whole storage -/
theorem nthCost_end {σ : Str} {t : List UCS4} (h : Den σ [] t []) (hm : σ.mark.cn ≤ t.length) :
    σ.nthCost t.length = if σ.b.nc = 0 then t.length else 0 := by
  rw [nthCost_spec h t.length (Nat.le_refl _)]
  have hn := h.body.num
  have hl := encodeAll_length_ge t
  simp only [List.nil_append, List.append_nil] at hn
  simp only [List.nil_append, List.append_nil, List.length_nil, Nat.zero_add]
  rw [walk_end _ _ hm]
  split
  · rename_i h0
    split
    · rename_i hz
      rcases h0 with h0 | h0
      · exact h0.symm
      · rw [hz] at h0; omega
    · rfl
  · rfl

theorem bothCost_end {σ : Str} {t : List UCS4} (h : Den σ [] t []) (hm : σ.mark.cn ≤ t.length) :
    σ.bothCost t.length 0 = if σ.b.nc = 0 then t.length else 0 := by
  unfold Str.bothCost
  rw [nthCost_end h hm]
  obtain ⟨σ', e, d, -⟩ := h.nth t.length (Nat.le_refl _)
  rw [e]
  simp only
  rw [nthCost_zero d]
  omega

/-- reading the bytes of a string that shows its whole storage -/
theorem bytesCost_whole {σ : Str} {t : List UCS4} (h : Den σ [] t []) (hm : σ.mark.cn ≤ t.length) (hc : σ.b.nc ≠ 0) :
    σ.bytesCost = 0 := by
  unfold Str.bytesCost
  have e : σ.nth 0 = .ok (σ, some 0) := by
    have h0 := h.off
    obtain ⟨b, off, num, mark⟩ := σ
    simp only [List.length_nil] at h0
    subst h0
    unfold Str.nth nthChar
    rw [if_neg (by omega)]
    rfl
  rw [nthCost_zero h, e]
  simp only
  have := nthCost_end h hm
  rw [if_neg hc] at this
  have hn := h.num
  rw [← hn] at this
  show 0 + σ.nthCost σ.num = 0
  omega

/-- reading the bytes of a counted string, part of its storage or all of it -/
theorem bytesCost_counted {σ : Str} {pre t post : List UCS4} (h : Den σ pre t post) (hc : σ.b.nc ≠ 0) :
    σ.bytesCost = σ.nthCost 0 + σ.nthCost t.length := by
  unfold Str.bytesCost
  obtain ⟨σ', e, d, a, -⟩ := h.nth 0 (by omega)
  rw [e]
  simp only
  have hb : σ'.b = σ.b := by
    unfold Str.nth nthChar at e
    rw [if_neg (by omega)] at e
    obtain ⟨r, h1, h2⟩ := hbind e
    have h2' := congrArg (fun z => match z with | .ok q => q.1.b | .error _ => σ.b) h2
    simp only at h2'
    rw [← h2']
    split at h1
    · cases h1; rfl
    · obtain ⟨b', h3, h4⟩ := hbind h1
      have : b' = σ.b := by
        unfold SBody.count at h3
        rw [if_neg (by simp only [Bool.and_eq_true, beq_iff_eq]; intro hh; exact hc hh.1)] at h3
        cases h3; rfl
      subst this
      split at h4
      · cases h4
      · obtain ⟨up, h5, h6⟩ := hbind h4
        cases h6; rfl
  rw [hb]
  have hn := h.num
  rw [← hn]

theorem insertOwn_new {rc : Nat} {σ σ' : Str} {t : List UCS4} (h : Den σ [] t []) {ab : List Byte} {an : Nat}
    (hm : σ.mark.cn ≤ t.length) (hi : σ.insertOwn rc t.length ab an = .ok σ') : σ'.b.nc = 0 ∧ σ'.mark.cn ≤ t.length := by
  obtain ⟨σ1, e1, d1, a1, o1, n1, m1⟩ := h.nth t.length (Nat.le_refl _)
  obtain ⟨σ2, e2, d2, a2, o2, n2, m2⟩ := d1.nth 0 (by omega)
  unfold Str.insertOwn at hi
  rw [e1, res_bind_ok] at hi
  simp only at hi
  rw [e2, res_bind_ok] at hi
  simp only [deref, res_bind_ok] at hi
  obtain ⟨arr, -, hi⟩ := hbind hi
  cases hi
  refine ⟨rfl, ?_⟩
  simp only
  have hm1 : σ1.mark.cn ≤ t.length := by
    rcases m1 with m1 | m1
    · rw [m1]; exact hm
    · rw [m1.1]; simp
  rcases m2 with m2 | m2
  · rw [m2]; exact hm1
  · rw [m2.1]; simp

theorem unshareWalk_own {s : State} {v : Nat} {x : Var} {b : SBody} {pre t post : List UCS4} (ho : Owned s v x b pre t post) :
    unshareWalk s v = 0 := by
  unfold unshareWalk
  rw [getVar_ok ho.var, getStr_ok ho.var ho.body]
  obtain ⟨m, e1, e2⟩ := mustCopyStatic_ok ho.den
  obtain ⟨b1, f1, -⟩ := ho.den.body.count
  simp only at f1
  simp only
  rw [e1, f1]
  have hst : b.isStatic = true ↔ b.arr.static = true := by
    have := isStatic_iff ho.den.body
    simp only at this
    rw [this]
  have hnst : b.isStatic = false := by
    cases hb : b.isStatic with
    | false => rfl
    | true => have := hst.mp hb; rw [ho.st] at this; cases this
  have hmf : m = false := by
    cases hm' : m with
    | false => rfl
    | true => have := e2 hm'; simp only at this; rw [ho.st] at this; cases this
  have := ho.rc
  simp only [hnst, hmf, Bool.false_or, Bool.false_eq_true, ↓reduceIte, decide_eq_true_eq, Nat.zero_add]
  rw [if_neg (by omega)]

theorem bothCost_zero {σ : Str} {t : List UCS4} (h : Den σ [] t []) (pos : Nat) (hp : pos ≤ t.length) :
    σ.bothCost pos 0 = σ.nthCost pos := by
  unfold Str.bothCost
  obtain ⟨σ', e, d, -⟩ := h.nth pos hp
  rw [e]
  simp only
  rw [nthCost_zero d]
  omega

/-- `v.insert(pos, w)` -/
theorem insert_walk {s : State} (h : Inv s) {v w : Nat} (hne : v ≠ w) {x y : Var} {b c : SBody} {t : List UCS4}
    (ho : Owned s v x b [] t []) (hu : unshare s v = .ok s) (hy : s.vars[w]? = some (some y)) (hc : s.bodies[y.body]? = some c)
    (pos : Nat) (hp : pos ≤ t.length) :
    insertWalk s v pos w = Str.bytesCost ⟨c, y.off, y.num, y.mark⟩ + Str.nthCost ⟨b, x.off, x.num, x.mark⟩ pos := by
  have hsep : y.body ≠ x.body := fun e => by
    have := shared_of_two ho.var hy hne e
    have := ho.rc
    omega
  unfold insertWalk
  rw [getVar_ok ho.var, getVar_ok hy]
  simp only
  rw [if_neg (by simp only [Bool.and_eq_true, beq_iff_eq]; intro hh; exact hsep hh.1.2.symm), unshareWalk_own ho, hu]
  simp only
  rw [getStr_ok ho.var ho.body, getStr_ok hy hc]
  simp only
  rw [bothCost_zero ho.den pos hp, Nat.zero_add]

/-- `v += w` for a `v` that shows the whole of a storage of its own -/
theorem append_step {s : State} (h : Inv s) {v w : Nat} (hne : v ≠ w) {x y : Var} {b c : SBody} {t pre2 u post2 : List UCS4}
    (ho : Owned s v x b [] t []) (hm : x.mark.cn ≤ t.length) (ht : t ≠ []) (hu : unshare s v = .ok s)
    (hy : s.vars[w]? = some (some y)) (hc : s.bodies[y.body]? = some c) (hd : Den ⟨c, y.off, y.num, y.mark⟩ pre2 u post2)
    {k : Nat} (hr : Roomy s (k + (encodeAll u).length)) :
    addEqWalk s v w = Str.bytesCost ⟨c, y.off, y.num, y.mark⟩ + (if b.nc = 0 then t.length else 0) ∧
    ∃ s' x' b', addEq s v w = .ok s' ∧ Inv s' ∧ Roomy s' k ∧ Owned s' v x' b' [] (t ++ u) [] ∧ b'.nc = 0 ∧ x'.mark.cn ≤ (t ++ u).length ∧
      unshare s' v = .ok s' ∧ s'.vars[w]? = some (some y) ∧ s'.bodies[y.body]? = some c := by
  have hsep : y.body ≠ x.body := fun e => by
    have := shared_of_two ho.var hy hne e
    have := ho.rc
    omega
  have hxn := ho.den.num
  have hyn := hd.num
  simp only at hxn hyn
  have hx0 : x.num ≠ 0 := by
    intro e
    exact ht (List.eq_nil_of_length_eq_zero (by omega))
  have hcond : ¬ (x.num == 0 && !c.isStatic) = true := by
    intro hh
    simp only [Bool.and_eq_true, beq_iff_eq] at hh
    exact hx0 hh.1
  have hslow : ¬ (x.num == x.num && x.body == y.body && x.off + x.num == y.off) = true := by
    simp only [Bool.and_eq_true, beq_iff_eq]
    intro hh
    exact hsep hh.1.2.symm
  have hus := unshareWalk_own ho
  have hcost : addEqWalk s v w = Str.bytesCost ⟨c, y.off, y.num, y.mark⟩ + (if b.nc = 0 then t.length else 0) := by
    unfold addEqWalk
    rw [getVar_ok ho.var, getVar_ok hy]
    simp only
    rw [getBody_ok hc]
    simp only
    rw [if_neg hcond]
    unfold insertWalk
    rw [getVar_ok ho.var, getVar_ok hy]
    simp only
    rw [if_neg hslow, hus, hu]
    simp only
    rw [getStr_ok ho.var ho.body, getStr_ok hy hc]
    simp only
    have := bothCost_end ho.den hm
    simp only at this
    rw [← hxn] at this
    rw [this, hxn]
    omega
  refine ⟨hcost, ?_⟩
  have hsz := hr.at ho.body
  have hnum := ho.den.body.num
  simp only [List.nil_append, List.append_nil] at hnum
  obtain ⟨σ', i1, i2, i3⟩ := ho.den.insertOwn ho.st _ ho.rc t.length (Nat.le_refl _) u hd.good (by simp only [encodeAll_nil, List.length_nil]; omega) (Or.inl hm)
  obtain ⟨n1, n2⟩ := insertOwn_new ho.den hm i1
  rw [splice_end] at i2
  have hsn := i2.body.num
  simp only [List.nil_append, List.append_nil, encodeAll_append, List.length_append] at hsn
  obtain ⟨s2, p1, p2, p3, p4, p5⟩ := put_spec h ho (hr.mono (show k ≤ _ by omega)) σ' i2 (fun _ => rfl) i3 (by omega)
  have hrun : addEq s v w = .ok s2 := by
    unfold addEq
    rw [getVar_ok ho.var, res_bind_ok, getVar_ok hy, res_bind_ok, getBody_ok hc, res_bind_ok, if_neg hcond]
    unfold insert
    rw [getVar_ok ho.var, res_bind_ok, getVar_ok hy, res_bind_ok, if_neg hslow, hu, res_bind_ok, if_neg (by simpa using hne)]
    rw [getVar_ok ho.var, res_bind_ok, getStr_ok ho.var ho.body, res_bind_ok, getStr_ok hy hc, res_bind_ok, hd.bytes, res_bind_ok]
    simp only
    rw [← hxn] at i1
    rw [hyn, i1, res_bind_ok, p1]
  refine ⟨s2, _, _, hrun, p2, p3, p5, n1, by simp only [List.length_append]; omega, ?_, ?_, ?_⟩
  · obtain ⟨s3, q1, -, -, -, q5⟩ := unshare_spec p2 p5.var p5.body p5.den p5.emp p3
    rcases q5 with ⟨_, r2, _⟩ | ⟨r1, _⟩
    · rw [q1, r2]
    · have := p5.rc; omega
  · unfold putStr at p1
    rw [getVar_ok ho.var, res_bind_ok] at p1
    cases p1
    simp only [SV.setVar, SV.setBody]
    rw [List.getElem?_set_ne hne]; exact hy
  · unfold putStr at p1
    rw [getVar_ok ho.var, res_bind_ok] at p1
    cases p1
    simp only [SV.setVar, SV.setBody]
    rw [List.getElem?_set_ne (Ne.symm hsep)]; exact hc

theorem mkBody_nc {mem : List Byte} {p l a : Nat} {b : SBody} (h : mkBody mem p l a = .ok b) : b.nc = 0 := by
  unfold mkBody at h
  obtain ⟨_, -, h⟩ := hbind h
  obtain ⟨_, -, h⟩ := hbind h
  obtain ⟨_, -, h⟩ := hbind h
  obtain ⟨_, -, h⟩ := hbind h
  cases h
  rfl

theorem copyBody_nc {σ σ' : Str} (h : σ.copyBody = .ok σ') : σ'.b.nc = 0 := by
  unfold Str.copyBody at h
  obtain ⟨_, -, h⟩ := hbind h
  obtain ⟨_, -, h⟩ := hbind h
  obtain ⟨_, -, h⟩ := hbind h
  obtain ⟨_, -, h⟩ := hbind h
  obtain ⟨b, hb, h⟩ := hbind h
  cases h
  exact mkBody_nc hb

/-- `v += w` for a `v` that shows the whole of a storage shared with others, counted -/
theorem append_shared {s : State} (h : Inv s) {v w : Nat} (hne : v ≠ w) {x y : Var} {b c : SBody} {t pre2 u post2 : List UCS4}
    (hx : s.vars[v]? = some (some x)) (hb : s.bodies[x.body]? = some b) (hdx : Den ⟨b, x.off, x.num, x.mark⟩ [] t [])
    (hs : refCount s x.body > 1) (hm : x.mark.cn ≤ t.length) (ht : t ≠ []) (hcn : b.nc ≠ 0)
    (hy : s.vars[w]? = some (some y)) (hc : s.bodies[y.body]? = some c) (hd : Den ⟨c, y.off, y.num, y.mark⟩ pre2 u post2)
    (hnf : ¬ (x.body = y.body ∧ x.num = y.off)) {k : Nat} (hr : Roomy s k) :
    addEqWalk s v w = Str.bytesCost ⟨c, y.off, y.num, y.mark⟩ + t.length := by
  have hxn := hdx.num
  have hxo := hdx.off
  have hcap := hdx.cap
  simp only [List.length_nil] at hxn hxo
  have hx0 : x.num ≠ 0 := by
    intro e
    exact ht (List.eq_nil_of_length_eq_zero (by omega))
  have hcond : ¬ (x.num == 0 && !c.isStatic) = true := by
    intro hh
    simp only [Bool.and_eq_true, beq_iff_eq] at hh
    exact hx0 hh.1
  have hslow : ¬ (x.num == x.num && x.body == y.body && x.off + x.num == y.off) = true := by
    simp only [Bool.and_eq_true, beq_iff_eq]
    intro hh
    exact hnf ⟨hh.1.2, by omega⟩
  obtain ⟨m, e1, e2⟩ := mustCopyStatic_ok hdx
  obtain ⟨b1, f1, f2⟩ := hdx.body.count
  have hsame : b1 = b := by
    have f1' := f1
    unfold SBody.count at f1'
    rw [if_neg (by simp only [Bool.and_eq_true, beq_iff_eq]; intro hh; exact hcn hh.1)] at f1'
    cases f1'
    rfl
  subst hsame
  simp only at f1
  have hzero : Str.bothCost ⟨b1, x.off, x.num, x.mark⟩ 0 x.num = 0 := by
    have := nthCost_end hdx hm
    rw [if_neg hcn] at this
    unfold Str.bothCost
    have e : Str.nth ⟨b1, x.off, x.num, x.mark⟩ 0 = .ok (⟨b1, x.off, x.num, x.mark⟩, some 0) := by
      unfold Str.nth nthChar
      rw [if_neg (by simp only; omega), hxo]
      rfl
    rw [nthCost_zero hdx, e]
    rw [← hxn] at this
    show 0 + Str.nthCost ⟨b1, x.off, x.num, x.mark⟩ x.num = 0
    omega
  have hus : unshareWalk s v = 0 := by
    unfold unshareWalk
    rw [getVar_ok hx, getStr_ok hx hb]
    simp only
    rw [e1, f1]
    simp only
    have hcc : b1.countCost = 0 := by
      unfold SBody.countCost
      rw [if_neg (by simp only [Bool.and_eq_true, beq_iff_eq]; intro hh; exact hcn hh.1)]
    simp only [hcc, ite_self, hzero, Nat.add_zero]
  obtain ⟨σ', g1, g2, g3, g4⟩ := hdx.copyBody' (fun _ => rfl)
  have hrun : unshare s v = .ok (ownStr s v σ') := by
    unfold unshare
    rw [getVar_ok hx, res_bind_ok, getStr_ok hx hb, res_bind_ok, e1, res_bind_ok, if_pos (by simp [hs]), g1, res_bind_ok]
  have hvl := get_lt hx
  have hv1 : getStr (ownStr s v σ') v = .ok σ' := by
    have := getStr_ok (s := ownStr s v σ') (v := v) (x := ⟨s.bodies.length, σ'.off, σ'.num, σ'.mark⟩) (b := σ'.b)
      (by simp [ownStr, SV.setVar, SV.addBody, hvl]) (by simp [ownStr, SV.setVar, SV.addBody])
    rw [this]
  have hw1 : getStr (ownStr s v σ') w = .ok ⟨c, y.off, y.num, y.mark⟩ := by
    refine getStr_ok ?_ ?_
    · simp only [ownStr, SV.setVar, SV.addBody]
      rw [List.getElem?_set_ne hne]; exact hy
    · simp only [ownStr, SV.setVar, SV.addBody]
      rw [List.getElem?_append_left (get_lt hc)]; exact hc
  unfold addEqWalk
  rw [getVar_ok hx, getVar_ok hy]
  simp only
  rw [getBody_ok hc]
  simp only
  rw [if_neg hcond]
  unfold insertWalk
  rw [getVar_ok hx, getVar_ok hy]
  simp only
  rw [if_neg hslow, hus, hrun]
  simp only
  rw [hv1, hw1]
  simp only
  have hmk : σ'.mark.cn ≤ t.length := by
    rw [g4]
    simp only [hxo, Int.natCast_zero, Int.sub_zero]
    rw [wrap_nat (by simp at hcap; omega)]
    exact hm
  have := bothCost_end g2 hmk
  rw [if_pos (copyBody_nc g1)] at this
  rw [hxn, this]
  omega

/-- and what there is afterwards -/
theorem append_shared_after {s : State} (h : Inv s) {v w : Nat} (hne : v ≠ w) {x y : Var} {b c : SBody} {t pre2 u post2 : List UCS4}
    (hx : s.vars[v]? = some (some x)) (hb : s.bodies[x.body]? = some b) (hdx : Den ⟨b, x.off, x.num, x.mark⟩ [] t [])
    (hs : refCount s x.body > 1) (hm : x.mark.cn ≤ t.length) (ht : t ≠ [])
    (hy : s.vars[w]? = some (some y)) (hc : s.bodies[y.body]? = some c) (hd : Den ⟨c, y.off, y.num, y.mark⟩ pre2 u post2)
    (hnf : ¬ (x.body = y.body ∧ x.num = y.off)) {k : Nat} (hr : Roomy s (k + (encodeAll u).length)) :
    ∃ s' x' b', addEq s v w = .ok s' ∧ Inv s' ∧ Roomy s' k ∧ Owned s' v x' b' [] (t ++ u) [] ∧ b'.nc = 0 ∧ x'.mark.cn ≤ (t ++ u).length ∧
      unshare s' v = .ok s' ∧ s'.vars[w]? = some (some y) ∧ s'.bodies[y.body]? = some c := by
  have hxn := hdx.num
  have hxo := hdx.off
  have hcap := hdx.cap
  simp only [List.length_nil] at hxn hxo
  have hx0 : x.num ≠ 0 := by
    intro e
    exact ht (List.eq_nil_of_length_eq_zero (by omega))
  obtain ⟨s1, u1, u2, u3, -, u5⟩ := unshare_spec h hx hb hdx (fun _ => rfl) hr
  rcases u5 with ⟨r1, -⟩ | ⟨-, x1, b1, ho, hmk, ho1⟩
  · omega
  obtain ⟨m, e1, -⟩ := mustCopyStatic_ok hdx
  obtain ⟨σ', g1, -⟩ := hdx.copyBody' (fun _ => rfl)
  have hs1 : s1 = ownStr s v σ' := by
    unfold unshare at u1
    rw [getVar_ok hx, res_bind_ok, getStr_ok hx hb, res_bind_ok, e1, res_bind_ok, if_pos (by simp [hs]), g1, res_bind_ok] at u1
    cases u1
    rfl
  have hvl := get_lt hx
  have hx1 : x1.body = s.bodies.length := by
    have := ho.var
    rw [hs1] at this
    simp only [ownStr, SV.setVar, SV.addBody] at this
    rw [List.getElem?_set_self hvl] at this
    cases this
    rfl
  have hyl := get_lt hc
  have hy1 : s1.vars[w]? = some (some y) := by
    rw [hs1]
    simp only [ownStr, SV.setVar, SV.addBody]
    rw [List.getElem?_set_ne hne]; exact hy
  have hc1 : s1.bodies[y.body]? = some c := by
    rw [hs1]
    simp only [ownStr, SV.setVar, SV.addBody]
    rw [List.getElem?_append_left hyl]; exact hc
  have hm1 : x1.mark.cn ≤ t.length := by
    rw [hmk]
    simp only [hxo, Int.natCast_zero, Int.sub_zero]
    rw [wrap_nat (by simp at hcap; omega)]
    exact hm
  have hu1 : unshare s1 v = .ok s1 := by
    obtain ⟨s3, q1, -, -, -, q5⟩ := unshare_spec u2 ho.var ho.body ho.den ho.emp u3
    rcases q5 with ⟨_, r2, _⟩ | ⟨r1, _⟩
    · rw [q1, r2]
    · have := ho.rc; omega
  obtain ⟨-, s', x', b', hrun, rest⟩ := append_step u2 hne ho hm1 ht hu1 hy1 hc1 hd u3
  refine ⟨s', x', b', ?_, rest⟩
  rw [← hrun]
  have hx1n := ho.den.num
  simp only at hx1n
  unfold addEq
  rw [getVar_ok hx, res_bind_ok, getVar_ok hy, res_bind_ok, getBody_ok hc, res_bind_ok]
  rw [getVar_ok ho.var, res_bind_ok, getVar_ok hy1, res_bind_ok, getBody_ok hc1, res_bind_ok]
  rw [if_neg (by intro hh; simp only [Bool.and_eq_true, beq_iff_eq] at hh; omega),
    if_neg (by intro hh; simp only [Bool.and_eq_true, beq_iff_eq] at hh; omega)]
  unfold insert
  rw [getVar_ok hx, res_bind_ok, getVar_ok hy, res_bind_ok]
  rw [if_neg (by simp only [Bool.and_eq_true, beq_iff_eq]; intro hh; exact hnf ⟨hh.1.2, by omega⟩), u1, res_bind_ok, if_neg (by simpa using hne)]
  rw [getVar_ok ho.var, res_bind_ok, res_bind_ok, getVar_ok hy1, res_bind_ok]
  rw [if_neg (by simp only [Bool.and_eq_true, beq_iff_eq]; intro hh; omega), hu1, res_bind_ok, if_neg (by simpa using hne)]
  rw [getVar_ok ho.var, res_bind_ok, hx1n, hxn]

/-- `n` times -/
theorem repeat_walk {v w : Nat} (hne : v ≠ w) {y : Var} {c : SBody} {pre2 u post2 : List UCS4}
    (hd : Den ⟨c, y.off, y.num, y.mark⟩ pre2 u post2) : ∀ (n : Nat) (s : State) (x : Var) (b : SBody) (t : List UCS4), Inv s →
    Owned s v x b [] t [] → x.mark.cn ≤ t.length → t ≠ [] → unshare s v = .ok s → s.vars[w]? = some (some y) →
    s.bodies[y.body]? = some c → Roomy s (n * (encodeAll u).length) → b.nc = 0 →
    repeatWalk v w n s = sumTo (fun i => Str.bytesCost ⟨c, y.off, y.num, y.mark⟩ + (t.length + i * u.length)) n := by
  intro n
  induction n with
  | zero => intros; rfl
  | succ n ih =>
    intro s x b t h ho hm ht hu hy hc hr hnc
    have hr' : Roomy s (n * (encodeAll u).length + (encodeAll u).length) := by rw [← Nat.succ_mul]; exact hr
    obtain ⟨hcost, s', x', b', hrun, i1, i2, i3, i4, i5, i6, i7, i8⟩ := append_step h hne ho hm ht hu hy hc hd hr'
    rw [repeatWalk, hcost, hrun, if_pos hnc]
    simp only
    rw [ih s' x' b' (t ++ u) i1 i3 i5 (by simp [ht]) i6 i7 i8 i2 i4, sumTo_succ]
    simp only [Nat.zero_mul, Nat.add_zero]
    congr 1
    refine sumTo_congr _ (fun k _ => ?_)
    rw [List.length_append, Nat.succ_mul]; omega

theorem sum_linear (a l : Nat) : ∀ n, 2 * sumTo (fun i => a + i * l) n = 2 * (n * a) + n * (n - 1) * l := by
  intro n
  induction n with
  | zero => simp [sumTo]
  | succ n ih =>
    rw [sumTo, Nat.mul_add, ih]
    cases n with
    | zero => simp
    | succ m =>
      simp only [Nat.add_sub_cancel, Nat.succ_mul, Nat.mul_add, Nat.add_mul, Nat.mul_succ]
      have : m * m * l = m * (m * l) := Nat.mul_assoc _ _ _
      omega

/-- `operator*` -/
theorem times_walk {s : State} (h : Inv s) {v : Nat} {x : Var} {b : SBody} {t : List UCS4}
    (hx : s.vars[v]? = some (some x)) (hb : s.bodies[x.body]? = some b) (hdx : Den ⟨b, x.off, x.num, x.mark⟩ [] t [])
    (hm : x.mark.cn ≤ t.length) (ht : t ≠ []) (hcn : b.nc ≠ 0) (hst : b.isStatic = false) (n : Nat)
    (hr : Roomy s (n * (encodeAll t).length)) : 2 * timesWalk s v n = n * (n - 1) * t.length := by
  have hxn := hdx.num
  have hxo := hdx.off
  simp only [List.length_nil] at hxn hxo
  have hvl := get_lt hx
  have hlen : 0 < t.length := List.length_pos_iff.mpr ht
  have e0 : Str.nth ⟨b, x.off, x.num, x.mark⟩ 0 = .ok (⟨b, x.off, x.num, x.mark⟩, some 0) := by
    unfold Str.nth nthChar
    rw [if_neg (by simp only; omega), hxo]
    rfl
  have hend := nthCost_end hdx hm
  rw [if_neg hcn, ← hxn] at hend
  obtain ⟨σ1, f1, d1, a1, o1, n1, m1⟩ := hdx.nth t.length (Nat.le_refl _)
  have hmk : σ1.mark.cn ≤ t.length := by
    rcases m1 with m1 | m1
    · rw [m1]; exact hm
    · rw [m1.1]; simp
  unfold timesWalk
  rw [getVar_ok hx, getStr_ok hx hb]
  simp only
  have hboth : Str.bothCost ⟨b, x.off, x.num, x.mark⟩ 0 x.num = 0 := by
    unfold Str.bothCost
    rw [nthCost_zero hdx, e0]
    show 0 + Str.nthCost ⟨b, x.off, x.num, x.mark⟩ x.num = 0
    omega
  rw [hboth, e0, res_bind_ok]
  simp only
  rw [← hxn] at f1
  rw [f1]
  simp only [Nat.zero_add, Int.toNat_natCast]
  -- the string with its new bookmark
  have hd' : Den ⟨b, x.off, x.num, σ1.mark⟩ [] t [] := ⟨hdx.body, hdx.off, hdx.num, d1.mark, d1.markIn⟩
  have hi0 : Inv (setVar s v { x with mark := σ1.mark }) := h.setVar v ⟨b, [], t, [], hb, hd', fun _ => rfl⟩
  have hi1 := (newEmpty_made hi0 (k := 0) (fun c hc => by have := hr c hc; omega) (fun _ => False)).inv
  generalize hs0 : newEmpty (setVar s v { x with mark := σ1.mark }) = s0 at hi1
  have hrv : s.vars.length ≠ v := by omega
  have hyv : s0.vars[v]? = some (some { x with mark := σ1.mark }) := by
    rw [← hs0]
    simp only [newEmpty, SV.newVar, SV.setVar]
    rw [List.getElem?_append_left (by rw [List.length_set]; exact hvl), List.getElem?_set_self hvl]
  have hrr : s0.vars[s.vars.length]? = some (some ⟨0, 0, 0, ⟨0, 0⟩⟩) := by
    rw [← hs0]; simp [newEmpty, SV.newVar, SV.setVar]
  have hbs : s0.bodies = s.bodies := by rw [← hs0]; rfl
  have hb0 : s0.bodies[x.body]? = some b := by rw [hbs]; exact hb
  have hr0 : Roomy s0 (n * (encodeAll t).length) := by
    intro c hc; rw [hbs] at hc; exact hr c hc
  generalize hy : ({ x with mark := σ1.mark } : Var) = y at hyv hd' hi0 hs0
  have hyb : y.body = x.body := by rw [← hy]
  have hyo : y.off = x.off := by rw [← hy]
  have hyn : y.num = x.num := by rw [← hy]
  have hymk : y.mark = σ1.mark := by rw [← hy]
  have hdy : Den ⟨b, y.off, y.num, y.mark⟩ [] t [] := by rw [hyo, hyn, hymk]; exact hd'
  rw [← hyb] at hb0
  have hz : Str.bytesCost ⟨b, y.off, y.num, y.mark⟩ = 0 := bytesCost_whole hdy (by rw [hymk]; exact hmk) hcn
  match n, hr0 with
  | 0, _ => simp [repeatWalk]
  | 1, _ =>
    have : addEqWalk s0 s.vars.length v = 0 := by
      unfold addEqWalk
      rw [getVar_ok hrr, getVar_ok hyv]
      simp only
      rw [getBody_ok hb0]
      simp only
      rw [if_pos (by simp [hst])]
    simp only [repeatWalk, this, Nat.zero_add]
    cases addEq s0 s.vars.length v <;> simp
  | n + 2, hr0 =>
    have hr2 : Roomy s0 (n * (encodeAll t).length + (encodeAll t).length) := by
      intro c hc
      have := hr0 c hc
      rw [Nat.add_mul] at this
      omega
    have c0 : addEqWalk s0 s.vars.length v = 0 := by
      unfold addEqWalk
      rw [getVar_ok hrr, getVar_ok hyv]
      simp only
      rw [getBody_ok hb0]
      simp only
      rw [if_pos (by simp [hst])]
    have r0 : addEq s0 s.vars.length v = .ok (setVar s0 s.vars.length y) := by
      unfold addEq
      rw [getVar_ok hrr, res_bind_ok, getVar_ok hyv, res_bind_ok, getBody_ok hb0, res_bind_ok, if_pos (by simp [hst])]
      unfold assign
      rw [getVar_ok hrr, res_bind_ok, getVar_ok hyv, res_bind_ok]
    have hrl := get_lt hrr
    have hi2 : Inv (setVar s0 s.vars.length y) := hi1.setVar _ ⟨b, [], t, [], hb0, hdy, fun _ => rfl⟩
    have h2r : (setVar s0 s.vars.length y).vars[s.vars.length]? = some (some y) := by simp [SV.setVar, hrl]
    have h2v : (setVar s0 s.vars.length y).vars[v]? = some (some y) := by
      simp only [SV.setVar]; rw [List.getElem?_set_ne hrv]; exact hyv
    have h2b : (setVar s0 s.vars.length y).bodies[y.body]? = some b := hb0
    have hsh := shared_of_two h2r h2v hrv rfl
    have hnf : ¬ (y.body = y.body ∧ y.num = y.off) := by
      rintro ⟨-, e⟩
      omega
    have hmy : y.mark.cn ≤ t.length := by rw [hymk]; exact hmk
    have c1 := append_shared hi2 hrv h2r h2b hdy hsh hmy ht hcn h2v h2b hdy hnf (k := n * (encodeAll t).length + (encodeAll t).length) hr2
    obtain ⟨s3, x3, b3, r1, i1, i2, i3, i4, i5, i6, i7, i8⟩ := append_shared_after hi2 hrv h2r h2b hdy hsh hmy ht h2v h2b hdy hnf
      (k := n * (encodeAll t).length) hr2
    have c2 := repeat_walk hrv hdy n s3 x3 b3 (t ++ t) i1 i3 i5 (by simp [ht]) i6 i7 i8 i2 i4
    rw [hz] at c1 c2
    rw [show n + 2 = n + 1 + 1 by omega, repeatWalk, c0, r0]
    simp only [Nat.zero_add]
    rw [repeatWalk, c1, r1]
    simp only [Nat.zero_add]
    rw [c2]
    simp only [Nat.zero_add, List.length_append]
    rw [Nat.mul_add, sum_linear, Nat.add_sub_cancel]
    cases n with
    | zero => simp
    | succ m =>
      simp only [Nat.add_sub_cancel, Nat.succ_mul, Nat.mul_add, Nat.add_mul, Nat.mul_succ]
      omega

end Strpp.SV
