import Verif.Proof.VarMemMap
import Verif.Proof.VarMemDen
/-! One call at a time: no fault, and memory shows the values it should. -/
set_option linter.unusedSimpArgs false
set_option linter.unusedVariables false
namespace Strpp.VM

open Spec.VM Var

/-- The call runs, keeps the invariant and shows the values. -/
def Does (r : Res State) (L : Nat → Nat) (σ : Vals) : Prop := ∃ s, r = .ok s ∧ Inv s [] L ∧ Shows s σ

theorem forall₂_mem {α β : Type} {R S : α → β → Prop} {as : List α} {bs : List β} (h : List.Forall₂ R as bs)
    (hi : ∀ a b, a ∈ as → R a b → S a b) : List.Forall₂ S as bs := by
  induction h with
  | nil => exact .nil
  | cons hd _ ih => exact .cons (hi _ _ (by simp) hd) (ih fun a b ha => hi a b (by simp [ha]))

theorem forall₂_set {α β : Type} {R : α → β → Prop} {as : List α} {bs : List β} (h : List.Forall₂ R as bs) (i : Nat) {a : α} {b : β}
    (hab : R a b) : List.Forall₂ R (as.set i a) (bs.set i b) := by
  induction h generalizing i with
  | nil => exact .nil
  | cons hd ht ih =>
    cases i with
    | zero => exact .cons hab ht
    | succ i => exact .cons hd (ih i)

theorem forall₂_append {α β : Type} {R : α → β → Prop} {as as' : List α} {bs bs' : List β} (h : List.Forall₂ R as bs)
    (h' : List.Forall₂ R as' bs') : List.Forall₂ R (as ++ as') (bs ++ bs') := by
  induction h with
  | nil => exact h'
  | cons hd _ ih => exact .cons hd ih

theorem forall₂_get {α β : Type} {R : α → β → Prop} {as : List α} {bs : List β} (h : List.Forall₂ R as bs) {i : Nat} {b : β}
    (hb : bs[i]? = some b) : ∃ a, as[i]? = some a ∧ R a b := by
  induction h generalizing i with
  | nil => simp at hb
  | cons hd ht ih =>
    cases i with
    | zero => simp at hb; subst hb; exact ⟨_, rfl, hd⟩
    | succ i => simp at hb; obtain ⟨a, ha, hr⟩ := ih hb; exact ⟨a, by simpa using ha, hr⟩

theorem noIn_fresh {s : State} {T : List Nat} {L : Nat → Nat} (h : Inv s T L) : NoIn s s.bodies.length := by
  intro i x hx hin
  have := bocc_pos hx hin
  have := h.fresh
  omega

theorem notVar_fresh {s : State} {T : List Nat} {L : Nat → Nat} (h : Inv s T L) (w : Nat) (c : Cell)
    (hw : s.vars[w]? = some (some c)) : s.bodies.length ∉ c.refs := by
  intro hin
  have := vocc_pos hw hin
  have := h.fresh
  omega

/-- a copy of something into a new variable -/
theorem copyNew {s : State} {L : Nat → Nat} (h : Inv s [] L) {σ : Vals} (hs : Shows s σ) {c : Cell} {x : Variant}
    (hk : kindOk (cont s) c) (hl : ∀ j ∈ c.refs, ∃ x, cont s j = some x) (hd : Denotes s c x) :
    ∃ s1, addRefs s c.refs = .ok s1 ∧ SameCont s s1 ∧ Inv (newVar s1 c) [] L ∧ Shows (newVar s1 c) (σ ++ [some x]) := by
  obtain ⟨s1, h1, i1, c1⟩ := addRefs_inv h c.refs hl
  have f1 : cont s1 = cont s := funext c1.same
  have i2 : Inv (newVar s1 c) [] L := newVar_inv i1 c (by rw [f1]; exact hk) (by intro j; simp)
  have f2 : cont (newVar s1 c) = cont s := f1
  refine ⟨s1, h1, c1, i2, ?_⟩
  refine shows_new h i2 hs (c := c) (by show s1.vars ++ _ = _; rw [c1.vars]) (b := s.bodies.length) (fun i x _ hx => by rw [f2] at hx; exact hx)
    ?_ (fun w c hw => notVar_fresh h w c hw) ?_
  · intro i y hy; rw [f2] at hy; exact noIn_fresh h i y hy
  · exact dn_kept' h i2 (fun i x hx => by rw [f2] at hx; exact hx) hk (fun i hi => by rw [f2]; exact hl i hi) hd

theorem plain_new {s : State} {L : Nat → Nat} (h : Inv s [] L) {σ : Vals} (hs : Shows s σ) {c : Cell} {x : Variant}
    (hr : c.refs = []) (hk : kindOk (cont s) c) (hd : Denotes s c x) : Does (.ok (newVar s c)) L (σ ++ [some x]) := by
  obtain ⟨s1, h1, _, i1, w1⟩ := copyNew h hs hk (by rw [hr]; intro j hj; cases hj) hd
  rw [hr] at h1; cases h1
  exact ⟨_, rfl, i1, w1⟩

theorem copy_does {s : State} {L : Nat → Nat} (h : Inv s [] L) {σ : Vals} (hs : Shows s σ) {w : Nat} {x : Variant}
    (hw : value σ w = some x) : Does (exec s (.copy w)) L (σ ++ [some x]) := by
  obtain ⟨c, hc, hd⟩ := shows_get hs hw
  obtain ⟨s1, h1, _, i1, w1⟩ := copyNew h hs (h.vkind w c hc) (fun j hj => h.live_var hc hj) hd
  refine ⟨_, ?_, i1, w1⟩
  show (getVar s w >>= fun c => _) = _
  rw [getVar_of hc, res_bind_ok]
  show (addRefs s c.refs >>= fun s => _) = _
  rw [h1]; rfl

/-- a new body without references in it, and a variable for it -/
theorem held_new {s : State} {L : Nat → Nat} (h : Inv s [] L) {σ : Vals} (hs : Shows s σ) {y : Content} {f : Nat → Cell} {x : Variant}
    (hy : y.refs = []) (hky : contOk (cont s) y) (hf : (f s.bodies.length).refs = [s.bodies.length])
    (hk : kindOk (cont (newHeld s y f)) (f s.bodies.length)) (hd : Denotes (newHeld s y f) (f s.bodies.length) x) :
    Does (.ok (newHeld s y f)) L (σ ++ [some x]) := by
  obtain ⟨i1, n1, b1, e1⟩ := newBody_inv h y hy hky
  have i2 : Inv (newHeld s y f) [] L := newVar_inv i1 _ hk (by intro j; rw [hf, List.count_nil, Nat.zero_add])
  refine ⟨_, rfl, i2, ?_⟩
  refine shows_new h i2 hs (c := f s.bodies.length) rfl (b := s.bodies.length) ?_ n1 (fun w c hw => notVar_fresh h w c hw) hd
  intro i z hi hz
  have : cont (newHeld s y f) i = cont s i := e1 i hi
  rw [this] at hz; exact hz

theorem str_does {s : State} {L : Nat → Nat} (h : Inv s [] L) {σ : Vals} (hs : Shows s σ) (t : List UCS4) :
    Does (exec s (.str t)) L (σ ++ [some (.string t)]) := by
  have hb : cont (newHeld s (.text t) .string) s.bodies.length = some (.text t) := by
    show cont (newBody s (.text t)) s.bodies.length = _
    rw [cont_newBody, if_pos rfl]
  refine held_new h hs rfl trivial rfl ⟨t, hb⟩ ?_
  have := denotes_string (newHeld s (.text t) .string) s.bodies.length
  have e : txt (cont (newHeld s (.text t) .string)) s.bodies.length = t := by unfold txt; rw [hb]
  rw [e] at this; exact this

theorem emptyMap_does {s : State} {L : Nat → Nat} (h : Inv s [] L) {σ : Vals} (hs : Shows s σ) :
    Does (exec s .emptyMap) L (σ ++ [some (.strVarMap [])]) := by
  have hb : cont (newHeld s (.table []) .strVarMap) s.bodies.length = some (.table []) := by
    show cont (newBody s (.table [])) s.bodies.length = _
    rw [cont_newBody, if_pos rfl]
  exact held_new h hs rfl ⟨by simp, List.Pairwise.nil⟩ rfl ⟨[], hb⟩ (denotes_map hb .nil)

theorem getVars_of {s : State} {T : List Nat} {L : Nat → Nat} (h : Inv s T L) {σ : Vals} (hs : Shows s σ) :
    ∀ (vs : List Nat) {xs : List Variant}, valuesOf σ vs = some xs → ∃ cs, getVars s vs = .ok cs ∧ List.Forall₂ (Denotes s) cs xs ∧
      ∀ c ∈ cs, ∃ w : Nat, s.vars[w]? = some (some c) := by
  intro vs
  induction vs with
  | nil => intro xs hx; simp [valuesOf] at hx; subst hx; exact ⟨[], rfl, .nil, by simp⟩
  | cons v vs ih =>
    intro xs hx
    unfold valuesOf at hx
    split at hx
    · rename_i x ys hv hys
      cases hx
      obtain ⟨cs, hcs, hf, hm⟩ := ih hys
      obtain ⟨c, hc, hd⟩ := shows_get hs hv
      refine ⟨c :: cs, ?_, .cons hd hf, ?_⟩
      · show (getVar s v >>= fun c => _) = _
        rw [getVar_of hc, res_bind_ok]
        show (getVars s vs >>= fun cs => _) = _
        rw [hcs]; rfl
      · intro d hd'
        rcases List.mem_cons.mp hd' with rfl | hd'
        · exact ⟨v, hc⟩
        · exact hm d hd'
    · cases hx

theorem array_does {s : State} {L : Nat → Nat} (h : Inv s [] L) {σ : Vals} (hs : Shows s σ) {vs : List Nat} {xs : List Variant}
    (hv : valuesOf σ vs = some xs) : Does (exec s (.array vs)) L (σ ++ [some (.varArray xs)]) := by
  obtain ⟨cs, hcs, hf, hm⟩ := getVars_of h hs vs hv
  have hback : ∀ c ∈ cs, kindOk (cont s) c ∧ ∀ j ∈ c.refs, Backed s [] s.bodies.length j := by
    intro c hc
    obtain ⟨w, hw⟩ := hm c hc
    exact ⟨h.vkind w c hw, fun j hj => .inl (by have := vocc_pos hw hj; unfold Root; omega)⟩
  obtain ⟨s1, mem, h1, i1, n1, b1, t1, _, k1⟩ := newArray_inv h cs cs.length hback
  have i2 : Inv (newVar s1 (.varArray ⟨some s.bodies.length, 0, cs.length⟩)) [] L :=
    newVar_inv i1 _ ⟨rfl, mem, cs.length, b1, Nat.le_refl _⟩ (by intro j; simp [Cell.refs])
  have hkeep : ∀ i x, i ≠ s.bodies.length → cont s1 i = some x → cont s i = some x := k1.same
  refine ⟨_, ?_, i2, ?_⟩
  · show (getVars s vs >>= fun cs => _) = _
    rw [hcs, res_bind_ok]
    show (newArray s cs cs.length >>= fun s => _) = _
    rw [h1]; rfl
  · refine shows_new h i2 hs (b := s.bodies.length) (by show s1.vars ++ _ = _; rw [k1.vars]) hkeep n1 (fun w c hw => notVar_fresh h w c hw) ?_
    refine denotes_arr (s := newVar s1 _) b1 ?_
    rw [t1]
    refine forall₂_mem hf ?_
    intro c x hc hd
    obtain ⟨w, hw⟩ := hm c hc
    refine dn_kept h i2 hkeep n1 (h.vkind w c hw) (fun j hj => ⟨?_, ?_⟩) hd
    · intro e; subst e; exact notVar_fresh h w c hw hj
    · exact i2.live_var (v := w) (c := c) (by
        show (s1.vars ++ _)[w]? = _
        rw [k1.vars, List.getElem?_append_left (List.getElem?_eq_some_iff.mp hw).1]; exact hw) hj

/-! ### Kinds of values -/

theorem denotes_type {s : State} {c : Cell} {x : Variant} (hk : kindOk (cont s) c) (hd : Denotes s c x) : x.type = c.type := by
  obtain ⟨N, hN⟩ := hd
  have h := hN (N + 1) (by omega)
  cases c with
  | none => rw [← h]; rfl
  | integer w => rw [← h]; rfl
  | long w => rw [← h]; rfl
  | longLong w => rw [← h]; rfl
  | string b => rw [← h, den_string]; rfl
  | varArray a =>
    obtain ⟨body, off, num⟩ := a
    cases body with
    | none => rw [← h, den_none_arr]; rfl
    | some b =>
      obtain ⟨h0, mem, m, hm, _⟩ := hk
      rw [← h, den_arr hm]; rfl
  | strVarMap b =>
    obtain ⟨es, hm⟩ := hk
    rw [← h, den_map hm]; rfl

theorem is_array {s : State} {c : Cell} {xs : List Variant} (hk : kindOk (cont s) c) (hd : Denotes s c (.varArray xs)) :
    ∃ a, c = .varArray a := by
  have := denotes_type hk hd
  cases c <;> first | (simp [Variant.type, Cell.type] at this; done) | exact ⟨_, rfl⟩

theorem is_map {s : State} {c : Cell} {ms : List (List UCS4 × Variant)} (hk : kindOk (cont s) c) (hd : Denotes s c (.strVarMap ms)) :
    ∃ b, c = .strVarMap b := by
  have := denotes_type hk hd
  cases c <;> first | (simp [Variant.type, Cell.type] at this; done) | exact ⟨_, rfl⟩

theorem is_string {s : State} {c : Cell} {t : List UCS4} (hk : kindOk (cont s) c) (hd : Denotes s c (.string t)) :
    ∃ b, c = .string b ∧ txt (cont s) b = t := by
  have := denotes_type hk hd
  cases c <;> try (simp [Variant.type, Cell.type] at this; done)
  rename_i b
  exact ⟨b, rfl, by have := dn_unique hd (denotes_string s b); simpa using this.symm⟩

/-! ### Variables -/

theorem assign_does {s : State} {L : Nat → Nat} (h : Inv s [] L) {σ : Vals} (hs : Shows s σ) {v w : Nat} {x y : Variant}
    (hv : value σ v = some y) (hw : value σ w = some x) : Does (exec s (.assign v w)) L (σ.set v (some x)) := by
  obtain ⟨old, ho, _⟩ := shows_get hs hv
  obtain ⟨c, hc, hd⟩ := shows_get hs hw
  obtain ⟨s1, h1, i1, v1, k1⟩ := assign_var h ho (h.vkind w c hc) (fun j hj => h.live_var hc hj)
  refine ⟨s1, ?_, i1, ?_⟩
  · show (getVar s w >>= fun c => _) = _
    rw [getVar_of hc]; exact h1
  · refine shows_set h i1 hs v1 k1 ?_
    refine dn_kept' h i1 k1 (h.vkind w c hc) (fun j hj => ?_) hd
    exact i1.live_var (v := v) (c := c) (by rw [v1, List.getElem?_set]; simp [(List.getElem?_eq_some_iff.mp ho).1]) hj

theorem destroy_does {s : State} {L : Nat → Nat} (h : Inv s [] L) {σ : Vals} (hs : Shows s σ) {v : Nat} {x : Variant}
    (hv : value σ v = some x) : Does (exec s (.destroy v)) L (σ.set v none) := by
  obtain ⟨c, hc, hd⟩ := shows_get hs hv
  have i1 : Inv { s with vars := s.vars.set v none } (c.refs ++ []) L := putVar_inv h hc none (by simp) (by intro j; simp [varRefs])
  obtain ⟨s2, h2, i2, k2⟩ := release_inv c.refs i1
  refine ⟨s2, ?_, i2, ?_⟩
  · show (getVar s v >>= fun c => _) = _
    rw [getVar_of hc]; exact h2
  · exact shows_set h i2 hs (o := none) (y := none) (by rw [k2.vars]) (fun i x hx => k2.same i x hx) trivial

/-! ### Arrays -/

/-- the elements of an array's body do not refer to it, and exist -/
theorem own_refs {s : State} {T : List Nat} {L : Nat → Nat} (h : Inv s T L) {b : Nat} {mem : List Cell} {num : Nat}
    (hb : cont s b = some (.cells mem num)) (hno : NoIn s b) {c : Cell} (hc : c ∈ mem) : ∀ j ∈ c.refs, j ≠ b ∧ ∃ y, cont s j = some y := by
  intro j hj
  have hin : j ∈ (Content.cells mem num).refs := List.mem_flatMap.mpr ⟨c, hc, hj⟩
  exact ⟨fun e => by subst e; exact hno _ _ hb hin, h.live_body hb hin⟩

theorem push_does {s : State} {L : Nat → Nat} (h : Inv s [] L) {σ : Vals} (hs : Shows s σ) {a w : Nat} {xs : List Variant} {x : Variant}
    {e : Cell} (hne : a ≠ w) (ha : value σ a = some (.varArray xs)) (he : s.vars[w]? = some (some e)) (hd : Denotes s e x) :
    Does (push s a e) L (σ.set a (some (.varArray (xs ++ [x])))) := by
  obtain ⟨c, hc, hdc⟩ := shows_get hs ha
  obtain ⟨sl, rfl⟩ := is_array (h.vkind a c hc) hdc
  have hkc := h.vkind a _ hc
  obtain ⟨ys, hys, hf⟩ := denotes_elems h hkc hdc
  cases hys
  obtain ⟨s1, b, mem, num, h1, i1, o1, t1, v1, k1, nv⟩ := unshare_inv h hc 1
  have hw1 : s1.vars[w]? = some (some e) := by rw [v1, List.getElem?_set]; simp [hne, he]
  have hbe : b ∉ e.refs := nv w e (Ne.symm hne) he
  have hvo : 0 < vocc s1 b := vocc_pos o1.var (by simp [Cell.refs])
  obtain ⟨s2, mem', h2, i2, n2, b2, t2, k2⟩ := insertOne_inv i1 o1.cont (by rw [o1.cnt]; exact Nat.le_refl _) o1.le (i1.vkind w e hw1) hbe
    (fun j hj => .inl (by have := vocc_pos hw1 hj; unfold Root; omega)) o1.noIn (by omega)
  have hv2 : s2.vars[a]? = some (some (.varArray ⟨some b, 0, sl.num⟩)) := by rw [k2.vars]; exact o1.var
  have i3 : Inv (setVar s2 a (.varArray ⟨some b, 0, sl.num + 1⟩)) [] L :=
    setVar_inv i2 hv2 _ ⟨rfl, mem', num + 1, b2, by have := o1.le; simp; omega⟩ (by intro j; rfl)
  have hkeep : ∀ i y, i ≠ b → cont s2 i = some y → cont s i = some y := fun i y hi hy => k1 i y hi (k2.same i y hi hy)
  refine ⟨_, ?_, i3, ?_⟩
  · show (unshare s a 1 >>= fun s => _) = _
    rw [h1, res_bind_ok]
    show (getArray s1 a >>= fun a => _) = _
    rw [getArray_of o1.var, res_bind_ok]
    show (insertOne s1 b sl.num e >>= fun s => _) = _
    rw [h2]; rfl
  · have htake : mem'.take (sl.num + 1) = elems s sl ++ [e] := by rw [t2, t1]
    refine shows_own h i3 hs (b := b) (by show s2.vars.set a _ = _; rw [k2.vars, v1, List.set_set]) hkeep n2 nv ?_
    refine denotes_arr (s := setVar s2 a _) b2 ?_
    rw [htake]
    have hin : ∀ d ∈ elems s sl ++ [e], d ∈ mem' := fun d hd' => List.mem_of_mem_take (by rw [htake]; exact hd')
    have hkind : ∀ d ∈ elems s sl ++ [e], kindOk (cont s) d := by
      intro d hd'
      rcases List.mem_append.mp hd' with hd' | hd'
      · exact (elems_kind h hd').1
      · simp at hd'; subst hd'; exact h.vkind w _ he
    refine forall₂_mem (forall₂_append hf (.cons hd .nil)) ?_
    intro d y hd' hdy
    exact dn_kept h i3 hkeep n2 (hkind d hd') (fun j hj => own_refs i3 b2 n2 (hin d hd') j hj) hdy

theorem set_does {s : State} {L : Nat → Nat} (h : Inv s [] L) {σ : Vals} (hs : Shows s σ) {a w i : Nat} {xs : List Variant} {x : Variant}
    {e : Cell} (hne : a ≠ w) (ha : value σ a = some (.varArray xs)) (he : s.vars[w]? = some (some e)) (hd : Denotes s e x)
    (hi : i < xs.length) : Does (VM.set s a i e) L (σ.set a (some (.varArray (xs.set i x)))) := by
  obtain ⟨c, hc, hdc⟩ := shows_get hs ha
  obtain ⟨sl, rfl⟩ := is_array (h.vkind a c hc) hdc
  have hkc := h.vkind a _ hc
  obtain ⟨ys, hys, hf⟩ := denotes_elems h hkc hdc
  cases hys
  have hlen : xs.length = sl.num := by rw [← hf.length_eq]; exact (elements_of h hkc).2
  have hsome : sl.body.isSome = true := by
    obtain ⟨body, off, num⟩ := sl
    cases body with
    | none => have : num = 0 := hkc; simp at hlen; omega
    | some b => rfl
  obtain ⟨s1, b, mem, num, h1, i1, o1, t1, v1, k1, nv⟩ := unshare_inv h hc 0
  have hw1 : s1.vars[w]? = some (some e) := by rw [v1, List.getElem?_set]; simp [hne, he]
  have hbe : b ∉ e.refs := nv w e (Ne.symm hne) he
  have hvo : 0 < vocc s1 b := vocc_pos o1.var (by simp [Cell.refs])
  have hml := (i1.bkind b _ o1.cont).1
  have hle := o1.le
  obtain ⟨s2, h2, i2, n2, b2, k2⟩ := assign_elem i1 (i := i) o1.cont (by omega) (i1.vkind w e hw1) (fun j hj => i1.live_var hw1 hj) o1.noIn hbe
    (by omega)
  have hkeep : ∀ i y, i ≠ b → cont s2 i = some y → cont s i = some y := fun i y hi hy => k1 i y hi (k2.same i y hi hy)
  refine ⟨_, ?_, i2, ?_⟩
  · show (getArray s a >>= fun a => _) = _
    rw [getArray_of hc, res_bind_ok]
    show (assert (decide (i < sl.num) && sl.body.isSome) >>= fun _ => _) = _
    have hA : (decide (i < sl.num) && sl.body.isSome) = true := by rw [hsome, Bool.and_true]; simp; omega
    rw [hA]
    show (unshare s a 0 >>= fun s => _) = _
    rw [h1, res_bind_ok]
    show (getArray s1 a >>= fun a => _) = _
    rw [getArray_of o1.var, res_bind_ok]
    show assign s1 (.elem b (0 + i)) e = _
    rw [Nat.zero_add]; exact h2
  · have htake : (mem.set i e).take sl.num = (elems s sl).set i e := by rw [List.take_set, t1]
    refine shows_own h i2 hs (b := b) (by rw [k2.vars, v1]) hkeep n2 nv ?_
    refine denotes_arr b2 ?_
    rw [htake]
    have hin : ∀ d ∈ (elems s sl).set i e, d ∈ mem.set i e := fun d hd' => List.mem_of_mem_take (by rw [htake]; exact hd')
    have hkind : ∀ d ∈ (elems s sl).set i e, kindOk (cont s) d := by
      intro d hd'
      rcases List.mem_or_eq_of_mem_set hd' with hd' | hd'
      · exact (elems_kind h hd').1
      · subst hd'; exact h.vkind w _ he
    refine forall₂_mem (forall₂_set hf i hd) ?_
    intro d y hd' hdy
    exact dn_kept h i2 hkeep n2 (hkind d hd') (fun j hj => own_refs i2 b2 n2 (hin d hd') j hj) hdy

theorem elem_run {s : State} {L : Nat → Nat} (h : Inv s [] L) {σ : Vals} (hs : Shows s σ) {a i : Nat} {sl : Arr.Slice} {xs : List Variant}
    {x : Variant} (hc : s.vars[a]? = some (some (.varArray sl))) (hf : List.Forall₂ (Denotes s) (elems s sl) xs) (hx : xs[i]? = some x) :
    ∃ c s1, elem s a i = .ok (newVar s1 c) ∧ SameCont s s1 ∧ Inv (newVar s1 c) [] L ∧ Shows (newVar s1 c) (σ ++ [some x]) := by
  have hkc := h.vkind a _ hc
  have hlen : xs.length = sl.num := by rw [← hf.length_eq]; exact (elements_of h hkc).2
  have hi : i < xs.length := (List.getElem?_eq_some_iff.mp hx).1
  obtain ⟨c, hce, hd⟩ := forall₂_get hf hx
  obtain ⟨body, off, num⟩ := sl
  cases body with
  | none => have : num = 0 := hkc; simp at hlen; omega
  | some b =>
    obtain ⟨h0, mem, m, hm, hle⟩ := hkc
    simp at h0 hle hlen; subst h0
    have hel : elems s ⟨some b, 0, num⟩ = mem.take num := by unfold elems; simp only [hm]
    have hmem : c ∈ elems s ⟨some b, 0, num⟩ := List.mem_of_getElem? hce
    have hcm : c ∈ mem := by rw [hel] at hmem; exact List.mem_of_mem_take hmem
    have hci : mem[i]? = some c := by
      rw [hel, List.getElem?_take, if_pos (by omega)] at hce; exact hce
    obtain ⟨s1, h1, c1, i1, w1⟩ := copyNew h hs (elems_kind h hmem).1 (fun j hj => h.live_body hm (List.mem_flatMap.mpr ⟨c, hcm, hj⟩)) hd
    refine ⟨c, s1, ?_, c1, i1, w1⟩
    show (getArray s a >>= fun a => _) = _
    rw [getArray_of hc, res_bind_ok]
    show (assert (decide (i < num) && true) >>= fun _ => _) = _
    have hA : (decide (i < num) && true) = true := by simp; omega
    rw [hA]
    show (getPlace s (.elem b (0 + i)) >>= fun c => _) = _
    have hp : getPlace s (.elem b (0 + i)) = .ok c := by
      show (getCells s b >>= fun r => _) = _
      rw [getCells_of hm, res_bind_ok, Nat.zero_add]
      simp [rd, hci]
    rw [hp, res_bind_ok]
    show (addRefs s c.refs >>= fun s => _) = _
    rw [h1]; rfl

theorem elem_does {s : State} {L : Nat → Nat} (h : Inv s [] L) {σ : Vals} (hs : Shows s σ) {a i : Nat} {xs : List Variant} {x : Variant}
    (ha : value σ a = some (.varArray xs)) (hx : xs[i]? = some x) : Does (elem s a i) L (σ ++ [some x]) := by
  obtain ⟨c, hc, hdc⟩ := shows_get hs ha
  obtain ⟨sl, rfl⟩ := is_array (h.vkind a c hc) hdc
  obtain ⟨ys, hys, hf⟩ := denotes_elems h (h.vkind a _ hc) hdc
  cases hys
  obtain ⟨c, s1, h1, _, i1, w1⟩ := elem_run h hs hc hf hx
  exact ⟨_, h1, i1, w1⟩

theorem pull_does {s : State} {L : Nat → Nat} (h : Inv s [] L) {σ : Vals} (hs : Shows s σ) {a : Nat} {xs : List Variant} {x : Variant}
    (ha : value σ a = some (.varArray xs)) (hx : xs.getLast? = some x) :
    Does (pull s a) L (σ.set a (some (.varArray xs.dropLast)) ++ [some x]) := by
  obtain ⟨c, hc, hdc⟩ := shows_get hs ha
  obtain ⟨sl, rfl⟩ := is_array (h.vkind a c hc) hdc
  have hkc := h.vkind a _ hc
  obtain ⟨ys, hys, hf⟩ := denotes_elems h hkc hdc
  cases hys
  have hlen : xs.length = sl.num := by rw [← hf.length_eq]; exact (elements_of h hkc).2
  have hpos : 0 < xs.length := by cases xs with | nil => simp at hx | cons => simp
  have hxi : xs[sl.num - 1]? = some x := by rw [← hlen, ← List.getLast?_eq_getElem?]; exact hx
  obtain ⟨c, s1, h1, c1, i1, w1⟩ := elem_run h hs hc hf hxi
  have f1 : cont (newVar s1 c) = cont s := funext c1.same
  have hlt := (List.getElem?_eq_some_iff.mp hc).1
  have hv1 : (newVar s1 c).vars[a]? = some (some (.varArray sl)) := by
    show (s1.vars ++ _)[a]? = _
    rw [c1.vars, List.getElem?_append_left hlt]; exact hc
  have hk2 : kindOk (cont (newVar s1 c)) (.varArray { sl with num := sl.num - 1 }) := by
    rw [f1]
    obtain ⟨body, off, num⟩ := sl
    cases body with
    | none => have : num = 0 := hkc; simp at hlen; omega
    | some b =>
      obtain ⟨h0, mem, m, hm, hle⟩ := hkc
      exact ⟨h0, mem, m, hm, by simp at hle ⊢; omega⟩
  have i2 : Inv (setVar (newVar s1 c) a (.varArray { sl with num := sl.num - 1 })) [] L :=
    setVar_inv i1 hv1 _ hk2 (by intro j; rfl)
  refine ⟨_, ?_, i2, ?_⟩
  · show (getArray s a >>= fun a => _) = _
    rw [getArray_of hc, res_bind_ok]
    show (assert (decide (sl.num > 0)) >>= fun _ => _) = _
    have hA : decide (sl.num > 0) = true := by simp; omega
    rw [hA]
    show (elem s a (sl.num - 1) >>= fun s => _) = _
    rw [h1]; rfl
  · have hσ : σ.set a (some (.varArray xs.dropLast)) ++ [some x] = (σ ++ [some x]).set a (some (.varArray xs.dropLast)) := by
      rw [List.set_append_left]; rw [← hs.1]; exact hlt
    rw [hσ]
    refine shows_set i1 i2 w1 rfl (fun i x hx => hx) ?_
    show Denotes _ (.varArray { sl with num := sl.num - 1 }) (.varArray xs.dropLast)
    obtain ⟨body, off, num⟩ := sl
    cases body with
    | none => have : num = 0 := hkc; simp at hlen; omega
    | some b =>
      obtain ⟨h0, mem, m, hm, hle⟩ := hkc
      simp at h0 hle hlen; subst h0
      have hm' : cont (setVar (newVar s1 c) a (.varArray ⟨some b, 0, num - 1⟩)) b = some (.cells mem m) := by
        show cont (newVar s1 c) b = _
        rw [f1]; exact hm
      refine denotes_arr hm' ?_
      have hel : elems s ⟨some b, 0, num⟩ = mem.take num := by unfold elems; simp only [hm]
      have hml := (h.bkind b _ hm).1
      have htk : mem.take (num - 1) = (elems s ⟨some b, 0, num⟩).dropLast := by
        rw [hel, List.dropLast_eq_take, List.take_take, List.length_take]; congr 1; omega
      rw [htk]
      have hfd : List.Forall₂ (Denotes s) (elems s ⟨some b, 0, num⟩).dropLast xs.dropLast := by
        rw [List.dropLast_eq_take, List.dropLast_eq_take, hf.length_eq]
        exact List.forall₂_take _ hf
      refine forall₂_mem hfd ?_
      intro d y hd' hdy
      have hde := (List.dropLast_sublist _).subset hd'
      have hdm : d ∈ mem := by rw [hel] at hde; exact List.mem_of_mem_take hde
      exact dn_kept' h i2 (fun i x hx => by
        have e : cont (setVar (newVar s1 c) a (.varArray ⟨some b, 0, num - 1⟩)) i = cont s i := by show cont (newVar s1 c) i = _; rw [f1]
        rw [e] at hx; exact hx) (elems_kind h hde).1
        (fun j hj => i2.live_body hm' (List.mem_flatMap.mpr ⟨d, hdm, hj⟩)) hdy

end Strpp.VM
