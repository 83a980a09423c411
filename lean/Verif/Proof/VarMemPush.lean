import Verif.Proof.VarMemArr
/-! Variables; pushing into an array of Variants; `Unshare`. -/
set_option linter.unusedSimpArgs false
set_option linter.unusedVariables false
namespace Strpp.VM

/-! ### Variables -/

theorem vocc_set {s : State} {v : Nat} {old : Option Cell} (h : s.vars[v]? = some old) (o : Option Cell) (i : Nat) :
    vocc { s with vars := s.vars.set v o } i + (varRefs old).count i = vocc s i + (varRefs o).count i :=
  count_flatMap_set varRefs s.vars v o old h i

theorem putVar_inv {s : State} {T T' : List Nat} {L : Nat → Nat} (h : Inv s T L) {v : Nat} {old : Option Cell}
    (hv : s.vars[v]? = some old) (o : Option Cell) (hk : ∀ c, o = some c → kindOk (cont s) c)
    (hT : ∀ j, T'.count j + (varRefs o).count j = T.count j + (varRefs old).count j) :
    Inv { s with vars := s.vars.set v o } T' L := by
  refine ⟨fun i => ?_, h.pos, ?_, h.bkind, h.rank, h.lostText⟩
  · have h1 := vocc_set hv o i
    have h2 := h.cnt i
    have h3 := hT i
    have h4 : VM.cnt { s with vars := s.vars.set v o } i = VM.cnt s i := rfl
    have h5 : bocc { s with vars := s.vars.set v o } i = bocc s i := rfl
    rw [h4, h5]; omega
  · intro w c hw
    have hw' : (s.vars.set v o)[w]? = some (some c) := hw
    rw [List.getElem?_set] at hw'
    split at hw'
    · split at hw'
      · simp at hw'; exact hk c hw'
      · cases hw'
    · exact h.vkind w c hw'

theorem setVar_inv {s : State} {T T' : List Nat} {L : Nat → Nat} (h : Inv s T L) {v : Nat} {old : Cell}
    (hv : s.vars[v]? = some (some old)) (c : Cell) (hk : kindOk (cont s) c)
    (hT : ∀ j, T'.count j + c.refs.count j = T.count j + old.refs.count j) : Inv (setVar s v c) T' L :=
  putVar_inv h hv (some c) (fun d hd => by cases hd; exact hk) hT

theorem newVar_inv {s : State} {T T' : List Nat} {L : Nat → Nat} (h : Inv s T L) (c : Cell) (hk : kindOk (cont s) c)
    (hT : ∀ j, T'.count j + c.refs.count j = T.count j) : Inv (newVar s c) T' L := by
  refine ⟨fun i => ?_, h.pos, ?_, h.bkind, h.rank, h.lostText⟩
  · have h1 : vocc (newVar s c) i = vocc s i + c.refs.count i := by
      unfold vocc newVar; simp [varRefs, List.count_append]
    have h2 := h.cnt i
    have h3 := hT i
    have h4 : VM.cnt (newVar s c) i = VM.cnt s i := rfl
    have h5 : bocc (newVar s c) i = bocc s i := rfl
    rw [h4, h5, h1]; omega
  · intro w d hw
    have hw' : (s.vars ++ [some c])[w]? = some (some d) := hw
    rw [List.getElem?_append] at hw'
    split at hw'
    · exact h.vkind w d hw'
    · have : w - s.vars.length = 0 := by
        by_contra hne
        obtain ⟨k, hk⟩ : ∃ k, w - s.vars.length = k + 1 := ⟨w - s.vars.length - 1, by omega⟩
        rw [hk] at hw'; simp at hw'
      rw [this] at hw'; simp at hw'; subst hw'; exact hk

theorem getVar_of {s : State} {v : Nat} {c : Cell} (h : s.vars[v]? = some (some c)) : getVar s v = .ok c := by
  unfold getVar; rw [h]

theorem assign_var {s : State} {T : List Nat} {L : Nat → Nat} (h : Inv s T L) {v : Nat} {old c : Cell}
    (hv : s.vars[v]? = some (some old)) (hk : kindOk (cont s) c) (hl : ∀ j ∈ c.refs, ∃ x, cont s j = some x) :
    ∃ s', assign s (.var v) c = .ok s' ∧ Inv s' T L ∧ s'.vars = s.vars.set v (some c) ∧
      (∀ i x, cont s' i = some x → cont s i = some x) := by
  have hlt := (List.getElem?_eq_some_iff.mp hv).1
  obtain ⟨s1, h1, i1, c1⟩ := addRefs_inv h c.refs hl
  have f1 : cont s1 = cont s := funext c1.same
  have hv1 : s1.vars[v]? = some (some old) := by rw [c1.vars]; exact hv
  have i2 := setVar_inv i1 hv1 .none trivial (T' := old.refs ++ (c.refs ++ T)) (by intro j; simp [List.count_append, Cell.refs]; omega)
  obtain ⟨s3, h3, i3, k3⟩ := release_inv old.refs i2
  have hlive3 : ∀ j ∈ c.refs, ∃ x, cont s3 j = some x := fun j hj => i3.live (b := j) (by
    have : 0 < c.refs.count j := List.count_pos_iff.mpr hj
    rw [List.count_append]; omega)
  have k03 : ∀ i x, cont s3 i = some x → cont s i = some x := by
    intro i x hx
    have := k3.same i x hx
    have e : cont (setVar s1 v .none) i = cont s1 i := rfl
    rw [e, f1] at this; exact this
  have hk3 : kindOk (cont s3) c := kindOk_congr (fun i hi => by
    obtain ⟨x, hx⟩ := hlive3 i hi
    rw [hx, k03 i x hx]) hk
  obtain ⟨s4, h4, i4, c4⟩ := addRefs_inv i3 c.refs hlive3
  have f4 : cont s4 = cont s3 := funext c4.same
  have hv4 : s4.vars[v]? = some (some .none) := by
    rw [c4.vars, k3.vars]; simp [setVar, List.getElem?_set, c1.vars, hlt]
  have i5 := setVar_inv i4 hv4 c (by rw [f4]; exact hk3) (T' := c.refs ++ T) (by intro j; simp [List.count_append, Cell.refs]; omega)
  obtain ⟨s6, h6, i6, k6⟩ := release_inv c.refs i5
  refine ⟨s6, ?_, i6, ?_, ?_⟩
  · have g1 : getPlace s1 (.var v) = .ok old := getVar_of hv1
    have p1 : setPlace s1 (.var v) .none = .ok (setVar s1 v .none) := by
      show (getVar s1 v >>= fun _ => _) = _
      rw [getVar_of hv1]; rfl
    have p4 : setPlace s4 (.var v) c = .ok (setVar s4 v c) := by
      show (getVar s4 v >>= fun _ => _) = _
      rw [getVar_of hv4]; rfl
    show (addRefs s c.refs >>= fun s => _) = _
    rw [h1, res_bind_ok]; simp only [g1, res_bind_ok, p1, h3, h4, p4, h6]
  · rw [k6.vars]
    show (s4.vars.set v (some c)) = _
    rw [c4.vars, k3.vars]
    show ((s1.vars.set v (some Cell.none)).set v (some c)) = _
    rw [List.set_set, c1.vars]
  · intro i x hx
    have := k6.same i x hx
    have e : cont (setVar s4 v c) i = cont s4 i := rfl
    rw [e, f4] at this
    exact k03 i x this

/-! ### Insertion -/

theorem moveUp_inv {L : Nat → Nat} {T : List Nat} {b pos n num : Nat} (i : Nat) :
    ∀ {s : State} (h : Inv s T L) {mem : List Cell}, cont s b = some (.cells mem num) → i ≤ mem.length →
      NoIn s b → 0 < vocc s b + T.count b →
    ∃ s' mem', moveUp s b pos n i = .ok s' ∧ Inv s' T L ∧ NoIn s' b ∧ cont s' b = some (.cells mem' num) ∧
      mem'.length = mem.length ∧ mem'.take pos = mem.take pos ∧ KeptBut b s s' := by
  induction i with
  | zero => intro s h mem hb hi hno hr; exact ⟨s, mem, rfl, h, hno, hb, rfl, rfl, KeptBut.refl b s⟩
  | succ i ih =>
    intro s h mem hb hi hno hr
    unfold moveUp
    by_cases hp : i + 1 > pos + n
    · rw [if_pos hp]
      obtain ⟨c, hc⟩ : ∃ c, mem[i - n]? = some c := ⟨_, List.getElem?_eq_getElem (by omega)⟩
      have hcm : c ∈ mem := List.mem_of_getElem? hc
      obtain ⟨s1, h1, i1, n1, b1, k1⟩ := assign_elem (i := i) h hb (by omega) ((h.bkind b _ hb).2 c hcm)
        (fun j hj => h.live_body hb (List.mem_flatMap.mpr ⟨c, hcm, hj⟩)) hno (noIn_cells hno hb c hcm) hr
      obtain ⟨s2, mem2, h2, i2, n2, b2, l2, t2, k2⟩ := ih i1 b1 (by simp; omega) n1 (by rw [vocc_vars k1.vars]; exact hr)
      refine ⟨s2, mem2, ?_, i2, n2, b2, by rw [l2]; simp, ?_, k1.trans k2⟩
      · rw [getCells_of hb, res_bind_ok]
        show (rd mem (i - n) >>= fun x => _) = _
        rw [rd_eq_ok.mpr hc, res_bind_ok, h1, res_bind_ok]; exact h2
      · rw [t2, List.take_set_of_le (by omega)]
    · rw [if_neg hp]
      exact ⟨s, mem, rfl, h, hno, hb, rfl, rfl, KeptBut.refl b s⟩

theorem insertOne_inv {s : State} {T : List Nat} {L : Nat → Nat} (h : Inv s T L) {b pos : Nat} {mem : List Cell} {num : Nat}
    (hb : cont s b = some (.cells mem num)) (hc : cnt s b ≤ 1) (hp : pos ≤ num) {e : Cell} (hk : kindOk (cont s) e)
    (heb : b ∉ e.refs) (hba : ∀ j ∈ e.refs, Backed s T b j) (hno : NoIn s b) (hr : 0 < vocc s b + T.count b) :
    ∃ s' mem', insertOne s b pos e = .ok s' ∧ Inv s' T L ∧ NoIn s' b ∧ cont s' b = some (.cells mem' (num + 1)) ∧
      mem'.take (pos + 1) = mem.take pos ++ [e] ∧ KeptBut b s s' := by
  obtain ⟨x, hx, hxc, hcx⟩ := body_of_cont hb
  have hbk := h.bkind b _ hb
  obtain ⟨s1, mem1, h1, i1, n1, b1, t1, l1, k1⟩ := resize_inv h hb (num + 1) hno hr
  have hr1 : 0 < vocc s1 b + T.count b := by rw [vocc_vars k1.vars]; exact hr
  have htake : mem1.take pos = mem.take pos := by
    have : (mem1.take num).take pos = (mem.take num).take pos := by rw [t1]
    rwa [List.take_take, List.take_take, Nat.min_eq_left hp] at this
  obtain ⟨s2, mem2, h2, i2, n2, b2, l2, t2, k2⟩ : ∃ s' mem', makeRoom s1 b pos num = .ok s' ∧ Inv s' T L ∧
      NoIn s' b ∧ cont s' b = some (.cells mem' num) ∧ mem'.length = mem1.length ∧ mem'.take pos = mem1.take pos ∧ KeptBut b s1 s' := by
    unfold makeRoom
    by_cases hgt : num > pos
    · rw [if_pos hgt]
      exact moveUp_inv (num + 1) i1 b1 l1 n1 hr1
    · rw [if_neg hgt]
      exact ⟨s1, mem1, rfl, i1, n1, b1, rfl, rfl, KeptBut.refl b s1⟩
  have k02 := k1.trans k2
  have hba2 : ∀ j ∈ e.refs, Backed s2 T b j := fun j hj => (hba j hj).kept i2 k02
  obtain ⟨s3, h3, i3, n3, b3, k3⟩ := fill_inv [e] i2 (pos := pos) b2 (by simp; omega) (by
    intro c hc
    simp at hc; subst hc
    exact ⟨k02.kind heb (fun j hj => (hba2 j hj).live i2) hk, heb, hba2⟩) n2 (by rw [vocc_vars k2.vars]; exact hr1)
  have hk3 := i3.bkind _ _ b3
  obtain ⟨s4, h4, i4, n4, b4, e4, v4, _⟩ := setCells_inv i3 b3 (over mem2 pos [e]) (num + 1) (by omega)
    (by rw [over_length]; omega) (fun c hc => hk3.2 c hc) n3 (noIn_cells n3 b3) (T' := T) (fun j => rfl)
  refine ⟨s4, _, ?_, i4, n4, b4, ?_, (k02.trans k3).trans ⟨fun i x hi hx => by rw [← e4 i hi]; exact hx, v4⟩⟩
  · show (getBody s b >>= fun x => _) = _
    rw [getBody_of hx, res_bind_ok]
    show (assert (decide (x.count ≤ 1)) >>= fun _ => _) = _
    rw [decide_eq_true (by omega : x.count ≤ 1), assert_true, res_bind_ok, getCells_of hb, res_bind_ok]
    show (assert (decide (pos ≤ num)) >>= fun _ => _) = _
    rw [decide_eq_true hp, assert_true, res_bind_ok, h1, res_bind_ok]
    show (makeRoom s1 b pos num >>= fun s => _) = _
    rw [h2, res_bind_ok, h3, res_bind_ok, getCells_of b3, res_bind_ok]
    exact h4
  · rw [over_eq _ _ _ (by simp; omega), t2, htake]
    have : (mem.take pos).length = pos := by have := hbk.1; simp; omega
    have h5 : (mem.take pos ++ [e]).length = pos + 1 := by simp; have := hbk.1; omega
    exact List.take_left' h5

/-! ### Unshare -/

/-- the elements of an array -/
def elems (s : State) (a : Arr.Slice) : List Cell :=
  match a.body with
  | none => []
  | some b => match cont s b with
    | some (.cells mem _) => mem.take a.num
    | _ => []

theorem elements_of {s : State} {T : List Nat} {L : Nat → Nat} (h : Inv s T L) {a : Arr.Slice} (hk : kindOk (cont s) (.varArray a)) :
    elements s a = .ok (elems s a) ∧ (elems s a).length = a.num := by
  obtain ⟨body, off, num⟩ := a
  cases body with
  | none =>
    have : num = 0 := hk
    subst this
    exact ⟨rfl, rfl⟩
  | some b =>
    obtain ⟨h0, mem, n, hm, hn⟩ := hk
    simp at h0 hn
    subst h0
    have hbk := (h.bkind b _ hm).1
    have e : elems s ⟨some b, 0, num⟩ = mem.take num := by unfold elems; simp only [hm]
    rw [e]
    refine ⟨?_, by simp; omega⟩
    show (getCells s b >>= fun r => _) = _
    rw [getCells_of hm, res_bind_ok]
    show (if 0 + num ≤ mem.length then _ else _) = _
    rw [if_pos (by omega), List.drop_zero]

theorem elems_kind {s : State} {T : List Nat} {L : Nat → Nat} (h : Inv s T L) {a : Arr.Slice} {c : Cell} (hc : c ∈ elems s a) :
    kindOk (cont s) c ∧ ∃ b x, a.body = some b ∧ cont s b = some x ∧ ∀ j ∈ c.refs, j ∈ x.refs := by
  unfold elems at hc
  split at hc
  · simp at hc
  · rename_i b hb
    split at hc
    · rename_i mem num hm
      have hcm := List.mem_of_mem_take hc
      exact ⟨(h.bkind b _ hm).2 c hcm, b, _, hb, hm, fun j hj => List.mem_flatMap.mpr ⟨c, hcm, hj⟩⟩
    · simp at hc

/-- variable `v` has an array's body of its own -/
structure Owned (s : State) (T : List Nat) (v b n : Nat) (mem : List Cell) (num : Nat) : Prop where
  var : s.vars[v]? = some (some (.varArray ⟨some b, 0, n⟩))
  cont : VM.cont s b = some (.cells mem num)
  le : n ≤ num
  noIn : NoIn s b
  cnt : VM.cnt s b = 1

theorem getArray_of {s : State} {v : Nat} {a : Arr.Slice} (h : s.vars[v]? = some (some (.varArray a))) : getArray s v = .ok a := by
  show (getVar s v >>= fun c => _) = _
  rw [getVar_of h]; rfl

theorem unshare_inv {s : State} {T : List Nat} {L : Nat → Nat} (h : Inv s T L) {v : Nat} {a : Arr.Slice}
    (hv : s.vars[v]? = some (some (.varArray a))) (extra : Nat) :
    ∃ s' b mem num, unshare s v extra = .ok s' ∧ Inv s' T L ∧ Owned s' T v b a.num mem num ∧ mem.take a.num = elems s a ∧
      s'.vars = s.vars.set v (some (.varArray ⟨some b, 0, a.num⟩)) ∧
      (∀ i x, i ≠ b → cont s' i = some x → cont s i = some x) ∧
      (∀ w c, w ≠ v → s.vars[w]? = some (some c) → b ∉ c.refs) := by
  have hlt := (List.getElem?_eq_some_iff.mp hv).1
  have hk := h.vkind v _ hv
  have hstart : unshare s v extra = (alone s a >>= fun keep =>
      if keep then .ok s
      else do
        let data ← elements s a
        let b := s.bodies.length
        let s ← newArray s data (a.num + extra)
        let s := setVar s v (.varArray ⟨some b, 0, a.num⟩)
        release s a.body.toList) := by
    show (getArray s v >>= fun a => _) = _
    rw [getArray_of hv]; rfl
  rw [hstart]
  by_cases hkeep : ∃ b, a.body = some b ∧ cnt s b ≤ 1
  · obtain ⟨b, hb, hc1⟩ := hkeep
    obtain ⟨body, off, num⟩ := a
    simp at hb; subst hb
    obtain ⟨h0, mem, n, hm, hn⟩ := hk
    simp at h0 hn
    subst h0
    obtain ⟨x, hx, _, hxc⟩ := body_of_cont hm
    have hcb := h.cnt b
    have hvo := vocc_pos hv (b := b) (by simp [Cell.refs])
    refine ⟨s, b, mem, n, ?_, h, ⟨hv, hm, hn, ?_, by omega⟩, ?_, ?_, fun i x _ hx => hx, ?_⟩
    · show ((getBody s b >>= fun x => _) >>= fun keep => _) = _
      rw [getBody_of hx]
      show (if decide (x.count ≤ 1) = true then _ else _) = _
      rw [if_pos (by simp; omega)]
    · intro i y hi hin
      have := bocc_pos hi hin
      omega
    · unfold elems; simp only [hm]
    · apply List.ext_getElem?
      intro i
      rw [List.getElem?_set]
      split
      · rename_i e; subst e; simp [hlt]; rw [List.getElem?_eq_getElem hlt] at hv; simpa using hv
      · rfl
    · intro w c hw hwv hin
      have h2 := vocc_set hv none b
      have h3 : 0 < vocc { s with vars := s.vars.set v none } b :=
        vocc_pos (s := { s with vars := s.vars.set v none }) (v := w) (c := c)
          (by show (s.vars.set v none)[w]? = _; rw [List.getElem?_set]; simp [Ne.symm hw, hwv]) hin
      simp [varRefs, Cell.refs] at h2
      omega
  · have hkeep' : alone s a = .ok false := by
      unfold alone
      cases hb : a.body with
      | none => rfl
      | some b =>
        obtain ⟨x, hx⟩ := h.live_var hv (b := b) (by simp [Cell.refs, hb])
        obtain ⟨y, hy, _, hyc⟩ := body_of_cont hx
        show (getBody s b >>= fun x => _) = _
        rw [getBody_of hy, res_bind_ok]
        have : ¬ y.count ≤ 1 := fun hle => hkeep ⟨b, hb, by omega⟩
        simp [this]
    rw [hkeep', res_bind_ok, if_neg (by simp)]
    obtain ⟨he, hlen⟩ := elements_of h hk
    rw [he, res_bind_ok]
    obtain ⟨s1, mem, h1, i1, n1, b1, t1, l1, k1⟩ := newArray_inv h (elems s a) (a.num + extra) (by
      intro c hc
      obtain ⟨hkc, b, x, hb, hx, hsub⟩ := elems_kind h hc
      refine ⟨hkc, fun j hj => .inr ⟨b, x, ?_, ?_, hx, hsub j hj⟩⟩
      · intro e; subst e; rw [cont_fresh] at hx; cases hx
      · have := vocc_pos hv (b := b) (by simp [Cell.refs, hb])
        unfold Root; omega)
    rw [hlen] at b1 t1
    have hv1 : s1.vars[v]? = some (some (.varArray a)) := by rw [k1.vars]; exact hv
    have hnotin : s.bodies.length ∉ (Cell.varArray a).refs := by
      intro hin
      obtain ⟨x, hx⟩ := h.live_var hv hin
      rw [cont_fresh] at hx; cases hx
    have i2 := setVar_inv i1 hv1 (.varArray ⟨some s.bodies.length, 0, a.num⟩) ⟨rfl, mem, a.num, b1, Nat.le_refl _⟩
      (T' := a.body.toList ++ T) (by
        intro j
        have : (Cell.varArray ⟨some s.bodies.length, 0, a.num⟩).refs = [s.bodies.length] := rfl
        have e2 : (Cell.varArray a).refs = a.body.toList := rfl
        rw [this, e2, List.count_append, List.count_cons (l := T), List.count_cons (l := [])]; simp; omega)
    obtain ⟨s3, h3, i3, k3⟩ := release_inv a.body.toList i2
    have hvars : s3.vars = s.vars.set v (some (.varArray ⟨some s.bodies.length, 0, a.num⟩)) := by
      rw [k3.vars]; show s1.vars.set v _ = _; rw [k1.vars]
    have hv3 : s3.vars[v]? = some (some (.varArray ⟨some s.bodies.length, 0, a.num⟩)) := by
      rw [hvars]; simp [List.getElem?_set, hlt]
    obtain ⟨x3, hx3⟩ := i3.live_var hv3 (b := s.bodies.length) (by simp [Cell.refs])
    have b3 : cont s3 s.bodies.length = some (.cells mem a.num) := by
      rw [k3.eq hx3]; exact b1
    have n3 : NoIn s3 s.bodies.length := k3.noIn n1
    obtain ⟨f1, f2, f3, f4⟩ := h.fresh
    have hvo3 : vocc s3 s.bodies.length = 1 := by
      have e1 : vocc s3 s.bodies.length = vocc { s with vars := s.vars.set v (some (.varArray ⟨some s.bodies.length, 0, a.num⟩)) } s.bodies.length := by
        unfold vocc; rw [hvars]
      have e2 := vocc_set hv (some (.varArray ⟨some s.bodies.length, 0, a.num⟩)) s.bodies.length
      have e3 : (varRefs (some (Cell.varArray a))).count s.bodies.length = 0 := List.count_eq_zero.mpr hnotin
      have e4 : (varRefs (some (Cell.varArray ⟨some s.bodies.length, 0, a.num⟩))).count s.bodies.length = 1 := by
        simp [varRefs, Cell.refs]
      omega
    refine ⟨s3, s.bodies.length, mem, a.num, ?_, i3, ⟨hv3, b3, Nat.le_refl _, n3, ?_⟩, t1, hvars, ?_, ?_⟩
    · show (newArray s (elems s a) (a.num + extra) >>= fun s' => _) = _
      rw [h1, res_bind_ok]; exact h3
    · have := i3.cnt s.bodies.length
      rw [hvo3, bocc_zero n3, f3, f4] at this
      exact this
    · intro i x hi hx
      have := k3.same i x hx
      have e : cont (setVar s1 v (.varArray ⟨some s.bodies.length, 0, a.num⟩)) i = cont s1 i := rfl
      rw [e] at this
      exact k1.same i x hi this
    · intro w c hw hwc hin
      obtain ⟨x, hx⟩ := h.live_var hwc hin
      rw [cont_fresh] at hx; cases hx

end Strpp.VM
