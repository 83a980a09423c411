import Verif.Proof.VarMemOps2
/-! Coercion, and histories. -/
set_option linter.unusedSimpArgs false
set_option linter.unusedVariables false
namespace Strpp.VM

open Spec.VM Var

theorem coerce_same (memo : Int) (junk : BitVec 64) (x : Variant) (h : x.type ≠ .none) : Var.coerce memo junk x x.type = .ok x := by
  cases x <;> first | (exact absurd rfl h) | rfl

/-- a number is made of a string, or the coercion fails -/
theorem coerce_string {memo : Int} {junk : BitVec 64} {t : List UCS4} {ty : Ty} {y : Variant} (h0 : ty ≠ .none) (h1 : ty ≠ .string)
    (h : Var.coerce memo junk (.string t) ty = .ok y) : ∃ c, ofPlain y = some c ∧ c.refs = [] ∧ (∀ k, kindOk k c) ∧ ∀ s n, den s (n + 1) c = y := by
  have bad : ∀ t', mustBe (.string t) t' = .ok y → t' ≠ .string → False := by
    intro t' hm ht
    unfold mustBe at hm
    split at hm
    · rename_i e; exact ht e.symm
    · cases hm
  cases ty with
  | none => exact absurd rfl h0
  | string => exact absurd rfl h1
  | integer =>
    obtain ⟨r, _, h⟩ := hbind h
    split at h
    · exact (bad _ h (by decide)).elim
    · cases h; exact ⟨_, rfl, rfl, fun _ => trivial, fun _ _ => rfl⟩
  | long =>
    obtain ⟨r, _, h⟩ := hbind h
    split at h
    · exact (bad _ h (by decide)).elim
    · cases h; exact ⟨_, rfl, rfl, fun _ => trivial, fun _ _ => rfl⟩
  | longLong =>
    obtain ⟨r, _, h⟩ := hbind h
    split at h
    · exact (bad _ h (by decide)).elim
    · cases h; exact ⟨_, rfl, rfl, fun _ => trivial, fun _ _ => rfl⟩
  | strArray => exact (bad _ h (by decide)).elim
  | varArray => exact (bad _ h (by decide)).elim
  | strVarMap => exact (bad _ h (by decide)).elim

/-- A number or None becomes a number, or a string, or the coercion fails. -/
theorem coerce_plain {memo : Int} {junk : BitVec 64} {c : Cell} {x y : Variant} {ty : Ty} (h0 : ty ≠ .none) (hp : c.plain = some x)
    (h : Var.coerce memo junk x ty = .ok y) : (∃ t, y = .string t) ∨
      ((∀ t, y ≠ .string t) ∧ ∃ c', ofPlain y = some c' ∧ c'.refs = [] ∧ (∀ k, kindOk k c') ∧ ∀ s n, den s (n + 1) c' = y) := by
  have same : ∀ t', mustBe x t' = .ok y → y = x := by
    intro t' hm
    unfold mustBe at hm
    split at hm
    · cases hm; rfl
    · cases hm
  have num : ∀ d : Cell, d.plain = some y → (∀ t, y ≠ .string t) ∧ ∃ c', ofPlain y = some c' ∧ c'.refs = [] ∧ (∀ k, kindOk k c') ∧ ∀ s n, den s (n + 1) c' = y := by
    intro d hd
    cases d <;> cases hd <;> exact ⟨by intro t; simp, _, rfl, rfl, fun _ => trivial, fun _ _ => rfl⟩
  cases ty with
  | none => exact absurd rfl h0
  | strArray => right; rw [same _ h]; rw [same _ h] at num; exact num c hp
  | varArray => right; rw [same _ h]; rw [same _ h] at num; exact num c hp
  | strVarMap => right; rw [same _ h]; rw [same _ h] at num; exact num c hp
  | string =>
    cases c <;> cases hp
    · right; have := same .string h; subst this; exact num .none rfl
    · left; cases h; exact ⟨_, rfl⟩
    · left; cases h; exact ⟨_, rfl⟩
    · left; cases h; exact ⟨_, rfl⟩
  | integer =>
    right
    cases c <;> cases hp
    · have := same .integer h; subst this; exact num .none rfl
    · cases h; exact num (.integer _) rfl
    · rename_i w
      have h' : (if w.toInt ≠ loInt w then mustBe (.long w) .integer else .ok (.long (setInt w (loInt w)))) = .ok y := h
      split at h'
      · have := same _ h'; subst this; exact num (.long _) rfl
      · cases h'; exact num (.long _) rfl
    · rename_i w
      have h' : (if w.toInt ≠ loInt w then mustBe (.longLong w) .integer else .ok (.longLong (setInt w (loInt w)))) = .ok y := h
      split at h'
      · have := same _ h'; subst this; exact num (.longLong _) rfl
      · cases h'; exact num (.longLong _) rfl
  | long =>
    right
    cases c <;> cases hp
    · have := same .long h; subst this; exact num .none rfl
    · cases h; exact num (.integer _) rfl
    · cases h; exact num (.long _) rfl
    · cases h; exact num (.longLong _) rfl
  | longLong =>
    right
    cases c <;> cases hp
    · have := same .longLong h; subst this; exact num .none rfl
    · cases h; exact num (.integer _) rfl
    · cases h; exact num (.long _) rfl
    · cases h; exact num (.longLong _) rfl

theorem Inv.leak {s : State} {T : List Nat} {L : Nat → Nat} (h : Inv s T L) (hT : ∀ b ∈ T, ∃ t, cont s b = some (.text t)) :
    Inv s [] (fun b => L b + T.count b) :=
  ⟨fun b => by have := h.cnt b; rw [List.count_nil]; omega, h.pos, h.vkind, h.bkind, h.rank, fun b hb => by
    by_cases hL : 0 < L b
    · exact h.lostText b hL
    · exact hT b (List.count_pos_iff.mp (by omega))⟩

theorem plain_den {s : State} {c : Cell} {x : Variant} (hp : c.plain = some x) : Denotes s c x ∧ c.refs = [] := by
  cases c <;> cases hp <;> exact ⟨denotes_of_succ fun n => rfl, rfl⟩

theorem set_value {σ : Vals} {v : Nat} {x : Variant} (h : value σ v = some x) : σ.set v (some x) = σ := by
  have hx : σ[v]? = some (some x) := by
    unfold value at h
    split at h
    · rename_i y hy; cases h; exact hy
    · cases h
  apply List.ext_getElem?
  intro i
  rw [List.getElem?_set]
  split
  · rename_i e; subst e
    rw [if_pos (List.getElem?_eq_some_iff.mp hx).1, hx]
  · rfl

theorem setVar_shows {s : State} {T T' : List Nat} {L L' : Nat → Nat} (h : Inv s T L) {σ : Vals} (hs : Shows s σ) {v : Nat} {c : Cell} {y : Variant}
    (h' : Inv (setVar s v c) T' L') (hd : Denotes (setVar s v c) c y) : Shows (setVar s v c) (σ.set v (some y)) :=
  shows_set h h' hs rfl (fun i x hx => hx) hd

theorem coerce_does {s : State} {L : Nat → Nat} (h : Inv s [] L) {σ : Vals} (hs : Shows s σ) {memo : Int} {junk : BitVec 64} {v : Nat} {ty : Ty}
    {x y : Variant} (h0 : ty ≠ .none) (hv : value σ v = some x) (hy : Var.coerce memo junk x ty = .ok y) :
    ∃ L', Does (VM.coerce memo junk s v ty) L' (σ.set v (some y)) ∧ (losing σ (.coerce memo junk v ty) = false → L' = L) ∧
      ∀ b, L' b = L b + (lost s (.coerce memo junk v ty)).count b := by
  obtain ⟨c, hc, hd⟩ := shows_get hs hv
  have hkc := h.vkind v c hc
  have hty := denotes_type hkc hd
  by_cases hsame : c.type = ty
  · rw [← hsame, ← hty] at hy h0
    rw [coerce_same memo junk x h0] at hy
    cases hy
    refine ⟨L, ⟨s, ?_, h, by rw [set_value hv]; exact hs⟩, fun _ => rfl, fun b => ?_⟩
    case refine_2 =>
      have hts := hsame
      cases c <;> simp only [lost, hc, List.count_nil, Nat.add_zero]
      rw [if_pos (show ty = .string from hts.symm)]
      rfl
    show (getVar s v >>= fun c => _) = _
    rw [getVar_of hc, res_bind_ok, if_pos hsame]
  · have hstart : VM.coerce memo junk s v ty = (match c with
        | .string b => do
          let r ← Var.coerce memo junk (.string (textOf s b)) ty
          match ofPlain r with
          | some c' => .ok (setVar s v c')
          | none => .error .assertion
        | c =>
          match c.plain with
          | none => .error .assertion
          | some x => do
            let r ← Var.coerce memo junk x ty
            match r with
            | .string t => do
              let b := s.bodies.length
              let s ← assign (newBody s (.text t)) (.var v) (.string b)
              release s [b]
            | r =>
              match ofPlain r with
              | some c' => .ok (setVar s v c')
              | none => .error .assertion) := by
      show (getVar s v >>= fun c => _) = _
      rw [getVar_of hc, res_bind_ok, if_neg hsame]
      cases c <;> rfl
    rw [hstart]
    -- numbers and None
    have plain : ∀ x', c.plain = some x' → ∃ L', Does (do
            let r ← Var.coerce memo junk x' ty
            match r with
            | .string t => do
              let b := s.bodies.length
              let s ← assign (newBody s (.text t)) (.var v) (.string b)
              release s [b]
            | r =>
              match ofPlain r with
              | some c' => .ok (setVar s v c')
              | none => .error .assertion) L' (σ.set v (some y)) ∧ (losing σ (.coerce memo junk v ty) = false → L' = L) ∧
      ∀ b, L' b = L b + (lost s (.coerce memo junk v ty)).count b := by
      intro x' hp
      obtain ⟨hd', hr⟩ := plain_den (s := s) hp
      have hxx := dn_unique hd hd'
      subst hxx
      rw [hy, res_bind_ok]
      refine ⟨L, ?_, fun _ => rfl, fun b => by cases c <;> first | (cases hp; done) | simp [lost, hc]⟩
      rcases coerce_plain h0 hp hy with ⟨t, rfl⟩ | ⟨hns, c', hc', hr', hk', hdc⟩
      · obtain ⟨i1, n1, b1, e1⟩ := newBody_inv h (.text t) rfl trivial
        have hvv : (newBody s (.text t)).vars[v]? = some (some c) := hc
        obtain ⟨s2, h2, i2, v2, k2⟩ := assign_var i1 hvv (c := .string s.bodies.length) ⟨t, b1⟩ (by
          intro j hj; simp [Cell.refs] at hj; subst hj; exact ⟨_, b1⟩)
        obtain ⟨s3, h3, i3, k3⟩ := release_inv [s.bodies.length] (T := []) i2
        have v3 : s3.vars = s.vars.set v (some (.string s.bodies.length)) := by rw [k3.vars, v2]; rfl
        have hkeep : ∀ i y, cont s3 i = some y → cont (newBody s (.text t)) i = some y := fun i y hy => k2 i y (k3.same i y hy)
        have hlt := (List.getElem?_eq_some_iff.mp hc).1
        obtain ⟨z, hz⟩ := i3.live_var (v := v) (c := .string s.bodies.length) (by rw [v3]; simp [List.getElem?_set, hlt])
          (b := s.bodies.length) (by simp [Cell.refs])
        have hz' := hkeep _ _ hz
        rw [b1] at hz'; cases hz'
        refine ⟨s3, ?_, i3, ?_⟩
        · show (assign (newBody s (.text t)) (.var v) (.string s.bodies.length) >>= fun s => _) = _
          rw [h2]; exact h3
        · refine shows_own h i3 hs (b := s.bodies.length) v3 (fun i y hi hy => by
            have := hkeep i y hy; rw [e1 i hi] at this; exact this) ?_ (fun w c _ hw => notVar_fresh h w c hw) ?_
          · intro i y hy; exact n1 i y (hkeep i y hy)
          · have := denotes_string s3 s.bodies.length
            have e : txt (cont s3) s.bodies.length = t := by unfold txt; rw [hz]
            rw [e] at this; exact this
      · have i1 : Inv (setVar s v c') [] L := setVar_inv h hc c' (hk' _) (by intro j; rw [hr, hr'])
        refine ⟨setVar s v c', ?_, i1, setVar_shows h hs i1 (denotes_of_succ fun n => hdc _ n)⟩
        cases y with
        | string t => exact absurd rfl (hns t)
        | _ => simp only [hc']
    have bad : ∀ t', mustBe x t' = .ok y → t' ≠ x.type → False := by
      intro t' hm ht
      unfold mustBe at hm
      split at hm
      · rename_i e; exact ht e.symm
      · cases hm
    have fails : ∀ {P : Prop}, (x.type = .varArray ∨ x.type = .strVarMap) → P := by
      intro P hx
      have hne : ty ≠ x.type := by rw [hty]; exact fun e => hsame e.symm
      exfalso
      cases ty with
      | none => exact h0 rfl
      | strArray => exact bad _ hy hne
      | varArray => exact bad _ hy hne
      | strVarMap => exact bad _ hy hne
      | integer => cases x <;> simp [Variant.type] at hx <;> exact bad .integer hy hne
      | long => cases x <;> simp [Variant.type] at hx <;> exact bad .long hy hne
      | longLong => cases x <;> simp [Variant.type] at hx <;> exact bad .longLong hy hne
      | string => cases x <;> simp [Variant.type] at hx <;> exact bad .string hy hne
    cases c with
    | none => exact plain _ rfl
    | integer w => exact plain _ rfl
    | long w => exact plain _ rfl
    | longLong w => exact plain _ rfl
    | varArray a => exact fails (.inl hty)
    | strVarMap b => exact fails (.inr hty)
    | string b =>
      have hxx := dn_unique hd (denotes_string s b)
      subst hxx
      have hns : ty ≠ .string := fun e => hsame e.symm
      obtain ⟨c', hc', hr', hk', hdc⟩ := coerce_string h0 hns hy
      have i1 : Inv (setVar s v c') [b] L := setVar_inv h hc c' (hk' _) (by intro j; rw [hr']; simp [Cell.refs])
      have hlk := i1.leak (fun b' hb' => by rw [List.mem_singleton.mp hb']; exact hkc)
      refine ⟨_, ⟨setVar s v c', ?_, hlk, setVar_shows h hs hlk (denotes_of_succ fun n => hdc _ n)⟩, ?_⟩
      · simp only [textOf_eq, hy, res_bind_ok, hc']
      · refine ⟨fun hlo => ?_, fun b' => ?_⟩
        · simp [losing, hv, hns] at hlo
        · simp [lost, hc, hns]

/-! ### One call, and histories -/

theorem exec_step {s : State} {L : Nat → Nat} (h : Inv s [] L) {σ σ' : Vals} (hs : Shows s σ) (op : Op) (hst : step σ op = some σ') :
    ∃ L', Does (exec s op) L' σ' ∧ (losing σ op = false → L' = L) ∧ ∀ b, L' b = L b + (lost s op).count b := by
  have same : ∀ {r : Res State} {σ'' : Vals}, Does r L σ'' → (hl : lost s op = [] := by rfl) → ∃ L', Does r L' σ'' ∧ (losing σ op = false → L' = L) ∧ ∀ b, L' b = L b + (lost s op).count b :=
    fun hd hl => ⟨L, hd, fun _ => rfl, fun b => by rw [hl]; rfl⟩
  cases op with
  | null => cases hst; exact same (plain_new h hs rfl trivial (denotes_of_succ fun n => rfl))
  | int x => cases hst; exact same (plain_new h hs rfl trivial (denotes_of_succ fun n => rfl))
  | long x => cases hst; exact same (plain_new h hs rfl trivial (denotes_of_succ fun n => rfl))
  | longLong x => cases hst; exact same (plain_new h hs rfl trivial (denotes_of_succ fun n => rfl))
  | str t => cases hst; exact same (str_does h hs t)
  | emptyArray => cases hst; exact same (plain_new h hs rfl rfl (denotes_arr_none s 0 0))
  | array vs =>
    simp only [step] at hst
    split at hst
    · rename_i xs hx; cases hst; exact same (array_does h hs hx)
    · cases hst
  | emptyMap => cases hst; exact same (emptyMap_does h hs)
  | copy w =>
    simp only [step] at hst
    split at hst
    · rename_i x hx; cases hst; exact same (copy_does h hs hx)
    · cases hst
  | assign v w =>
    simp only [step] at hst
    split at hst
    · rename_i x y hx hy; cases hst; exact same (assign_does h hs hx hy)
    · cases hst
  | destroy v =>
    simp only [step] at hst
    split at hst
    · rename_i x hx; cases hst; exact same (destroy_does h hs hx)
    · cases hst
  | pair v w =>
    simp only [step] at hst
    split at hst
    · rename_i x y hx hy
      cases hst
      obtain ⟨c, hc, hdc⟩ := shows_get hs hx
      obtain ⟨d, hd, hdd⟩ := shows_get hs hy
      obtain ⟨s0, h0, i0, w0⟩ := plain_new h hs (c := .varArray ⟨none, 0, 0⟩) (x := .varArray []) rfl rfl (denotes_arr_none s 0 0)
      cases h0
      have hl : s.vars.length = σ.length := hs.1
      have hltv := (List.getElem?_eq_some_iff.mp hc).1
      have hltw := (List.getElem?_eq_some_iff.mp hd).1
      have get : ∀ (σ1 : Vals) (u : Nat) (z : Variant), σ1.length = s.vars.length → value (σ1 ++ [some z]) s.vars.length = some z := by
        intro σ1 u z hlen
        unfold value
        rw [List.getElem?_append_right (by omega), hlen]; simp
      have keep : ∀ (u : Nat) (z : Variant) (r : Option Variant), value σ u = some z → value (σ ++ [r]) u = some z := by
        intro u z r hz
        unfold value at hz ⊢
        by_cases hu : u < σ.length
        · rw [List.getElem?_append_left hu]; exact hz
        · rw [List.getElem?_eq_none (by omega)] at hz; cases hz
      have hset : ∀ (r r' : Option Variant), (σ ++ [r]).set s.vars.length r' = σ ++ [r'] := by
        intro r r'
        rw [List.set_append_right _ _ (by omega), hl]; simp
      obtain ⟨c0, hc0, hdc0⟩ := shows_get w0 (keep v x _ hx)
      have : c0 = c := by
        have e : (newVar s (.varArray ⟨none, 0, 0⟩)).vars[v]? = some (some c) := by
          show (s.vars ++ _)[v]? = _; rw [List.getElem?_append_left hltv]; exact hc
        rw [e] at hc0; cases hc0; rfl
      subst this
      obtain ⟨s1, h1, i1, w1⟩ := push_does i0 w0 (a := s.vars.length) (w := v) (by omega) (get σ v _ hl.symm) hc0 hdc0
      rw [hset] at w1
      simp only [List.nil_append] at w1
      obtain ⟨d1, hd1, hdd1⟩ := shows_get w1 (keep w y _ hy)
      have hvars : d1 = d := by
        -- the first push leaves other variables alone
        have h1' := h1
        unfold push at h1'
        obtain ⟨t1, ht1, h1'⟩ := hbind h1'
        have hv0 : (newVar s (.varArray ⟨none, 0, 0⟩)).vars[s.vars.length]? = some (some (.varArray ⟨none, 0, 0⟩)) := by
          show (s.vars ++ _)[s.vars.length]? = _; simp
        obtain ⟨t1', b, mem, num, hu, j1, o1, q1, v1, k1, nv⟩ := unshare_inv i0 hv0 1
        rw [hu] at ht1; cases ht1
        rw [getArray_of o1.var, res_bind_ok] at h1'
        obtain ⟨t2, ht2, h1'⟩ := hbind h1'
        cases h1'
        have hvw : ∀ (u : Nat) (c : Cell), u < s.vars.length → s.vars[u]? = some (some c) → t1.vars[u]? = some (some c) := by
          intro u c hu hc
          rw [v1, List.getElem?_set]
          rw [if_neg (by omega)]
          show (s.vars ++ _)[u]? = _
          rw [List.getElem?_append_left hu]; exact hc
        have hcv := hvw v _ hltv hc
        obtain ⟨t2', mem', g2, _, _, _, _, kk⟩ := insertOne_inv j1 (e := c0) o1.cont (by rw [o1.cnt]; exact Nat.le_refl _) o1.le (j1.vkind v _ hcv)
          (nv v _ (by omega) (by show (s.vars ++ _)[v]? = _; rw [List.getElem?_append_left hltv]; exact hc))
          (fun j hj => .inl (by have := vocc_pos hcv hj; unfold Root; omega)) o1.noIn
          (by have := vocc_pos o1.var (b := b) (by simp [Cell.refs]); omega)
        rw [g2] at ht2; cases ht2
        have : (setVar t2 s.vars.length (.varArray ⟨some b, 0, 0 + 1⟩)).vars[w]? = some (some d) := by
          show (t2.vars.set _ _)[w]? = _
          rw [List.getElem?_set, if_neg (by omega), kk.vars]
          exact hvw w d hltw hd
        have hd1' : (setVar t2 s.vars.length (.varArray ⟨some b, 0, 0 + 1⟩)).vars[w]? = some (some d1) := hd1
        rw [this] at hd1'; cases hd1'; rfl
      subst hvars
      obtain ⟨s2, h2, i2, w2⟩ := push_does i1 w1 (a := s.vars.length) (w := w) (by omega) (get σ w _ hl.symm) hd1 hdd1
      rw [hset] at w2
      refine same ⟨s2, ?_, i2, w2⟩
      show (getVar s v >>= fun c => _) = _
      rw [getVar_of hc, res_bind_ok]
      show (getVar s w >>= fun c => _) = _
      rw [getVar_of hd, res_bind_ok]
      show (push (newVar s (.varArray ⟨none, 0, 0⟩)) s.vars.length c0 >>= fun s' => push s' s.vars.length d1) = _
      rw [h1]; exact h2
    · cases hst
  | push a v =>
    simp only [step] at hst
    split at hst
    · cases hst
    · rename_i hne
      split at hst
      · rename_i xs x hx hy
        cases hst
        obtain ⟨c, hc, hd⟩ := shows_get hs hy
        obtain ⟨s1, h1, i1, w1⟩ := push_does h hs hne hx hc hd
        refine same ⟨s1, ?_, i1, w1⟩
        show (getVar s v >>= fun c => _) = _
        rw [getVar_of hc]; exact h1
      · cases hst
  | set a i v =>
    simp only [step] at hst
    split at hst
    · cases hst
    · rename_i hne
      split at hst
      · rename_i xs x hx hy
        split at hst
        · rename_i hi
          cases hst
          obtain ⟨c, hc, hd⟩ := shows_get hs hy
          obtain ⟨s1, h1, i1, w1⟩ := set_does h hs hne hx hc hd hi
          refine same ⟨s1, ?_, i1, w1⟩
          show (getVar s v >>= fun c => _) = _
          rw [getVar_of hc]; exact h1
        · cases hst
      · cases hst
  | elem a i =>
    simp only [step] at hst
    split at hst
    · rename_i xs hx
      split at hst
      · rename_i x hxi; cases hst; exact same (elem_does h hs hx hxi)
      · cases hst
    · cases hst
  | pull a =>
    simp only [step] at hst
    split at hst
    · rename_i xs hx
      split at hst
      · rename_i x hxi; cases hst; exact same (pull_does h hs hx hxi)
      · cases hst
    · cases hst
  | insert m k v =>
    simp only [step] at hst
    split at hst
    · cases hst
    · rename_i hne
      split at hst
      · rename_i es t x hm hk hv
        cases hst
        obtain ⟨c, hc, hdc⟩ := shows_get hs hk
        obtain ⟨kb, rfl, hkt⟩ := is_string (h.vkind k c hc) hdc
        obtain ⟨d, hd, hdd⟩ := shows_get hs hv
        obtain ⟨s1, h1, i1, w1⟩ := insert_does h hs (fun e => hne (.inl e)) (fun e => hne (.inr e)) hm hc hd hdd
        rw [hkt] at w1
        refine same ⟨s1, ?_, i1, w1⟩
        show (getString s k >>= fun c => _) = _
        have : getString s k = .ok kb := by show (getVar s k >>= fun c => _) = _; rw [getVar_of hc]; rfl
        rw [this, res_bind_ok]
        show (getVar s v >>= fun c => _) = _
        rw [getVar_of hd]; exact h1
      · cases hst
  | erase m k =>
    simp only [step] at hst
    split at hst
    · rename_i es t hm hk
      cases hst
      obtain ⟨c, hc, hdc⟩ := shows_get hs hk
      obtain ⟨kb, rfl, hkt⟩ := is_string (h.vkind k c hc) hdc
      obtain ⟨s1, h1, i1, w1⟩ := erase_does h hs hm hc
      rw [hkt] at w1
      refine same ⟨s1, ?_, i1, w1⟩
      show (getString s k >>= fun c => _) = _
      have : getString s k = .ok kb := by show (getVar s k >>= fun c => _) = _; rw [getVar_of hc]; rfl
      rw [this]; exact h1
    · cases hst
  | lookup m k =>
    simp only [step] at hst
    split at hst
    · rename_i es t hm hk
      cases hst
      obtain ⟨c, hc, hdc⟩ := shows_get hs hk
      obtain ⟨kb, rfl, hkt⟩ := is_string (h.vkind k c hc) hdc
      obtain ⟨s1, h1, i1, w1⟩ := lookup_does h hs (kb := kb) hm
      rw [hkt] at w1
      refine same ⟨s1, ?_, i1, w1⟩
      show (getString s k >>= fun c => _) = _
      have : getString s k = .ok kb := by show (getVar s k >>= fun c => _) = _; rw [getVar_of hc]; rfl
      rw [this]; exact h1
    · cases hst
  | coerce memo junk v ty =>
    simp only [step] at hst
    split at hst
    · cases hst
    · rename_i h0
      split at hst
      · rename_i x hx
        split at hst
        · rename_i y hy; cases hst; exact coerce_does h hs h0 hx hy
        · cases hst
      · cases hst

theorem exec_steps {ops : List Op} : ∀ {s : State} {L : Nat → Nat} (h : Inv s [] L) {σ σ' : Vals} (hs : Shows s σ)
    (hst : steps σ ops = some σ'), ∃ L', Does (execAll s ops) L' σ' ∧ (frugal σ ops = true → L' = L) ∧ ∀ b, L' b = L b + (lostAll s ops).count b := by
  induction ops with
  | nil => intro s L h σ σ' hs hst; cases hst; exact ⟨L, ⟨s, rfl, h, hs⟩, fun _ => rfl, fun b => rfl⟩
  | cons op ops ih =>
    intro s L h σ σ' hs hst
    unfold steps at hst
    split at hst
    · rename_i σ1 h1
      obtain ⟨L1, ⟨s1, e1, i1, w1⟩, hL1, hl1⟩ := exec_step h hs op h1
      obtain ⟨L2, ⟨s2, e2, i2, w2⟩, hL2, hl2⟩ := ih i1 w1 hst
      refine ⟨L2, ⟨s2, ?_, i2, w2⟩, ?_, fun b => ?_⟩
      · show (exec s op >>= fun s => execAll s ops) = _
        rw [e1]; exact e2
      · intro hf
        unfold frugal at hf
        rw [h1] at hf
        simp at hf
        rw [hL2 hf.2, hL1 hf.1]
      · rw [hl2 b, hl1 b]
        simp only [lostAll, e1, List.count_append]
        omega
    · cases hst

theorem init_inv : Inv State.init [] (fun _ => 0) := by
  have hc : ∀ b, cont State.init b = none := fun b => by simp [cont, State.init]
  refine ⟨fun b => by simp [cnt, vocc, bocc, State.init], fun b x hx => (by rw [hc] at hx; cases hx), fun v c hv => ?_,
    fun b x hx => (by rw [hc] at hx; cases hx), ⟨fun _ => 0, fun b x hx => (by rw [hc] at hx; cases hx)⟩, fun b hb => absurd hb (by omega)⟩
  simp [State.init] at hv

theorem init_shows : Shows State.init [] := ⟨rfl, fun v => by simp [State.init]⟩

/-- Without anything lost, what exists is reached from a variable. -/
theorem reached_of_inv {s : State} (h : Inv s [] (fun _ => 0)) {b : Nat} (hb : Live s b) : Reached s b := by
  obtain ⟨r, hr⟩ := h.rank
  obtain ⟨B, hB⟩ : ∃ B, ∀ b x, cont s b = some x → r b ≤ B := by
    refine ⟨((List.range s.bodies.length).map r).sum, fun b x hx => le_sum ?_⟩
    exact List.mem_map.mpr ⟨b, List.mem_range.mpr (lt_of_cont hx), rfl⟩
  have main : ∀ n b, B - r b ≤ n → (∃ x, cont s b = some x) → Reached s b := by
    intro n
    induction n with
    | zero =>
      intro b hn ⟨x, hx⟩
      have h1 := h.pos b x hx
      rw [h.cnt b] at h1
      by_cases hv : 0 < vocc s b
      · obtain ⟨v, o, hv, hin⟩ := mem_of_count_flatMap varRefs s.vars b hv
        cases o with
        | none => simp [varRefs] at hin
        | some c => exact .var v c b hv hin
      · have hbo : 0 < bocc s b := by simp at h1; omega
        obtain ⟨i, o, hi, hin⟩ := mem_of_count_flatMap bodyRefs s.bodies b hbo
        cases o with
        | none => simp [bodyRefs] at hin
        | some y =>
          have := hr i _ (cont_of_body hi) b hin
          have := hB i _ (cont_of_body hi)
          omega
    | succ n ih =>
      intro b hn ⟨x, hx⟩
      have h1 := h.pos b x hx
      rw [h.cnt b] at h1
      by_cases hv : 0 < vocc s b
      · obtain ⟨v, o, hv, hin⟩ := mem_of_count_flatMap varRefs s.vars b hv
        cases o with
        | none => simp [varRefs] at hin
        | some c => exact .var v c b hv hin
      · have hbo : 0 < bocc s b := by simp at h1; omega
        obtain ⟨i, o, hi, hin⟩ := mem_of_count_flatMap bodyRefs s.bodies b hbo
        cases o with
        | none => simp [bodyRefs] at hin
        | some y =>
          have h2 := hr i _ (cont_of_body hi) b hin
          exact .body i b y (ih i (by omega) ⟨_, cont_of_body hi⟩) hi hin
  obtain ⟨x, hx⟩ := hb
  exact main _ b (Nat.le_refl _) ⟨_, cont_of_body hx⟩

end Strpp.VM
