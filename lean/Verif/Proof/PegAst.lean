import Verif.Proof.PegGram
import Verif.Proof.PegHistory
/-! Peg: what is captured, as a map, and its texts. -/
namespace Strpp.Pex
open Spec
open Var (Variant)

/-! ### Texts -/

theorem decode1_take {l : List Byte} {c : UCS4} {n m : Nat} (h : decode1 l = some (c, n)) (hm : n ≤ m) : decode1 (l.take m) = some (c, n) := by
  have hp := decode1_pos _ _ _ h
  cases l with
  | nil => cases h
  | cons b rest =>
    cases m with
    | zero => omega
    | succ m =>
      rw [List.take_succ_cons]
      rw [decode1] at h ⊢
      cases hl : leadInfo b with
      | none => rw [hl] at h; exact h
      | some nv =>
        obtain ⟨n', v⟩ := nv
        rw [hl] at h
        simp only at h ⊢
        by_cases hc : (rest.take n').length = n' ∧ (rest.take n').all isCont = true
        · rw [if_pos hc] at h
          have hn : n' + 1 = n := by cases h; rfl
          have ht : (rest.take m).take n' = rest.take n' := by rw [List.take_take]; congr 1; omega
          rw [ht, if_pos hc]
          exact h
        · rw [if_neg hc] at h
          rw [if_neg, h]
          rintro ⟨h1, h2⟩
          have hle : n' ≤ m := by
            rw [List.length_take, List.length_take] at h1
            omega
          have ht : (rest.take m).take n' = rest.take n' := by rw [List.take_take]; congr 1; omega
          rw [ht] at h1 h2
          exact hc ⟨h1, h2⟩

theorem textOf_piece {t : List Byte} (hn : 0#8 ∉ t) : ∀ (j k : Nat), k + j ≤ (decodeAll t).length → textOf (t ++ [0#8]) (srcAt t k).pos (srcAt t (k + j)).pos = piece (decodeAll t) k (k + j) := by
  intro j
  induction j with
  | zero => intro k _; simp [textOf, piece, decodeAll_nil]
  | succ j ih =>
    intro k hk
    have hlt := srcAt_pos_lt t k (by omega)
    have hf := srcAt_facts t k (by omega)
    have hne : t.drop (srcAt t k).pos ≠ [] := by
      intro h'
      have := congrArg List.length h'
      simp at this
      omega
    obtain ⟨c, n, hd⟩ := decode1_some _ hne
    have hpos : (srcAt t (k + 1)).pos = (srcAt t k).pos + n := by
      rw [srcAt, hd]
      simp only
      rw [(bump_pos _ _).1]
    have hle := srcAt_le t hn (i := k + 1) (j := k + (j + 1)) (by omega) hk
    have hend := (srcAt_facts t (k + (j + 1)) hk).1
    have ih := ih (k + 1) (by omega)
    have hst := decodeAll_step _ _ _ hd
    rw [hf.2.1] at hst
    unfold textOf piece at ih ⊢
    rw [show k + 1 + j = k + (j + 1) by omega] at ih
    have hsub : ∀ a e, e ≤ t.length → (((t ++ [0#8]).drop a).take (e - a)) = (t.drop a).take (e - a) := by
      intro a e he
      by_cases ha : a ≤ t.length
      · rw [List.drop_append_of_le_length ha, List.take_append_of_le_length (by simp; omega)]
      · rw [show e - a = 0 by omega]; simp
    rw [hsub _ _ hend] at ih ⊢
    have h1 := decode1_take hd (m := (srcAt t (k + (j + 1))).pos - (srcAt t k).pos) (by omega)
    rw [decodeAll_step _ _ _ h1, List.drop_take, List.drop_drop, ← hpos]
    rw [show (srcAt t (k + (j + 1))).pos - (srcAt t k).pos - n = (srcAt t (k + (j + 1))).pos - (srcAt t (k + 1)).pos by omega, ih]
    rw [hst, show k + (j + 1) - k = j + 1 by omega, List.take_succ_cons]
    congr 1
    have : (decodeAll t).drop (k + 1) = decodeAll ((t.drop (srcAt t k).pos).drop n) := by
      rw [← List.drop_drop, hst]; rfl
    rw [this]
    congr 1
    omega

theorem decodeAll_ascii : ∀ (name : List Byte), (∀ b ∈ name, b.toNat < 128) → decodeAll name = letters name := by
  intro name
  induction name with
  | nil => intro _; rw [decodeAll_nil]; rfl
  | cons b name ih =>
    intro h
    have hb := h b (by simp)
    have hd : decode1 (b :: name) = some (b.setWidth 32, 1) := by
      rw [decode1, leadInfo, if_pos hb]
      simp only [List.take_zero, List.length_nil, List.all_nil, and_self, if_true, contValue, List.foldl_nil]
      congr 2
      exact BitVec.eq_of_toNat_eq (by simp)
    rw [decodeAll_step _ _ _ hd, List.drop_succ_cons, List.drop_zero, ih (fun x hx => h x (by simp [hx]))]
    rfl

theorem nameByte_ascii : ∀ b : Byte, nameByte b = true → b.toNat < 128 := by decide +kernel

theorem decodeAll_name {name : List Byte} (h : ∀ b ∈ name, nameByte b = true) : decodeAll name = letters name :=
  decodeAll_ascii name (fun b hb => nameByte_ascii b (h b hb))

/-! ### The map -/

theorem keyBefore_eq : keyBefore = keyLt := rfl

theorem addKey_mem (k x : List UCS4) : ∀ ks : List (List UCS4), x ∈ addKey k ks ↔ x = k ∨ x ∈ ks := by
  intro ks
  induction ks with
  | nil => simp [addKey]
  | cons y ks ih =>
    rw [addKey, keyBefore_eq]
    by_cases h1 : keyLt k y = true
    · rw [if_pos h1]; simp
    · rw [if_neg h1]
      by_cases h2 : keyLt y k = true
      · rw [if_pos h2]
        simp only [List.mem_cons, ih]
        exact or_left_comm
      · rw [if_neg h2]
        have : k = y := by
          rcases keyLt_strict.total k y with h | h | h
          · exact absurd h h1
          · exact h
          · exact absurd h h2
        subst this
        simp

theorem addKey_sorted (k : List UCS4) : ∀ ks : List (List UCS4), ks.Pairwise (fun a b => keyLt a b = true) → (addKey k ks).Pairwise (fun a b => keyLt a b = true) := by
  intro ks
  induction ks with
  | nil => intro _; simp [addKey]
  | cons y ks ih =>
    intro h
    have h' := List.pairwise_cons.mp h
    rw [addKey, keyBefore_eq]
    by_cases h1 : keyLt k y = true
    · rw [if_pos h1]
      refine List.pairwise_cons.mpr ⟨?_, h⟩
      intro z hz
      rcases List.mem_cons.mp hz with rfl | hz
      · exact h1
      · exact keyLt_strict.trans _ _ _ h1 (h'.1 z hz)
    · rw [if_neg h1]
      by_cases h2 : keyLt y k = true
      · rw [if_pos h2]
        refine List.pairwise_cons.mpr ⟨?_, ih h'.2⟩
        intro z hz
        rcases (addKey_mem k z ks).mp hz with rfl | hz
        · exact h2
        · exact h'.1 z hz
      · rw [if_neg h2]; exact h

theorem keysOf_mem (x : List UCS4) : ∀ es : List CapEvent, x ∈ keysOf es ↔ ∃ e ∈ es, e.key = x := by
  intro es
  induction es with
  | nil => simp [keysOf]
  | cons e es ih =>
    rw [show keysOf (e :: es) = addKey e.key (keysOf es) from rfl, addKey_mem, ih]
    constructor
    · rintro (h | ⟨y, h1, h2⟩)
      · exact ⟨e, by simp, h.symm⟩
      · exact ⟨y, by simp [h1], h2⟩
    · rintro ⟨y, h1, h2⟩
      rcases List.mem_cons.mp h1 with h | h
      · subst h; exact Or.inl h2.symm
      · exact Or.inr ⟨y, h, h2⟩

theorem keysOf_sorted : ∀ es : List CapEvent, (keysOf es).Pairwise (fun a b => keyLt a b = true) := by
  intro es
  induction es with
  | nil => exact List.Pairwise.nil
  | cons e es ih => exact addKey_sorted _ _ ih

theorem collected_some {es : List CapEvent} {key : List UCS4} {v : Variant} (h : collected (under key es) = some v) : ∃ e ∈ es, e.key = key := by
  by_cases hx : ∃ e ∈ es, e.key = key
  · exact hx
  · have : under key es = [] := by
      unfold under
      rw [List.map_eq_nil_iff, List.filter_eq_nil_iff]
      intro e he
      have : e.key ≠ key := fun h => hx ⟨e, he, h⟩
      simp [this]
    rw [this] at h
    cases h

theorem astOf_mem (es : List CapEvent) (key : List UCS4) (v : Variant) : (key, v) ∈ astOf es ↔ collected (under key es) = some v := by
  unfold astOf
  rw [List.mem_filterMap]
  constructor
  · rintro ⟨x, -, h⟩
    cases hc : collected (under x es) with
    | none => rw [hc] at h; cases h
    | some w => rw [hc] at h; cases h; exact hc
  · intro h
    exact ⟨key, (keysOf_mem key es).mpr (collected_some h), by rw [h]; rfl⟩

theorem astOf_sorted (es : List CapEvent) : CM.Sorted keyLt (astOf es) := by
  unfold CM.Sorted astOf
  rw [List.pairwise_filterMap]
  refine (keysOf_sorted es).imp ?_
  intro a b h x hx y hy
  cases hc : collected (under a es) with
  | none => rw [hc] at hx; cases hx
  | some w =>
    cases hd : collected (under b es) with
    | none => rw [hd] at hy; cases hy
    | some z => rw [hc] at hx; rw [hd] at hy; cases hx; cases hy; exact h

theorem sorted_unique : ∀ (m m' : List (List UCS4 × Variant)), CM.Sorted keyLt m → CM.Sorted keyLt m' → (∀ x, x ∈ m ↔ x ∈ m') → m = m' := by
  intro m
  induction m with
  | nil =>
    intro m' _ _ h
    cases m' with
    | nil => rfl
    | cons y m' => exact absurd ((h y).mpr (by simp)) (by simp)
  | cons x m ih =>
    intro m' hm hm' h
    cases m' with
    | nil => exact absurd ((h x).mp (by simp)) (by simp)
    | cons y m' =>
      have h1 := List.pairwise_cons.mp hm
      have h2 := List.pairwise_cons.mp hm'
      have hxy : x = y := by
        rcases List.mem_cons.mp ((h x).mp (by simp)) with hx | hx
        · exact hx
        · rcases List.mem_cons.mp ((h y).mpr (by simp)) with hy | hy
          · exact hy.symm
          · have := keyLt_strict.trans _ _ _ (h2.1 x hx) (h1.1 y hy)
            rw [keyLt_strict.irrefl] at this
            cases this
      subst hxy
      congr 1
      refine ih m' h1.2 h2.2 ?_
      intro z
      have hz := h z
      simp only [List.mem_cons] at hz
      constructor
      · intro hm1
        rcases hz.mp (Or.inr hm1) with h3 | h3
        · subst h3
          have := h1.1 _ hm1
          rw [keyLt_strict.irrefl] at this
          cases this
        · exact h3
      · intro hm1
        rcases hz.mpr (Or.inr hm1) with h3 | h3
        · subst h3
          have := h2.1 _ hm1
          rw [keyLt_strict.irrefl] at this
          cases this
        · exact h3

theorem Captured.ast {g : List CapEvent} {d : Ctx} (h : Captured g d) : d.ast = astOf g := by
  refine sorted_unique _ _ h.sorted (astOf_sorted g) ?_
  rintro ⟨key, v⟩
  rw [← CM.mfind_mem keyLt_strict key v d.ast h.sorted, h.found key, astOf_mem]

/-! ### What is known of the captures -/

/-- The captures so far are `g`, none of them empty -/
structure Holds (g : List CapEvent) (d : Ctx) : Prop where
  captured : Captured g d
  plain : ∀ e ∈ g, isArray e.value = false ∧ emptyText e.value = false

theorem Holds.count {g : List CapEvent} {d : Ctx} (h : Holds g d) : d.numCaptures = g.length := by
  rw [h.captured.count]
  congr 2
  rw [List.filter_eq_self]
  intro e he
  simp [(h.plain e he).2]

theorem Holds.congr {g : List CapEvent} {d d' : Ctx} (h : Holds g d) (h1 : d'.ast = d.ast) (h2 : d'.numCaptures = d.numCaptures) : Holds g d' :=
  ⟨⟨by rw [h1]; exact h.captured.sorted, by rw [h1]; exact h.captured.found, by rw [h2]; exact h.captured.count⟩, h.plain⟩

theorem holds_nil {d : Ctx} (h1 : d.ast = []) (h2 : d.numCaptures = 0) : Holds [] d :=
  ⟨⟨by rw [h1]; exact List.Pairwise.nil, fun key => by rw [h1]; rfl, by rw [h2]; rfl⟩, fun e he => (List.not_mem_nil he).elim⟩

theorem captureValue_empty {v : Variant} (h : emptyText v = true) (key : List UCS4) (rep : Bool) (d : Ctx) : captureValue key v rep d = d := by
  unfold captureValue
  cases v with
  | string l => cases l with
    | nil => rfl
    | cons _ _ => cases h
  | _ => cases h

theorem Holds.note {g : List CapEvent} {d : Ctx} (h : Holds g d) (e : CapEvent) (he : isArray e.value = false) : Holds (note e g) (captureValue e.key e.value e.rep d) := by
  unfold Pex.note
  by_cases hem : emptyText e.value = true
  · rw [if_pos hem, captureValue_empty hem]; exact h
  · rw [if_neg hem]
    refine ⟨capture_event h.captured (fun x hx => (h.plain x hx).1) e, ?_⟩
    intro x hx
    rcases List.mem_append.mp hx with hx | hx
    · exact h.plain x hx
    · cases List.mem_singleton.mp hx
      exact ⟨he, by simpa using hem⟩

theorem Holds.rollback {g0 g : List CapEvent} {d0 d : Ctx} (h0 : Holds g0 d0) (h : Holds g d) : Holds (left g0 g) (rollbackCapture d0.numCaptures d) := by
  rw [h0.count]
  unfold rollbackCapture
  rw [h.count]
  cases g0 with
  | nil =>
    rw [left_nil]
    cases g with
    | nil => rw [if_pos (by simp)]; exact h
    | cons e g =>
      rw [if_neg (by simp only [List.length_cons, List.length_nil]; omega), if_pos (by simp)]
      exact holds_nil rfl rfl
  | cons e0 g0 =>
    rw [left_ne (by simp)]
    split
    · exact h
    · rw [if_neg (by simp; omega)]
      exact h

theorem valueOf_notArray (top : Bool) (cs : List UCS4) (k k' : Nat) (own : List CapEvent) : isArray (valueOf top cs k k' own) = false := by
  unfold valueOf
  split <;> rfl

/-- the value of a match is what it should be -/
theorem Holds.value {t : List Byte} (hn : 0#8 ∉ t) {g : List CapEvent} {d : Ctx} (h : Holds g d) (b : Byte) {k k' : Nat} (hk : k ≤ k') (hk' : k' ≤ (decodeAll t).length) :
    matchResult (t ++ [0#8]) b false (srcAt t k) (srcAt t k') d = valueOf d.parents.isEmpty (decodeAll t) k k' g := by
  unfold matchResult valueOf
  rw [h.captured.ast, h.count]
  cases hp : d.parents.isEmpty with
  | true => rfl
  | false =>
    simp only [Bool.false_eq_true, if_false, Bool.false_or]
    cases g with
    | nil =>
      rw [if_neg (by simp), if_neg (by simp)]
      unfold textMatch
      obtain ⟨j, rfl⟩ := Nat.le.dest hk
      rw [if_neg (by simp), textOf_piece hn j k hk']
    | cons e g =>
      rw [if_pos (by simp only [List.length_cons]; omega), if_pos (by simp)]

theorem captureValue_other (key : List UCS4) (v : Variant) (rep : Bool) (d : Ctx) : (captureValue key v rep d).parents = d.parents := by
  unfold captureValue
  split <;> rfl

/-- what is recorded does not change what is captured -/
theorem recordFailure_caps {pat : List Byte} {i : Nat} {dis : Int} {op oe : Nat} {loc : Src} {d d' : Ctx} (h : recordFailure pat i dis op oe loc d = .ok d') : d'.ast = d.ast ∧ d'.numCaptures = d.numCaptures := by
  have hroot : ∀ a len, (recordRoot a len loc d).ast = d.ast ∧ (recordRoot a len loc d).numCaptures = d.numCaptures := by
    intro a len
    unfold recordRoot
    simp only
    split <;> split <;> exact ⟨rfl, rfl⟩
  unfold recordFailure at h
  simp only at h
  by_cases h1 : loc.pos < (if d.parents.isEmpty = true then d.far else d.origin).pos
  · rw [if_pos h1] at h; cases h; exact ⟨rfl, rfl⟩
  · rw [if_neg h1] at h
    by_cases h2 : (dis != 0) = true
    · rw [if_pos h2] at h; cases h; exact ⟨rfl, rfl⟩
    · rw [if_neg h2] at h
      cases hb : rd pat op with
      | error e => rw [hb] at h; cases h
      | ok b =>
        rw [hb, res_bind_ok] at h
        by_cases h3 : isPegexpOp b = true
        · rw [if_pos h3] at h; cases h; exact ⟨rfl, rfl⟩
        · rw [if_neg h3] at h
          by_cases h4 : d.parents.isEmpty = true
          · rw [if_pos h4] at h; cases h; exact hroot _ _
          · rw [if_neg h4] at h
            by_cases h5 : loc.pos < d.far.pos
            · rw [if_pos h5] at h; cases h; exact ⟨rfl, rfl⟩
            · rw [if_neg h5] at h
              by_cases h6 : (d.rootDisabled != 0) = true
              · rw [if_pos h6] at h; cases h; exact ⟨rfl, rfl⟩
              · rw [if_neg h6] at h; cases h; exact hroot _ _

/-! ### What is wanted -/

/-- the names a rule lists can be told from what follows them -/
def CapNames (g : Grammar) : Prop := ∀ d ∈ g, ∀ cs, d.captures = some cs → ∀ c ∈ cs, 0#8 ∉ c ∧ 0x3A#8 ∉ c

theorem strncmp_prefix : ∀ (c lab : List Byte), 0#8 ∉ c → 0#8 ∈ lab → ∃ v, strncmp c.length (cstr c) lab = .ok v ∧ (v = 0 ↔ c <+: lab) := by
  intro c
  induction c with
  | nil => intro lab _ _; exact ⟨0, rfl, by simp⟩
  | cons x c ih =>
    intro lab hc hl
    simp only [List.mem_cons, not_or] at hc
    cases lab with
    | nil => cases hl
    | cons y lab =>
      simp only [cstr, List.cons_append, List.length_cons, strncmp]
      by_cases hxy : x = y
      · subst hxy
        rw [if_neg (by simp), if_neg (by simpa using fun h : x = 0#8 => hc.1 h.symm)]
        obtain ⟨v, h1, h2⟩ := ih lab hc.2 ((List.mem_cons.mp hl).resolve_left (fun h => hc.1 h))
        exact ⟨v, h1, by rw [h2]; simp [List.cons_prefix_cons]⟩
      · rw [if_pos (by simpa using hxy)]
        refine ⟨_, rfl, ?_⟩
        rw [List.cons_prefix_cons]
        constructor
        · intro h
          exact absurd (BitVec.eq_of_toNat_eq (by omega)) hxy
        · exact fun h => absurd h.1 hxy

theorem isCaptured_prefix (r : Rule) (cs : List (List Byte)) (hcs : r.captures = some cs) (hnul : ∀ c ∈ cs, 0#8 ∉ c) (lab : List Byte) (hl : 0#8 ∈ lab) :
    ∃ b, isCaptured r lab = .ok b ∧ (b = true ↔ ∃ c ∈ cs, c <+: lab) := by
  have hgo : ∀ cs : List (List Byte), (∀ c ∈ cs, 0#8 ∉ c) → ∃ b, isCaptured.go lab cs = .ok b ∧ (b = true ↔ ∃ c ∈ cs, c <+: lab) := by
    intro cs
    induction cs with
    | nil => intro _; exact ⟨false, rfl, by simp⟩
    | cons c cs ih =>
      intro h
      obtain ⟨v, h1, h2⟩ := strncmp_prefix c lab (h c (by simp)) hl
      obtain ⟨b, h3, h4⟩ := ih (fun x hx => h x (by simp [hx]))
      unfold isCaptured.go
      rw [h1, res_bind_ok]
      by_cases hv : v = 0
      · rw [if_pos (by simpa using hv)]
        exact ⟨true, rfl, by simp [h2.mp hv]⟩
      · rw [if_neg (by simpa using hv), h3]
        refine ⟨b, rfl, ?_⟩
        rw [h4]
        have : ¬ c <+: lab := fun h => hv (h2.mpr h)
        simp [this]
  unfold isCaptured
  rw [hcs]
  exact hgo cs hnul

theorem prefix_stop : ∀ (c l : List Byte) (x : Byte) (rest : List Byte), x ∉ c → (c <+: l ++ x :: rest ↔ c <+: l) := by
  intro c
  induction c with
  | nil => intro l x rest _; simp
  | cons y c ih =>
    intro l x rest hx
    simp only [List.mem_cons, not_or] at hx
    cases l with
    | nil =>
      rw [List.nil_append, List.cons_prefix_cons]
      constructor
      · exact fun h => absurd h.1.symm hx.1
      · intro h; simp at h
    | cons z l => rw [List.cons_append, List.cons_prefix_cons, List.cons_prefix_cons, ih l x rest hx.2]

theorem isCaptured_wants {r : Rule} {l rest : List Byte} {x : Byte} (hc : ∀ cs, r.captures = some cs → ∀ c ∈ cs, 0#8 ∉ c ∧ 0x3A#8 ∉ c) (hx : x = 0#8 ∨ x = 0x3A#8) (h0 : 0#8 ∈ l ++ x :: rest) :
    isCaptured r (l ++ x :: rest) = .ok (wants r.captures l) := by
  cases hcs : r.captures with
  | none => unfold isCaptured; rw [hcs]; rfl
  | some cs =>
    obtain ⟨b, h1, h2⟩ := isCaptured_prefix r cs hcs (fun c hm => (hc cs hcs c hm).1) _ h0
    rw [h1]
    congr 1
    rw [Bool.eq_iff_iff, h2]
    unfold wants
    simp only [Option.getD_some, List.any_eq_true, List.isPrefixOf_iff_prefix]
    constructor
    · rintro ⟨c, m, h⟩
      refine ⟨c, m, (prefix_stop c l x rest ?_).mp h⟩
      rcases hx with rfl | rfl
      · exact (hc cs hcs c m).1
      · exact (hc cs hcs c m).2
    · rintro ⟨c, m, h⟩
      exact ⟨c, m, h.trans (List.prefix_append _ _)⟩

end Strpp.Pex
