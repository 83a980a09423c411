import Verif.Model.Peg
/-! qsort, bsearch and the comparison of names. -/
namespace Strpp.Pex

/-- the order of names, by unsigned bytes -/
def nameLt (a b : List Byte) : Prop := a.map BitVec.toNat < b.map BitVec.toNat

theorem name_inj {a b : List Byte} : a.map BitVec.toNat = b.map BitVec.toNat ↔ a = b := by
  constructor
  · exact fun h => (List.map_inj_right (fun x y h => BitVec.eq_of_toNat_eq h)).mp h
  · exact fun h => by rw [h]

theorem nameLt_cons {x y : Byte} {a b : List Byte} : nameLt (x :: a) (y :: b) ↔ x.toNat < y.toNat ∨ (x = y ∧ nameLt a b) := by
  unfold nameLt
  rw [List.map_cons, List.map_cons, List.cons_lt_cons_iff]
  constructor
  · rintro (h | ⟨h, h2⟩)
    · exact Or.inl h
    · exact Or.inr ⟨BitVec.eq_of_toNat_eq h, h2⟩
  · rintro (h | ⟨h, h2⟩)
    · exact Or.inl h
    · exact Or.inr ⟨by rw [h], h2⟩

theorem nameLt_nil {b : Byte} {a : List Byte} : nameLt [] (b :: a) := by unfold nameLt; simp

theorem not_nameLt_nil {a : List Byte} : ¬ nameLt a [] := by unfold nameLt; simp

theorem nameLt_trans {a b c : List Byte} (h1 : nameLt a b) (h2 : nameLt b c) : nameLt a c := List.lt_trans h1 h2

theorem nameLt_irrefl {a : List Byte} : ¬ nameLt a a := List.lt_irrefl _

/-- what a comparison says of two names -/
structure Says (c : Int) (a b : List Byte) : Prop where
  lt : c < 0 ↔ nameLt a b
  eq : c = 0 ↔ a = b

theorem strcmp_says : ∀ (a b : List Byte), 0#8 ∉ a → 0#8 ∉ b → ∃ c, strcmp (cstr a) (cstr b) = .ok c ∧ Says c a b := by
  intro a
  induction a with
  | nil =>
    intro b _ hb
    cases b with
    | nil => exact ⟨0, rfl, by simp [nameLt], by simp⟩
    | cons y b =>
      have hy : (0#8 != y) = true := by simp at hb ⊢; exact fun h => hb.1 h
      have hy2 : 0 < y.toNat := by
        rcases Nat.eq_zero_or_pos y.toNat with h | h
        · exact absurd (BitVec.eq_of_toNat_eq (by simpa using h) : y = 0#8) (by rintro rfl; simp at hb)
        · exact h
      refine ⟨(0 : Int) - y.toNat, ?_, ?_, ?_⟩
      · simp only [cstr, List.nil_append, List.cons_append, strcmp, hy, if_true]; rfl
      · exact ⟨fun _ => nameLt_nil, fun _ => by omega⟩
      · constructor
        · intro h; omega
        · intro h; cases h
  | cons x a ih =>
    intro b ha hb
    simp only [List.mem_cons, not_or] at ha
    have hx : x ≠ 0#8 := fun h => ha.1 h.symm
    have hx2 : 0 < x.toNat := by
      rcases Nat.eq_zero_or_pos x.toNat with h | h
      · exact absurd (BitVec.eq_of_toNat_eq (by simpa using h) : x = 0#8) hx
      · exact h
    cases b with
    | nil =>
      refine ⟨(x.toNat : Int) - 0, ?_, ?_, ?_⟩
      · simp only [cstr, List.nil_append, List.cons_append, strcmp]
        rw [if_pos (by simpa using hx)]; rfl
      · exact ⟨fun _ => by omega, fun h => absurd h not_nameLt_nil⟩
      · constructor
        · intro h; omega
        · intro h; cases h
    | cons y b =>
      simp only [List.mem_cons, not_or] at hb
      by_cases hxy : x = y
      · subst hxy
        obtain ⟨c, h1, h2⟩ := ih b ha.2 hb.2
        refine ⟨c, ?_, ?_, ?_⟩
        · simp only [cstr, List.cons_append, strcmp]
          rw [if_neg (by simp), if_neg (by simpa using hx)]
          exact h1
        · rw [h2.lt, nameLt_cons]
          constructor
          · exact fun h => Or.inr ⟨rfl, h⟩
          · rintro (h | h)
            · omega
            · exact h.2
        · rw [h2.eq]; simp
      · refine ⟨(x.toNat : Int) - y.toNat, ?_, ?_, ?_⟩
        · simp only [cstr, List.cons_append, strcmp]
          rw [if_pos (by simpa using hxy)]
        · rw [nameLt_cons]
          constructor
          · exact fun h => Or.inl (by omega)
          · rintro (h | h)
            · omega
            · exact absurd h.1 hxy
        · constructor
          · intro h
            exact absurd (BitVec.eq_of_toNat_eq (by omega)) hxy
          · intro h; cases h; exact absurd rfl hxy

/-- the comparison of a key with a name: `x` is the `>` or NUL after the key -/
theorem compareKey_says (x : Byte) (hx : x = 0x3E#8 ∨ x = 0#8) (rest : List Byte) :
    ∀ (n name : List Byte), 0#8 ∉ n → 0#8 ∉ name → (∀ y more, name = n ++ y :: more → x.toNat < y.toNat) → 0x3E#8 ∉ n →
      ∃ c, (do
        let cval ← strncmp name.length (n ++ x :: rest) (cstr name)
        if cval == 0 then do
          let b ← rd (n ++ x :: rest) name.length
          if b != 0x3E#8 && b != 0#8 then .ok 1 else .ok 0
        else .ok cval : Res Int) = .ok c ∧ Says c n name := by
  intro n
  induction n with
  | nil =>
    intro name _ hname hgt _
    cases name with
    | nil =>
      refine ⟨0, ?_, by simp [nameLt], by simp⟩
      rcases hx with rfl | rfl <;> rfl
    | cons y name =>
      have hlt := hgt y name rfl
      have hxy : (x != y) = true := by
        simp only [bne_iff_ne, ne_eq]
        rintro rfl
        omega
      have hc : (((x.toNat : Int) - y.toNat) == 0) = false := by
        rw [beq_eq_false_iff_ne]; omega
      refine ⟨(x.toNat : Int) - y.toNat, ?_, ?_, ?_⟩
      · simp only [List.length_cons, List.nil_append, cstr, List.cons_append, strncmp, hxy, if_true, res_bind_ok, hc, Bool.false_eq_true, if_false]
      · exact ⟨fun _ => nameLt_nil, fun _ => by omega⟩
      · constructor
        · intro h; omega
        · intro h; cases h
  | cons a n ih =>
    intro name hn hname hgt hgn
    simp only [List.mem_cons, not_or] at hn hgn
    have ha : a ≠ 0#8 := fun h => hn.1 h.symm
    have hag : a ≠ 0x3E#8 := fun h => hgn.1 h.symm
    cases name with
    | nil =>
      refine ⟨1, ?_, ?_, ?_⟩
      · simp only [List.length_nil, strncmp, res_bind_ok, BEq.rfl, if_true, List.cons_append]
        have : rd (a :: (n ++ x :: rest)) 0 = .ok a := rfl
        rw [this, res_bind_ok, if_pos]
        simp [ha, hag]
      · exact ⟨fun h => by omega, fun h => absurd h not_nameLt_nil⟩
      · constructor
        · intro h; omega
        · intro h; cases h
    | cons y name =>
      simp only [List.mem_cons, not_or] at hname
      by_cases hay : a = y
      · subst hay
        obtain ⟨c, h1, h2⟩ := ih name hn.2 hname.2 (fun z more h => hgt z more (by rw [h]; rfl)) hgn.2
        refine ⟨c, ?_, ?_, ?_⟩
        · rw [← h1]
          simp only [List.length_cons, List.cons_append, cstr, strncmp]
          rw [if_neg (by simp), if_neg (by simpa using ha)]
          rfl
        · rw [h2.lt, nameLt_cons]
          constructor
          · exact fun h => Or.inr ⟨rfl, h⟩
          · rintro (h | h)
            · omega
            · exact h.2
        · rw [h2.eq]; simp
      · have hc : (((a.toNat : Int) - y.toNat) == 0) = false := by
          rw [beq_eq_false_iff_ne]
          intro h
          exact hay (BitVec.eq_of_toNat_eq (by omega))
        refine ⟨(a.toNat : Int) - y.toNat, ?_, ?_, ?_⟩
        · have hne : (a != y) = true := by simpa using hay
          simp only [List.length_cons, List.cons_append, cstr, strncmp, hne, if_true, res_bind_ok, hc, Bool.false_eq_true, if_false]
        · rw [nameLt_cons]
          constructor
          · exact fun h => Or.inl (by omega)
          · rintro (h | h)
            · omega
            · exact absurd h.1 hay
        · constructor
          · intro h
            exact absurd (BitVec.eq_of_toNat_eq (by omega)) hay
          · intro h; cases h; exact absurd rfl hay

/-- bsearch in an array that the comparison splits into a part before, one that is equal, and one after -/
theorem bsearch_ok {α : Type} (cmp : α → Res Int) (a : List α) (c : α → Int) (hc : ∀ x ∈ a, cmp x = .ok (c x))
    (hpos : ∀ (i j : Nat) (x y : α), i < j → a[i]? = some x → a[j]? = some y → 0 < c y → 0 < c x)
    (hneg : ∀ (i j : Nat) (x y : α), i < j → a[i]? = some x → a[j]? = some y → c x < 0 → c y < 0) :
    ∀ (k lo hi : Nat), lo ≤ hi → hi ≤ a.length → hi < lo + k → (∀ (i : Nat) (x : α), i < lo → a[i]? = some x → 0 < c x) → (∀ (i : Nat) (x : α), hi ≤ i → a[i]? = some x → c x < 0) →
      (∃ m x, bsearch cmp a k lo hi = .ok (some m) ∧ a[m]? = some x ∧ c x = 0) ∨ (bsearch cmp a k lo hi = .ok none ∧ ∀ x ∈ a, c x ≠ 0) := by
  intro k
  induction k with
  | zero => intro lo hi h0 h1 h2; omega
  | succ k ih =>
    intro lo hi h0 h1 h2 h3 h4
    unfold bsearch
    by_cases hlt : lo < hi
    · rw [if_pos hlt]
      have hm : (lo + hi) / 2 < a.length := by omega
      have hg : a[(lo + hi) / 2]? = some a[(lo + hi) / 2] := List.getElem?_eq_getElem hm
      simp only
      rw [rd_eq_ok.mpr hg, res_bind_ok, hc _ (List.getElem_mem hm), res_bind_ok]
      by_cases hn : c a[(lo + hi) / 2] < 0
      · rw [if_pos hn]
        refine ih lo _ (by omega) (by omega) (by omega) h3 ?_
        intro i x hi' hx
        rcases Nat.lt_or_eq_of_le hi' with h | h
        · exact hneg _ _ _ _ h hg hx hn
        · subst h
          rw [hg] at hx
          cases hx
          exact hn
      · rw [if_neg hn]
        by_cases hp : 0 < c a[(lo + hi) / 2]
        · rw [if_pos hp]
          refine ih _ hi (by omega) h1 (by omega) ?_ h4
          intro i x hi' hx
          rcases Nat.lt_or_eq_of_le (Nat.le_of_lt_succ hi') with h | h
          · exact hpos _ _ _ _ h hx hg hp
          · subst h
            rw [hg] at hx
            cases hx
            exact hp
        · rw [if_neg hp]
          exact Or.inl ⟨_, _, rfl, hg, by omega⟩
    · rw [if_neg hlt]
      refine Or.inr ⟨rfl, ?_⟩
      intro x hx
      obtain ⟨i, hi', rfl⟩ := List.getElem_of_mem hx
      have hg : a[i]? = some a[i] := List.getElem?_eq_getElem hi'
      by_cases h : i < lo
      · have := h3 i _ h hg
        omega
      · have := h4 i _ (by omega) hg
        omega

/-- looking for a name in sorted rules -/
theorem lookup_ok {supplied rules : List Rule} (hs : Sorted supplied rules) (hnul : ∀ r ∈ supplied, 0#8 ∉ r.name) (n : List Byte) (hn : 0#8 ∉ n) (hg : 0x3E#8 ∉ n)
    (x : Byte) (hx : x = 0x3E#8 ∨ x = 0#8) (rest : List Byte) (hgt : ∀ r ∈ supplied, ∀ y more, r.name = n ++ y :: more → x.toNat < y.toNat) :
    (∃ m r, lookup rules (n ++ x :: rest) = .ok (some m) ∧ rules[m]? = some r ∧ r.name = n) ∨
    (lookup rules (n ++ x :: rest) = .ok none ∧ ∀ r ∈ supplied, r.name ≠ n) := by
  have hmem : ∀ r ∈ rules, r ∈ supplied := fun r hr => hs.1.mem_iff.mp hr
  have hkey : ∀ r ∈ rules, ∃ c, compareKey (n ++ x :: rest) r = .ok c ∧ Says c n r.name := fun r hr =>
    compareKey_says x hx rest n r.name hn (hnul r (hmem r hr)) (hgt r (hmem r hr)) hg
  have hval : ∃ c : Rule → Int, ∀ r ∈ rules, compareKey (n ++ x :: rest) r = .ok (c r) ∧ Says (c r) n r.name :=
    ⟨fun r => match compareKey (n ++ x :: rest) r with | .ok c => c | .error _ => 0, fun r hr => by
      obtain ⟨c, h1, h2⟩ := hkey r hr
      simp only [h1]
      exact ⟨trivial, h2⟩⟩
  obtain ⟨c, hc⟩ := hval
  have hord : ∀ (i j : Nat) (a b : Rule), i < j → rules[i]? = some a → rules[j]? = some b → ¬ nameLt b.name a.name := by
    intro i j a b hij ha hb
    obtain ⟨hi, ha⟩ := List.getElem?_eq_some_iff.mp ha
    obtain ⟨hj, hb⟩ := List.getElem?_eq_some_iff.mp hb
    obtain ⟨v, h1, h2⟩ := List.pairwise_iff_getElem.mp hs.2 i j hi hj hij
    rw [ha, hb] at h1
    obtain ⟨v', h3, h4⟩ := strcmp_says a.name b.name (hnul a (hmem a (by rw [← ha]; exact List.getElem_mem hi))) (hnul b (hmem b (by rw [← hb]; exact List.getElem_mem hj)))
    rw [h1] at h3
    cases h3
    intro hlt
    rcases Int.lt_or_eq_of_le h2 with h | h
    · exact nameLt_irrefl (nameLt_trans hlt (h4.lt.mp h))
    · rw [h4.eq.mp h] at hlt
      exact nameLt_irrefl hlt
  have htri : ∀ a b : List Byte, nameLt a b ∨ a = b ∨ nameLt b a := by
    intro a b
    by_cases h : nameLt a b
    · exact Or.inl h
    · by_cases h' : nameLt b a
      · exact Or.inr (Or.inr h')
      · exact Or.inr (Or.inl (name_inj.mp (List.le_antisymm h' h)))
  have hp : ∀ (i j : Nat) (a b : Rule), i < j → rules[i]? = some a → rules[j]? = some b → 0 < c b → 0 < c a := by
    intro i j a b hij ha hb hpos
    have sa := (hc a (List.mem_of_getElem? ha)).2
    have sb := (hc b (List.mem_of_getElem? hb)).2
    have hbn : nameLt b.name n := by
      rcases htri b.name n with h | h | h
      · exact h
      · have := sb.eq.mpr h.symm; omega
      · have := sb.lt.mpr h; omega
    have ho := hord i j a b hij ha hb
    have : nameLt a.name n := by
      rcases htri a.name b.name with h | h | h
      · exact nameLt_trans h hbn
      · rw [h]; exact hbn
      · exact absurd h ho
    have h1 : ¬ c a < 0 := fun h => nameLt_irrefl (nameLt_trans this (sa.lt.mp h))
    have h2 : c a ≠ 0 := fun h => by
      rw [← sa.eq.mp h] at this
      exact nameLt_irrefl this
    omega
  have hq : ∀ (i j : Nat) (a b : Rule), i < j → rules[i]? = some a → rules[j]? = some b → c a < 0 → c b < 0 := by
    intro i j a b hij ha hb hneg
    have sa := (hc a (List.mem_of_getElem? ha)).2
    have sb := (hc b (List.mem_of_getElem? hb)).2
    have han := sa.lt.mp hneg
    have ho := hord i j a b hij ha hb
    rcases htri a.name b.name with h | h | h
    · exact sb.lt.mpr (nameLt_trans han h)
    · exact sb.lt.mpr (h ▸ han)
    · exact absurd h ho
  rcases bsearch_ok (compareKey (n ++ x :: rest)) rules c (fun r hr => (hc r hr).1) hp hq (rules.length + 1) 0 rules.length (Nat.zero_le _) (Nat.le_refl _) (by omega)
    (fun i _ h => by omega) (fun i r h hr => by
      have := (List.getElem?_eq_some_iff.mp hr).1
      omega) with ⟨m, r, h1, h2, h3⟩ | ⟨h1, h2⟩
  · exact Or.inl ⟨m, r, h1, h2, ((hc r (List.mem_of_getElem? h2)).2.eq.mp h3).symm⟩
  · exact Or.inr ⟨h1, fun r hr he => h2 r (hs.1.mem_iff.mpr hr) ((hc r (hs.1.mem_iff.mpr hr)).2.eq.mpr he.symm)⟩

/-- looking for a name never takes too long -/
theorem bsearch_fuel {α : Type} (cmp : α → Res Int) (a : List α) (F : Fault → Prop) (hF : F .ub) (hcmp : ∀ x ∈ a, ∀ e, cmp x = .error e → F e) :
    ∀ (k lo hi : Nat), lo ≤ hi → hi < lo + k → (∃ o, bsearch cmp a k lo hi = .ok o ∧ ∀ m, o = some m → m < a.length) ∨ ∃ e, bsearch cmp a k lo hi = .error e ∧ F e := by
  intro k
  induction k with
  | zero => intro lo hi h0 h2; omega
  | succ k ih =>
    intro lo hi h0 h2
    unfold bsearch
    by_cases hlt : lo < hi
    · rw [if_pos hlt]
      simp only
      by_cases hm : (lo + hi) / 2 < a.length
      · rw [rd_lt _ _ hm, res_bind_ok]
        cases h : cmp a[(lo + hi) / 2] with
        | error e => exact Or.inr ⟨e, rfl, hcmp _ (List.getElem_mem hm) e h⟩
        | ok c =>
          rw [res_bind_ok]
          split
          · exact ih _ _ (by omega) (by omega)
          · split
            · exact ih _ _ (by omega) (by omega)
            · exact Or.inl ⟨_, rfl, fun m h => by cases h; exact hm⟩
      · rw [rd_ge _ _ (by omega)]
        exact Or.inr ⟨_, rfl, hF⟩
    · rw [if_neg hlt]
      exact Or.inl ⟨none, rfl, fun m h => by cases h⟩

end Strpp.Pex
