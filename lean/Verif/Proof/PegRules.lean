import Verif.Proof.PegTop
import Verif.Proof.PegLookup
import Verif.Spec.Peg
import Batteries.Data.List.Perm
/-! Peg: faults, nesting, and positions, for any patterns. -/
namespace Strpp.Pex
open Spec

/-! ### strncmp and lookups do not read outside -/

theorem strncmp_safe : ∀ (n : Nat) (a b : List Byte), (0#8 ∈ a ∧ n ≤ b.length) ∨ (0#8 ∈ b ∧ n ≤ a.length) → ∃ c, strncmp n a b = .ok c := by
  intro n
  induction n with
  | zero => intro a b _; exact ⟨0, by unfold strncmp; rfl⟩
  | succ n ih =>
    intro a b h
    cases a with
    | nil => rcases h with ⟨h, _⟩ | ⟨_, h⟩ <;> simp at h
    | cons x a =>
      cases b with
      | nil => rcases h with ⟨_, h⟩ | ⟨h, _⟩ <;> simp at h
      | cons y b =>
        unfold strncmp
        by_cases hxy : x = y
        · subst hxy
          rw [if_neg (by simp)]
          by_cases hx : x = 0#8
          · rw [if_pos (by simpa using hx)]; exact ⟨_, rfl⟩
          · rw [if_neg (by simpa using hx)]
            apply ih
            rcases h with ⟨h1, h2⟩ | ⟨h1, h2⟩
            · exact Or.inl ⟨(List.mem_cons.mp h1).resolve_left (fun h => hx h.symm), by simpa using h2⟩
            · exact Or.inr ⟨(List.mem_cons.mp h1).resolve_left (fun h => hx h.symm), by simpa using h2⟩
        · rw [if_pos (by simpa using hxy)]; exact ⟨_, rfl⟩

theorem strncmp_zero : ∀ (name key : List Byte) (more : List Byte), 0#8 ∉ name → strncmp name.length key (name ++ more) = .ok 0 → ∃ rest, key = name ++ rest := by
  intro name
  induction name with
  | nil => exact fun key _ _ _ => ⟨key, rfl⟩
  | cons y name ih =>
    intro key more hn h
    simp only [List.mem_cons, not_or] at hn
    cases key with
    | nil => cases h
    | cons x key =>
      simp only [List.length_cons, List.cons_append, strncmp] at h
      by_cases hxy : x = y
      · subst hxy
        rw [if_neg (by simp), if_neg (by simpa using fun h : x = 0#8 => hn.1 h.symm)] at h
        obtain ⟨rest, hr⟩ := ih key more hn.2 h
        exact ⟨rest, by rw [hr]; rfl⟩
      · rw [if_pos (by simpa using hxy)] at h
        have : (x.toNat : Int) - y.toNat = 0 := by injection h
        exact absurd (BitVec.eq_of_toNat_eq (by omega)) hxy

theorem compareKey_safe (key : List Byte) (r : Rule) (hk : 0#8 ∈ key) (hn : 0#8 ∉ r.name) : ∃ c, compareKey key r = .ok c := by
  unfold compareKey
  obtain ⟨c, hc⟩ := strncmp_safe r.name.length key (cstr r.name) (Or.inl ⟨hk, by simp [cstr]⟩)
  simp only
  rw [hc, res_bind_ok]
  by_cases h : c = 0
  · subst h
    obtain ⟨rest, hr⟩ := strncmp_zero r.name key _ hn hc
    have : 0#8 ∈ rest := by
      rw [hr] at hk
      exact (List.mem_append.mp hk).resolve_left hn
    cases rest with
    | nil => simp at this
    | cons b rest =>
      have hb : rd key r.name.length = .ok b := by
        rw [rd_eq_ok, hr, List.getElem?_append_right (Nat.le_refl _)]; simp
      rw [if_pos (by decide), hb, res_bind_ok]
      split <;> exact ⟨_, rfl⟩
  · rw [if_neg (by simpa using h)]
    exact ⟨_, rfl⟩

theorem lookup_safe (rules : List Rule) (key : List Byte) (hk : 0#8 ∈ key) (hn : ∀ r ∈ rules, 0#8 ∉ r.name) :
    ∃ o, lookup rules key = .ok o ∧ ∀ m, o = some m → m < rules.length := by
  have hgo : ∀ (k lo hi : Nat), lo ≤ hi → hi ≤ rules.length → hi < lo + k → ∃ o, bsearch (compareKey key) rules k lo hi = .ok o ∧ ∀ m, o = some m → m < rules.length := by
    intro k
    induction k with
    | zero => intro lo hi h0 _ h2; omega
    | succ k ih =>
      intro lo hi h0 h1 h2
      unfold bsearch
      by_cases hlt : lo < hi
      · rw [if_pos hlt]
        simp only
        have hm : (lo + hi) / 2 < rules.length := by omega
        obtain ⟨c, hc⟩ := compareKey_safe key rules[(lo + hi) / 2] hk (hn _ (List.getElem_mem hm))
        rw [rd_lt _ _ hm, res_bind_ok, hc, res_bind_ok]
        split
        · exact ih _ _ (by omega) (by omega) (by omega)
        · split
          · exact ih _ _ (by omega) (by omega) (by omega)
          · exact ⟨_, rfl, fun m h => by cases h; exact hm⟩
      · rw [if_neg hlt]
        exact ⟨none, rfl, fun m h => by cases h⟩
  exact hgo _ _ _ (Nat.zero_le _) (Nat.le_refl _) (by omega)

theorem isCaptured_safe (r : Rule) (lab : List Byte) (hl : 0#8 ∈ lab) : ∃ b, isCaptured r lab = .ok b := by
  unfold isCaptured
  have hgo : ∀ cs, ∃ b, isCaptured.go lab cs = .ok b := by
    intro cs
    induction cs with
    | nil => exact ⟨false, rfl⟩
    | cons c cs ih =>
      obtain ⟨v, hv⟩ := strncmp_safe c.length (cstr c) lab (Or.inr ⟨hl, by simp [cstr]⟩)
      unfold isCaptured.go
      rw [hv, res_bind_ok]
      split
      · exact ⟨_, rfl⟩
      · exact ih
  cases r.captures with
  | none => exact ⟨false, rfl⟩
  | some cs => exact hgo cs

/-! ### Where calls end -/

/-- nothing from `p` up to the next `>` is a backslash -/
def NoEsc (s : List Byte) (p : Nat) : Prop := ∀ q, p ≤ q → (∀ j, p ≤ j → j < q → s[j]? ≠ some 0x3E#8) → s[q]? ≠ some 0x5C#8

section
variable {s : List Byte} {F : Fault → Prop} {pr : Bool}

theorem NoEsc.succ {p : Nat} {b : Byte} (h : NoEsc s p) (hb : s[p]? = some b) (hg : b ≠ 0x3E#8) : b ≠ 0x5C#8 ∧ NoEsc s (p + 1) := by
  refine ⟨?_, ?_⟩
  · rintro rfl
    exact h p (Nat.le_refl _) (fun j h1 h2 => by omega) hb
  · intro q hq hj
    refine h q (by omega) (fun j h1 h2 => ?_)
    rcases Nat.lt_or_eq_of_le h1 with h' | h'
    · exact hj j (by omega) h2
    · subst h'
      rw [hb]
      exact fun h => hg (Option.some.inj h)

theorem in_end : In s F pr s.length := Or.inl ⟨Nat.le_refl _, by rw [List.drop_length]; rfl⟩

theorem in_any (h : F .ub) (q : Nat) : In s F pr q := Or.inr h

/-- the bytes of the name: `>` is found, or the pattern ends -/
theorem strchr_good : ∀ (k p : Nat), In s F pr p → (NoEsc s p ∨ F .ub) → s.length < p + k → 1 ≤ k →
    match strchr (s ++ [0#8]) 0x3E#8 k p with
    | .error e => F e
    | .ok (some q) => p ≤ q ∧ In s F pr (q + 1)
    | .ok none => True := by
  intro k
  induction k with
  | zero => intro p _ _ _ h; omega
  | succ k ih =>
    intro p hi he hk _
    unfold strchr
    cases hrd : rd (s ++ [0#8]) p with
    | error e => exact rd_err hi hrd
    | ok b =>
      rw [res_bind_ok]
      by_cases hb : b = 0x3E#8
      · subst hb
        rw [if_pos (by decide)]
        rcases rd_ok hrd with ⟨h, -⟩ | ⟨h, h2⟩
        · exact absurd h (by decide)
        · exact ⟨Nat.le_refl _, in_step hi h2 (by decide)⟩
      · rw [if_neg (by simpa using hb)]
        by_cases h0 : b = 0#8
        · rw [if_pos (by simpa using h0)]; trivial
        · rw [if_neg (by simpa using h0)]
          rcases rd_ok hrd with ⟨h, -⟩ | ⟨h, h2⟩
          · exact absurd h h0
          · have hstep : In s F pr (p + 1) ∧ (NoEsc s (p + 1) ∨ F .ub) := by
              rcases he with he | he
              · obtain ⟨h3, h4⟩ := he.succ h2 hb
                exact ⟨in_step hi h2 h3, Or.inl h4⟩
              · exact ⟨in_any he _, Or.inr he⟩
            have := ih (p + 1) hstep.1 hstep.2 (by omega) (by omega)
            revert this
            cases strchr (s ++ [0#8]) 0x3E#8 k (p + 1) with
            | error e => exact fun h => h
            | ok o =>
              cases o with
              | none => exact fun h => h
              | some q => exact fun h => ⟨by have := h.1; omega, h.2⟩

theorem strend_eq (hs : 0#8 ∉ s) : ∀ (k p : Nat), p ≤ s.length → s.length < p + k → strend (s ++ [0#8]) k p = .ok s.length := by
  intro k
  induction k with
  | zero => intro p _ h; omega
  | succ k ih =>
    intro p hp hk
    unfold strend
    obtain ⟨b, hrd⟩ := rd_in s p hp
    rw [hrd, res_bind_ok]
    by_cases h0 : b = 0#8
    · subst h0
      rw [if_pos (by decide), rd_zero hs hrd]
    · rw [if_neg (by simpa using h0)]
      have := rd_nz hrd h0
      exact ih _ (by omega) (by omega)

theorem nameEnd_stop : ∀ (k p q : Nat), nameEnd (s ++ [0#8]) k p = .ok q → ∃ b, rd (s ++ [0#8]) q = .ok b ∧ nameByte b = false := by
  have hal : ∀ b : Byte, ctype isAlnumA (sx b) = .ok (isAlnumA b.toNat) ∧ (isAlnumA b.toNat || b == 0x5F#8) = nameByte b := by decide +kernel
  intro k
  induction k with
  | zero => intro p q h; cases h
  | succ k ih =>
    intro p q h
    unfold nameEnd at h
    obtain ⟨b, h1, h2⟩ := hbind h
    rw [(hal b).1, res_bind_ok, (hal b).2] at h2
    cases hb : nameByte b with
    | true => rw [hb, if_pos rfl] at h2; exact ih _ _ h2
    | false =>
      rw [hb, if_neg (by decide)] at h2
      cases h2
      exact ⟨b, h1, hb⟩

/-- what is known of a call: the label, and where the call ends -/
def CallOk (s : List Byte) (F : Fault → Prop) (pr : Bool) (p : Nat) : Res (Option Nat × Nat) → Prop
  | .error e => F e
  | .ok (lab, e) => p < e ∧ In s F pr e ∧ ∀ q, lab = some q → p < q ∧ q ≤ e ∧ In s F pr q ∧ (q = e → ∃ b, rd (s ++ [0#8]) q = .ok b ∧ nameByte b = false)

theorem callLabel_good {p e : Nat} (he : p < e) (hi : In s F pr e) : CallOk s F pr p (do
    let b ← rd (s ++ [0#8]) e
    if b == 0x3A#8 then do
      let q ← nameEnd (s ++ [0#8]) ((s ++ [0#8]).length + 1) (e + 1)
      let c ← closeColon (s ++ [0#8]) q
      .ok (some (e + 1), c)
    else .ok (none, e)) := by
  cases hrd : rd (s ++ [0#8]) e with
  | error x => exact rd_err hi hrd
  | ok b =>
    rw [res_bind_ok]
    by_cases hb : b = 0x3A#8
    · subst hb
      rw [if_pos (by decide)]
      rcases rd_ok hrd with ⟨h, -⟩ | ⟨h, h2⟩
      · exact absurd h (by decide)
      · have hi1 := in_step hi h2 (by decide)
        have g1 := nameEnd_good ((s ++ [0#8]).length + 1) (e + 1) hi1 (by simp; omega) (by omega)
        cases hne : nameEnd (s ++ [0#8]) ((s ++ [0#8]).length + 1) (e + 1) with
        | error x => rw [hne] at g1; exact g1
        | ok q =>
          rw [hne] at g1
          rw [res_bind_ok]
          have g2 := closeColon_good (s := s) (F := F) (pr := pr) g1.2
          cases hcc : closeColon (s ++ [0#8]) q with
          | error x => rw [hcc] at g2; exact g2
          | ok c =>
            rw [hcc] at g2
            rw [res_bind_ok]
            have h3 := g1.1
            have h4 := g2.1
            refine ⟨by omega, g2.2, ?_⟩
            rintro q' h'
            cases h'
            refine ⟨by omega, by omega, hi1, ?_⟩
            intro hq
            obtain ⟨b, b1, b2⟩ := nameEnd_stop _ _ _ hne
            have : q = e + 1 := by omega
            subst this
            exact ⟨b, b1, b2⟩
    · rw [if_neg (by simpa using hb)]
      exact ⟨he, hi, fun q h => by cases h⟩

theorem parseCall_good (hs : 0#8 ∉ s) {p : Nat} (hp : p < s.length) (hi : In s F pr (p + 1)) (he : NoEsc s (p + 1) ∨ F .ub) :
    CallOk s F pr p (parseCall (s ++ [0#8]) p) := by
  unfold parseCall
  have h1 := strchr_good ((s ++ [0#8]).length + 1) (p + 1) hi he (by simp; omega) (by omega)
  cases hsc : strchr (s ++ [0#8]) 0x3E#8 ((s ++ [0#8]).length + 1) (p + 1) with
  | error x => rw [hsc] at h1; exact h1
  | ok o =>
    rw [hsc] at h1
    rw [res_bind_ok]
    cases o with
    | some q =>
      simp only [res_bind_ok] at h1 ⊢
      exact callLabel_good (by omega) h1.2
    | none =>
      simp only
      rw [strend_eq hs _ _ (by omega) (by simp; omega), res_bind_ok]
      exact callLabel_good hp in_end

theorem skipCall_good : ∀ (k p : Nat), In s F pr p → (NoEsc s p ∨ F .ub) → s.length < p + k → 1 ≤ k → GoodN s F pr p (skipCall (s ++ [0#8]) k p) := by
  intro k
  induction k with
  | zero => intro p _ _ _ h; omega
  | succ k ih =>
    intro p hi he hk _
    unfold skipCall
    cases hrd : rd (s ++ [0#8]) p with
    | error e => exact rd_err hi hrd
    | ok b =>
      rw [res_bind_ok]
      by_cases h0 : b = 0#8
      · rw [if_pos (by simpa using h0)]; exact ⟨Nat.le_refl _, hi⟩
      · rw [if_neg (by simpa using h0)]
        rcases rd_ok hrd with ⟨h, -⟩ | ⟨h, h2⟩
        · exact absurd h h0
        · by_cases hb : b = 0x3E#8
          · subst hb
            rw [if_pos (by decide)]
            exact ⟨Nat.le_succ _, in_step hi h2 (by decide)⟩
          · rw [if_neg (by simpa using hb)]
            have hstep : In s F pr (p + 1) ∧ (NoEsc s (p + 1) ∨ F .ub) := by
              rcases he with he | he
              · obtain ⟨h3, h4⟩ := he.succ h2 hb
                exact ⟨in_step hi h2 h3, Or.inl h4⟩
              · exact ⟨in_any he _, Or.inr he⟩
            have := ih (p + 1) hstep.1 hstep.2 (by omega) (by omega)
            revert this
            cases skipCall (s ++ [0#8]) k (p + 1) with
            | error e => exact fun h => h
            | ok q => exact fun h => ⟨by have := h.1; omega, h.2⟩

theorem rd_of_get {q : Nat} {b : Byte} (h : s[q]? = some b) : rd (s ++ [0#8]) q = .ok b := by
  rw [rd_eq_ok, List.getElem?_append_left (List.getElem?_eq_some_iff.mp h).1, h]

theorem skipExtended_good (he : (∀ p, s[p]? = some 0x3C#8 → NoEsc s (p + 1)) ∨ F .ub) : SkipExt s F pr (skipExtended (s ++ [0#8])) := by
  intro q b hb hx hi
  have hb5 : b ≠ 0x5C#8 := by rintro rfl; revert hx; decide
  have hi1 := in_step hi hb hb5
  have hlt := (List.getElem?_eq_some_iff.mp hb).1
  unfold skipExtended
  rw [rd_of_get hb, res_bind_ok]
  by_cases h : b = 0x3C#8
  · subst h
    rw [if_pos (by decide)]
    exact skipCall_good _ _ hi1 (he.imp (fun h => h q hb) id) (by simp; omega) (by omega)
  · rw [if_neg (by simpa using h)]
    exact ⟨Nat.le_refl _, hi1⟩

end

/-! ### Chains of calls -/

section
variable {t : List Byte}

/-- the contexts above, from rules and positions -/
def frames (t : List Byte) (ch : List (Nat × Nat)) : List Frame := ch.map (fun c => ⟨c.1, srcAt t c.2⟩)

/-- calls that are active: all different, and later ones start further on -/
structure Chain (R : Nat) (t : List Byte) (ch : List (Nat × Nat)) : Prop where
  nodup : ch.Nodup
  le : ∀ c ∈ ch, c.1 < R ∧ c.2 ≤ (decodeAll t).length
  desc : ch.Pairwise (fun a b => b.2 ≤ a.2)

theorem leftRecursive_eq (hn : 0#8 ∉ t) (sub k : Nat) (hk : k ≤ (decodeAll t).length) : ∀ ch : List (Nat × Nat), ch.Pairwise (fun a b => b.2 ≤ a.2) → (∀ c ∈ ch, c.2 ≤ k) →
    leftRecursive sub (srcAt t k) (frames t ch) = decide ((sub, k) ∈ ch) := by
  intro ch
  induction ch with
  | nil => intro _ _; rfl
  | cons c ch ih =>
    intro hd hle
    obtain ⟨i, k'⟩ := c
    rw [List.pairwise_cons] at hd
    have hk' : k' ≤ k := hle (i, k') (by simp)
    unfold frames at ih ⊢
    rw [List.map_cons]
    unfold leftRecursive
    simp only
    rcases Nat.lt_or_eq_of_le hk' with h | h
    · rw [if_pos (srcAt_mono t hn h hk)]
      symm
      rw [decide_eq_false_iff_not]
      intro hm
      rcases List.mem_cons.mp hm with h' | h'
      · cases h'; omega
      · have := hd.1 _ h'
        simp only at this
        omega
    · subst h
      rw [if_neg (by omega)]
      by_cases hi : i = sub
      · subst hi
        rw [if_pos (by simp)]
        simp
      · rw [if_neg (by simpa using hi), ih hd.2 (fun c hc => hle c (by simp [hc]))]
        have : (sub, k') ≠ (i, k') := by
          intro h; cases h; exact hi rfl
        simp [this]

theorem nodup_bound : ∀ (R N : Nat) (l : List (Nat × Nat)), l.Nodup → (∀ c ∈ l, c.1 < R ∧ c.2 < N) → l.length ≤ R * N := by
  intro R N l hn hl
  have hsub : l ⊆ (List.range R).flatMap (fun a => (List.range N).map (fun b => (a, b))) := by
    intro c hc
    have := hl c hc
    simp only [List.mem_flatMap, List.mem_range, List.mem_map]
    exact ⟨c.1, this.1, c.2, this.2, rfl⟩
  have hlen := (List.subperm_of_subset hn hsub).length_le
  have : ((List.range R).flatMap (fun a => (List.range N).map (fun b => (a, b)))).length = R * N := by
    rw [List.length_flatMap]
    simp only [List.length_map, List.length_range]
    clear hsub hlen hl hn
    induction R with
    | zero => simp
    | succ R ih => rw [List.range_succ, List.map_append, List.sum_append, ih]; simp [Nat.succ_mul]
  omega

theorem Chain.bound {R : Nat} {ch : List (Nat × Nat)} (h : Chain R t ch) : ch.length ≤ R * ((decodeAll t).length + 1) :=
  nodup_bound R _ ch h.nodup (fun c hc => ⟨(h.le c hc).1, Nat.lt_succ_of_le (h.le c hc).2⟩)

end

/-! ### The context of a rule -/

/-- what the root has recorded: a place at or after `lo`, and literals or classes in patterns -/
structure Report (rules : List Rule) (t : List Byte) (lo : Nat) (far : Src) (fs : List Failure) : Prop where
  far : ∃ j, lo ≤ j ∧ j ≤ (decodeAll t).length ∧ far = srcAt t j
  atoms : ∀ f ∈ fs, ∃ r b, rules[f.atom.1]? = some r ∧ r.pattern[f.atom.2]? = some b ∧ isPegexpOp b = false
  distinct : (fs.map Failure.atom).Nodup

/-- what a context keeps while its rule is matched -/
structure Inv (rules : List Rule) (lo : Nat) (t : List Byte) (i k : Nat) (ch : List (Nat × Nat)) (path : List (List Byte)) (d : Ctx) : Prop where
  rule : d.rule = i
  origin : d.origin = srcAt t k
  parents : d.parents = frames t ch
  path : d.path = path
  report : Report rules t lo d.far d.failures

section
variable {rules : List Rule} {lo : Nat} {t : List Byte} {i k : Nat} {ch : List (Nat × Nat)} {P : List (List Byte)}

theorem inv_captureValue (key : List UCS4) (v : Var.Variant) (rep : Bool) (d : Ctx) (h : Inv rules lo t i k ch P d) : Inv rules lo t i k ch P (captureValue key v rep d) := by
  unfold captureValue
  split
  · exact h
  · exact ⟨h.rule, h.origin, h.parents, h.path, h.report⟩

theorem inv_rollback (c : Int) (d : Ctx) (h : Inv rules lo t i k ch P d) : Inv rules lo t i k ch P (rollbackCapture c d) := by
  unfold rollbackCapture
  split
  · exact h
  · split
    · exact ⟨h.rule, h.origin, h.parents, h.path, h.report⟩
    · exact h

theorem inv_recordRoot (op : Nat × Nat) (len : Int) (loc : Src) (d : Ctx) {r : Rule} {b : Byte} (h1 : rules[op.1]? = some r) (h2 : r.pattern[op.2]? = some b) (h3 : isPegexpOp b = false)
    (h4 : ∃ j, lo ≤ j ∧ j ≤ (decodeAll t).length ∧ loc = srcAt t j) (h : Inv rules lo t i k ch P d) : Inv rules lo t i k ch P (recordRoot op len loc d) := by
  unfold recordRoot
  simp only
  have hfs : (∀ f ∈ (if d.far.pos < loc.pos then [] else d.failures), ∃ r b, rules[f.atom.1]? = some r ∧ r.pattern[f.atom.2]? = some b ∧ isPegexpOp b = false) ∧
      ((if d.far.pos < loc.pos then [] else d.failures).map Failure.atom).Nodup := by
    split
    · exact ⟨fun f hf => (List.not_mem_nil hf).elim, List.nodup_nil⟩
    · exact ⟨h.report.atoms, h.report.distinct⟩
  revert hfs
  generalize (if d.far.pos < loc.pos then [] else d.failures) = fs
  rintro ⟨hf1, hf2⟩
  split
  · exact ⟨h.rule, h.origin, h.parents, h.path, h.report.far, hf1, hf2⟩
  · rename_i hno
    refine ⟨h.rule, h.origin, h.parents, h.path, h4, ?_, ?_⟩
    · intro f hf
      rcases List.mem_append.mp hf with hf | hf
      · exact hf1 f hf
      · cases List.mem_singleton.mp hf
        exact ⟨r, b, h1, h2, h3⟩
    · simp only [List.map_append, List.map_cons, List.map_nil]
      rw [List.nodup_append]
      refine ⟨hf2, by simp, ?_⟩
      intro a ha c hc
      cases List.mem_singleton.mp hc
      rintro rfl
      obtain ⟨f, hf, hfa⟩ := List.mem_map.mp ha
      exact hno (List.any_eq_true.mpr ⟨f, hf, by simp [hfa]⟩)

theorem inv_record {j : Nat} {r : Rule} (hr : rules[j]? = some r) (dis : Int) (op oe : Nat) (loc : Src) (d : Ctx) (h : Inv rules lo t i k ch P d) (hop : op < r.pattern.length) (hlo : lo ≤ k)
    (hloc : SrcOk t k loc) : ∃ d', recordFailure (r.pattern ++ [0#8]) j dis op oe loc d = .ok d' ∧ Inv rules lo t i k ch P d' := by
  have hg : r.pattern[op]? = some r.pattern[op] := List.getElem?_eq_getElem hop
  have h4 : ∃ j, lo ≤ j ∧ j ≤ (decodeAll t).length ∧ loc = srcAt t j := by
    obtain ⟨x, x1, x2, x3⟩ := hloc
    exact ⟨x, by omega, x2, x3⟩
  unfold recordFailure
  simp only
  generalize (if d.parents.isEmpty then d.far else d.origin) = own
  split
  · exact ⟨d, rfl, h⟩
  · split
    · exact ⟨d, rfl, h⟩
    · rw [rd_of_get hg, res_bind_ok]
      split
      · exact ⟨d, rfl, h⟩
      · rename_i hno
        have hno : isPegexpOp r.pattern[op] = false := by simpa using hno
        split
        · exact ⟨_, rfl, inv_recordRoot _ _ _ _ hr hg hno h4 h⟩
        · split
          · exact ⟨d, rfl, h⟩
          · split
            · exact ⟨d, rfl, h⟩
            · exact ⟨_, rfl, inv_recordRoot _ _ _ _ hr hg hno h4 h⟩

end

end Strpp.Pex
