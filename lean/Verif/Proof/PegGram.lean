import Verif.Proof.PegRun
/-! Peg: matching the rules of a well-written grammar does what the meaning of the grammar says. -/
namespace Strpp.Pex
open Spec

/-! ### The meaning -/

theorem sem_mono {C C' : List Byte → Nat → Option Nat → Prop} (h : ∀ n k r, C n k r → C' n k r) {cs : List UCS4} {e : Expr} {k : Nat} {r : Option Nat} (hs : Sem C cs e k r) : Sem C' cs e k r := by
  induction hs with
  | one_yes h1 h2 => exact .one_yes h1 h2
  | one_no h1 => exact .one_no h1
  | bol_yes h1 => exact .bol_yes h1
  | bol_no h1 => exact .bol_no h1
  | eol_yes h1 => exact .eol_yes h1
  | eol_no h1 => exact .eol_no h1
  | grp _ ih => exact .grp ih
  | label _ ih => exact .label ih
  | opt_yes _ ih => exact .opt_yes ih
  | opt_no _ ih => exact .opt_no ih
  | star_end _ ih => exact .star_end ih
  | star_stay _ ih => exact .star_stay ih
  | star_more _ hl _ ih1 ih2 => exact .star_more ih1 hl ih2
  | plus_no _ ih => exact .plus_no ih
  | plus_yes _ _ ih1 ih2 => exact .plus_yes ih1 ih2
  | and_yes _ ih => exact .and_yes ih
  | and_no _ ih => exact .and_no ih
  | not_yes _ ih => exact .not_yes ih
  | not_no _ ih => exact .not_no ih
  | call h1 => exact .call (h _ _ _ h1)
  | empty => exact .empty
  | seq_no _ ih => exact .seq_no ih
  | seq_yes _ _ ih1 ih2 => exact .seq_yes ih1 ih2
  | bar _ ih => exact .bar ih
  | alt_first _ ih => exact .alt_first ih
  | alt_next _ _ ih1 ih2 => exact .alt_next ih1 ih2

section
variable (g : Grammar) (cs : List UCS4)

theorem call_mono : ∀ (h : Nat) (n : List Byte) (k : Nat) (r : Option Nat), g.call cs h n k r → g.call cs (h + 1) n k r := by
  intro h
  induction h with
  | zero => intro n k r h; cases h
  | succ h ih =>
    intro n k r hc
    rw [Grammar.call] at hc ⊢
    cases hf : g.find n with
    | none => rw [hf] at hc; exact hc
    | some e => rw [hf] at hc; exact sem_mono ih hc

theorem callL_mono : ∀ (h : Nat) (active : List (List Byte × Nat)) (n : List Byte) (k : Nat) (r : Option Nat), g.callL cs h active n k r → g.callL cs (h + 1) active n k r := by
  intro h
  induction h with
  | zero => intro active n k r h; cases h
  | succ h ih =>
    intro active n k r hc
    rw [Grammar.callL] at hc ⊢
    cases hf : g.find n with
    | none => rw [hf] at hc; exact hc
    | some e =>
      rw [hf] at hc
      simp only at hc ⊢
      split
      · rename_i hm; rw [if_pos hm] at hc; exact hc
      · rename_i hm; rw [if_neg hm] at hc; exact sem_mono (ih _) hc

theorem callL_up {h h' : Nat} (hle : h ≤ h') {active : List (List Byte × Nat)} {n : List Byte} {k : Nat} {r : Option Nat} (hc : g.callL cs h active n k r) : g.callL cs h' active n k r := by
  induction hle with
  | refl => exact hc
  | step _ ih => exact callL_mono g cs _ _ _ _ _ ih

theorem call_up {h h' : Nat} (hle : h ≤ h') {n : List Byte} {k : Nat} {r : Option Nat} (hc : g.call cs h n k r) : g.call cs h' n k r := by
  induction hle with
  | refl => exact hc
  | step _ ih => exact call_mono g cs _ _ _ _ ih

theorem call_det : ∀ (h : Nat) (n : List Byte) (k : Nat) (r r' : Option Nat), g.call cs h n k r → g.call cs h n k r' → r = r' := by
  intro h
  induction h with
  | zero => intro n k r r' h; cases h
  | succ h ih =>
    intro n k r r' h1 h2
    rw [Grammar.call] at h1 h2
    cases hf : g.find n with
    | none => rw [hf] at h1 h2; exact h1.trans h2.symm
    | some e => rw [hf] at h1 h2; exact sem_det (fun n k r r' => ih n k r r') h1 r' h2

theorem callL_det : ∀ (h : Nat) (active : List (List Byte × Nat)) (n : List Byte) (k : Nat) (r r' : Option Nat), g.callL cs h active n k r → g.callL cs h active n k r' → r = r' := by
  intro h
  induction h with
  | zero => intro active n k r r' h; cases h
  | succ h ih =>
    intro active n k r r' h1 h2
    rw [Grammar.callL] at h1 h2
    cases hf : g.find n with
    | none => rw [hf] at h1 h2; exact h1.trans h2.symm
    | some e =>
      rw [hf] at h1 h2
      simp only at h1 h2
      by_cases hm : (n, k) ∈ active
      · rw [if_pos hm] at h1 h2; exact h1.trans h2.symm
      · rw [if_neg hm] at h1 h2
        exact sem_det (fun n k r r' => ih _ n k r r') h1 r' h2

theorem meansL_det {n : List Byte} {k : Nat} {r r' : Option Nat} (h1 : g.MeansL cs n k r) (h2 : g.MeansL cs n k r') : r = r' := by
  obtain ⟨a, h1⟩ := h1
  obtain ⟨b, h2⟩ := h2
  exact callL_det g cs (max a b) [] n k r r' (callL_up g cs (Nat.le_max_left a b) h1) (callL_up g cs (Nat.le_max_right a b) h2)

theorem callL_le (t : List Byte) : ∀ (h : Nat) (active : List (List Byte × Nat)) (n : List Byte) (k k' : Nat), g.callL (decodeAll t) h active n k (some k') → k ≤ (decodeAll t).length →
    k ≤ k' ∧ k' ≤ (decodeAll t).length := by
  intro h
  induction h with
  | zero => intro active n k k' h; cases h
  | succ h ih =>
    intro active n k k' h1 hk
    rw [Grammar.callL] at h1
    cases hf : g.find n with
    | none => rw [hf] at h1; cases h1
    | some e =>
      rw [hf] at h1
      simp only at h1
      by_cases hm : (n, k) ∈ active
      · rw [if_pos hm] at h1; cases h1
      · rw [if_neg hm] at h1
        exact sem_le (ih _) h1 hk _ rfl

/-- without left recursion the two meanings are the same -/
theorem call_callL : ∀ (h : Nat) (active : List (List Byte × Nat)) (n : List Byte) (k : Nat) (r : Option Nat), g.call cs h n k r → (∀ c ∈ active, ∀ r', ¬ g.call cs h c.1 c.2 r') →
    g.callL cs h active n k r := by
  intro h
  induction h with
  | zero => intro active n k r h; cases h
  | succ h ih =>
    intro active n k r hc ha
    have ha' : ∀ c ∈ active, ∀ r', ¬ g.call cs h c.1 c.2 r' := fun c hm r' hc' => ha c hm r' (call_mono g cs _ _ _ _ hc')
    by_cases hx : ∃ r', g.call cs h n k r'
    · obtain ⟨r', hr'⟩ := hx
      cases call_det g cs (h + 1) n k r r' hc (call_mono g cs _ _ _ _ hr')
      exact callL_mono g cs _ _ _ _ _ (ih active n k r hr' ha')
    · have hnot : (n, k) ∉ active := fun hm => ha _ hm r hc
      rw [Grammar.call] at hc
      rw [Grammar.callL]
      cases hf : g.find n with
      | none => rw [hf] at hc; exact hc
      | some e =>
        rw [hf] at hc
        simp only at hc ⊢
        rw [if_neg hnot]
        refine sem_mono (fun n' k' r'' h' => ih _ n' k' r'' h' ?_) hc
        intro c hm r' hr'
        rcases List.mem_cons.mp hm with h2 | h2
        · subst h2; exact hx ⟨r', hr'⟩
        · exact ha' c h2 r' hr'

theorem means_meansL {n : List Byte} {k : Nat} {r : Option Nat} (h : g.Means cs n k r) : g.MeansL cs n k r := by
  obtain ⟨h, hc⟩ := h
  exact ⟨h, call_callL g cs h [] n k r hc (fun c hm => by cases hm)⟩

theorem find_some {g : Grammar} {n : List Byte} {e : Expr} (h : g.find n = some e) : ∃ d ∈ g, d.name = n ∧ d.expr = e := by
  unfold Grammar.find at h
  cases hf : List.find? (fun d => d.name == n) g with
  | none => rw [hf] at h; cases h
  | some d =>
    rw [hf] at h
    have h1 := List.mem_of_find?_eq_some hf
    have h2 := List.find?_some hf
    simp only [Option.map_some, Option.some.injEq] at h
    exact ⟨d, h1, by simpa using h2, h⟩

theorem find_none {g : Grammar} {n : List Byte} (h : g.find n = none) : ∀ d ∈ g, d.name ≠ n := by
  unfold Grammar.find at h
  rw [Option.map_eq_none_iff, List.find?_eq_none] at h
  intro d hd
  simpa using h d hd

variable {g cs} in
theorem callL_undef {h : Nat} {active : List (List Byte × Nat)} {n : List Byte} {k : Nat} (hf : g.find n = none) : g.callL cs (h + 1) active n k none := by
  rw [Grammar.callL, hf]

variable {g cs} in
theorem callL_active {h : Nat} {active : List (List Byte × Nat)} {n : List Byte} {k : Nat} {e : Expr} (hf : g.find n = some e) (hm : (n, k) ∈ active) : g.callL cs (h + 1) active n k none := by
  rw [Grammar.callL, hf]
  simp only
  rw [if_pos hm]
  trivial

variable {g cs} in
theorem callL_new {h : Nat} {active : List (List Byte × Nat)} {n : List Byte} {k : Nat} {e : Expr} {r : Option Nat} (hf : g.find n = some e) (hm : (n, k) ∉ active)
    (hs : Sem (g.callL cs h ((n, k) :: active)) cs e k r) : g.callL cs (h + 1) active n k r := by
  rw [Grammar.callL, hf]
  simp only
  rw [if_neg hm]
  exact hs

/-- calls of rules always end -/
theorem callL_total (t : List Byte) : ∀ (m : Nat) (active : List (List Byte × Nat)), active.Nodup → (∀ c ∈ active, c.1 ∈ g.map Def.name ∧ c.2 ≤ (decodeAll t).length) →
    g.length * ((decodeAll t).length + 1) ≤ active.length + m → ∀ n k, k ≤ (decodeAll t).length → ∃ r, g.callL (decodeAll t) (m + 1) active n k r := by
  intro m
  induction m with
  | zero =>
    intro active hnd hact hlen n k hk
    cases hf : g.find n with
    | none => exact ⟨none, callL_undef hf⟩
    | some e =>
      by_cases hm : (n, k) ∈ active
      · exact ⟨none, callL_active hf hm⟩
      · exfalso
        obtain ⟨d, hd, hdn, -⟩ := find_some hf
        have := pairs_bound (g.map Def.name) ((decodeAll t).length + 1) ((n, k) :: active) (List.nodup_cons.mpr ⟨hm, hnd⟩) (by
          intro c hc
          rcases List.mem_cons.mp hc with h | h
          · subst h; exact ⟨List.mem_map.mpr ⟨d, hd, hdn⟩, by simp only; omega⟩
          · exact ⟨(hact c h).1, Nat.lt_succ_of_le (hact c h).2⟩)
        simp only [List.length_cons, List.length_map] at this
        omega
  | succ m ih =>
    intro active hnd hact hlen n k hk
    cases hf : g.find n with
    | none => exact ⟨none, callL_undef hf⟩
    | some e =>
      by_cases hm : (n, k) ∈ active
      · exact ⟨none, callL_active hf hm⟩
      · obtain ⟨d, hd, hdn, -⟩ := find_some hf
        have hin : ∀ c ∈ (n, k) :: active, c.1 ∈ g.map Def.name ∧ c.2 ≤ (decodeAll t).length := by
          intro c hc
          rcases List.mem_cons.mp hc with h | h
          · subst h; exact ⟨List.mem_map.mpr ⟨d, hd, hdn⟩, hk⟩
          · exact hact c h
        have hle : g.length * ((decodeAll t).length + 1) ≤ ((n, k) :: active).length + m := by simp only [List.length_cons]; omega
        have hsem := sem_total (C := g.callL (decodeAll t) (m + 1) ((n, k) :: active)) (fun n k k' h hk => callL_le g t _ _ n k k' h hk) e (Or.inr (fun n' k' hk' => ih _ (List.nodup_cons.mpr ⟨hm, hnd⟩) hin hle n' k' hk')) k hk
        obtain ⟨r, hr⟩ := hsem
        exact ⟨r, callL_new hf hm hr⟩
where
  pairs_bound (N : List (List Byte)) (M : Nat) (l : List (List Byte × Nat)) (hn : l.Nodup) (hl : ∀ c ∈ l, c.1 ∈ N ∧ c.2 < M) : l.length ≤ N.length * M := by
    have hsub : l ⊆ N.flatMap (fun a => (List.range M).map (fun b => (a, b))) := by
      intro c hc
      have := hl c hc
      simp only [List.mem_flatMap, List.mem_range, List.mem_map]
      exact ⟨c.1, this.1, c.2, this.2, rfl⟩
    have hlen := (List.subperm_of_subset hn hsub).length_le
    have : (N.flatMap (fun a => (List.range M).map (fun b => (a, b)))).length = N.length * M := by
      rw [List.length_flatMap]
      simp only [List.length_map, List.length_range]
      clear hsub hlen hl hn
      induction N with
      | nil => simp
      | cons x N ih => rw [List.map_cons, List.sum_cons, ih, List.length_cons, Nat.succ_mul]; omega
    omega

theorem meansL_total (t : List Byte) (n : List Byte) (k : Nat) (hk : k ≤ (decodeAll t).length) : ∃ r, g.MeansL (decodeAll t) n k r := by
  obtain ⟨r, hr⟩ := callL_total g t _ [] List.nodup_nil (fun c hc => by cases hc) (by rw [List.length_nil]; exact Nat.le_add_left _ 0) n k hk
  exact ⟨r, _, hr⟩

end

/-! ### The meaning with captures -/

section
variable (g : Grammar) (cs : List UCS4)

theorem rule_find (n : List Byte) : g.find n = (g.rule n).map Def.expr := rfl

variable {g cs} in
theorem callC_undef {h : Nat} {active : List (List Byte × Nat)} {caps : Option (List (List Byte))} {on rep : Bool} {n : List Byte} {l : Option (List Byte)} {k : Nat} {a : List CapEvent} {r : Option Nat} {a' : List CapEvent}
    (hf : g.rule n = none) : g.callC cs (h + 1) active caps on rep n l k a r a' ↔ r = none ∧ a' = a := by
  rw [Grammar.callC, hf]

variable {g cs} in
theorem callC_active {h : Nat} {active : List (List Byte × Nat)} {caps : Option (List (List Byte))} {on rep : Bool} {n : List Byte} {l : Option (List Byte)} {k : Nat} {a : List CapEvent} {r : Option Nat} {a' : List CapEvent}
    {d : Def} (hf : g.rule n = some d) (hm : (n, k) ∈ active) : g.callC cs (h + 1) active caps on rep n l k a r a' ↔ r = none ∧ a' = a := by
  rw [Grammar.callC, hf]
  simp only
  rw [if_pos hm]

/-- what a call that has result `r` adds -/
def added (cs : List UCS4) (caps : Option (List (List Byte))) (on rep : Bool) (name : List Byte) (lab : Option (List Byte)) (k : Nat) (before : List CapEvent) (r : Option Nat) (own : List CapEvent) : List CapEvent :=
  match r with
  | some k' => if on && wants caps (lab.getD name) then note ⟨letters (lab.getD name), valueOf false cs k k' own, rep⟩ before else before
  | none => before

variable {g cs} in
theorem callC_new {h : Nat} {active : List (List Byte × Nat)} {caps : Option (List (List Byte))} {on rep : Bool} {n : List Byte} {l : Option (List Byte)} {k : Nat} {a : List CapEvent} {r : Option Nat} {a' : List CapEvent}
    {d : Def} (hf : g.rule n = some d) (hm : (n, k) ∉ active) : g.callC cs (h + 1) active caps on rep n l k a r a' ↔
      ∃ own, SemC cs false (g.callC cs h ((n, k) :: active) d.captures) on false d.expr k [] r own ∧ a' = added cs caps on rep n l k a r own := by
  rw [Grammar.callC, hf]
  simp only
  rw [if_neg hm]
  rfl

theorem added_ok (caps : Option (List (List Byte))) (on rep : Bool) (name : List Byte) (lab : Option (List Byte)) (k : Nat) (before : List CapEvent) (r : Option Nat) (own : List CapEvent) :
    (r = none → added cs caps on rep name lab k before r own = before) ∧ (on = false → added cs caps on rep name lab k before r own = before) ∧ (before ≠ [] → added cs caps on rep name lab k before r own ≠ []) := by
  refine ⟨?_, ?_, ?_⟩
  · rintro rfl; rfl
  · rintro rfl
    cases r with
    | none => rfl
    | some k' => rfl
  · intro h
    cases r with
    | none => exact h
    | some k' =>
      unfold added
      simp only
      split
      · exact note_ne _ h
      · exact h

theorem callC_ok (h : Nat) (active : List (List Byte × Nat)) (caps : Option (List (List Byte))) : CallOkC (g.callC cs h active caps) := by
  cases h with
  | zero => exact ⟨fun h => h.elim, fun h => h.elim, fun h => h.elim⟩
  | succ h =>
    have key : ∀ on rep n l k a r a', g.callC cs (h + 1) active caps on rep n l k a r a' → a' = a ∨ ∃ own, a' = added cs caps on rep n l k a r own := by
      intro on rep n l k a r a' hc
      cases hf : g.rule n with
      | none => exact Or.inl ((callC_undef hf).mp hc).2
      | some d =>
        by_cases hm : (n, k) ∈ active
        · exact Or.inl ((callC_active hf hm).mp hc).2
        · obtain ⟨own, -, h2⟩ := (callC_new hf hm).mp hc
          exact Or.inr ⟨own, h2⟩
    refine ⟨fun hc => ?_, fun hc => ?_, fun hc hne => ?_⟩
    · rcases key _ _ _ _ _ _ _ _ hc with h | ⟨own, h⟩
      · exact h
      · rw [h]; exact (added_ok cs _ _ _ _ _ _ _ _ _).1 rfl
    · rcases key _ _ _ _ _ _ _ _ hc with h | ⟨own, h⟩
      · exact h
      · rw [h]; exact (added_ok cs _ _ _ _ _ _ _ _ _).2.1 rfl
    · rcases key _ _ _ _ _ _ _ _ hc with h | ⟨own, h⟩
      · rw [h]; exact hne
      · rw [h]; exact (added_ok cs _ _ _ _ _ _ _ _ _).2.2 hne

theorem callC_callL : ∀ (h : Nat) (active : List (List Byte × Nat)) (caps : Option (List (List Byte))) (n : List Byte) (k : Nat) (r : Option Nat), plainC (g.callC cs h active caps) n k r → g.callL cs h active n k r := by
  intro h
  induction h with
  | zero => rintro active caps n k r ⟨_, _, _, _, _, hc⟩; cases hc
  | succ h ih =>
    rintro active caps n k r ⟨on, rep, l, a, a', hc⟩
    cases hf : g.rule n with
    | none =>
      rw [((callC_undef hf).mp hc).1]
      exact callL_undef (by rw [rule_find, hf]; rfl)
    | some d =>
      have hfe : g.find n = some d.expr := by rw [rule_find, hf]; rfl
      by_cases hm : (n, k) ∈ active
      · rw [((callC_active hf hm).mp hc).1]
        exact callL_active hfe hm
      · obtain ⟨own, h1, -⟩ := (callC_new hf hm).mp hc
        exact callL_new hfe hm (sem_mono (ih _ _) (semC_plain h1))

theorem callL_callC : ∀ (h : Nat) (active : List (List Byte × Nat)) (caps : Option (List (List Byte))) (n : List Byte) (k : Nat) (r : Option Nat), g.callL cs h active n k r →
    ∀ on rep l a, ∃ a', g.callC cs h active caps on rep n l k a r a' := by
  intro h
  induction h with
  | zero => intro active caps n k r hc; cases hc
  | succ h ih =>
    intro active caps n k r hc on rep l a
    cases hf : g.rule n with
    | none =>
      rw [Grammar.callL, rule_find, hf] at hc
      exact ⟨a, (callC_undef hf).mpr ⟨hc, rfl⟩⟩
    | some d =>
      rw [Grammar.callL, rule_find, hf] at hc
      simp only [Option.map_some] at hc
      by_cases hm : (n, k) ∈ active
      · rw [if_pos hm] at hc
        exact ⟨a, (callC_active hf hm).mpr ⟨hc, rfl⟩⟩
      · rw [if_neg hm] at hc
        obtain ⟨own, h1⟩ := sem_semC (top := false) (C := g.callC cs h ((n, k) :: active) d.captures) (fun n k r h => ih _ _ n k r h) hc on false []
        exact ⟨_, (callC_new hf hm).mpr ⟨own, h1, rfl⟩⟩

theorem callC_mono : ∀ (h : Nat) (active : List (List Byte × Nat)) (caps : Option (List (List Byte))) (on rep : Bool) (n : List Byte) (l : Option (List Byte)) (k : Nat) (a : List CapEvent) (r : Option Nat) (a' : List CapEvent),
    g.callC cs h active caps on rep n l k a r a' → g.callC cs (h + 1) active caps on rep n l k a r a' := by
  intro h
  induction h with
  | zero => intro active caps on rep n l k a r a' hc; cases hc
  | succ h ih =>
    intro active caps on rep n l k a r a' hc
    cases hf : g.rule n with
    | none => exact (callC_undef hf).mpr ((callC_undef hf).mp hc)
    | some d =>
      by_cases hm : (n, k) ∈ active
      · exact (callC_active hf hm).mpr ((callC_active hf hm).mp hc)
      · obtain ⟨own, h1, h2⟩ := (callC_new hf hm).mp hc
        exact (callC_new hf hm).mpr ⟨own, semC_mono (ih _ _) h1, h2⟩

theorem callC_up {h h' : Nat} (hle : h ≤ h') {active : List (List Byte × Nat)} {caps : Option (List (List Byte))} {on rep : Bool} {n : List Byte} {l : Option (List Byte)} {k : Nat} {a : List CapEvent} {r : Option Nat}
    {a' : List CapEvent} (hc : g.callC cs h active caps on rep n l k a r a') : g.callC cs h' active caps on rep n l k a r a' := by
  induction hle with
  | refl => exact hc
  | step _ ih => exact callC_mono g cs _ _ _ _ _ _ _ _ _ _ _ ih

theorem callC_det : ∀ (h : Nat) (active : List (List Byte × Nat)) (caps : Option (List (List Byte))) (on rep : Bool) (n : List Byte) (l : Option (List Byte)) (k : Nat) (a : List CapEvent) (r : Option Nat) (a' : List CapEvent)
    (r' : Option Nat) (a'' : List CapEvent), g.callC cs h active caps on rep n l k a r a' → g.callC cs h active caps on rep n l k a r' a'' → r = r' ∧ a' = a'' := by
  intro h
  induction h with
  | zero => intro active caps on rep n l k a r a' r' a'' hc; cases hc
  | succ h ih =>
    intro active caps on rep n l k a r a' r' a'' h1 h2
    cases hf : g.rule n with
    | none =>
      obtain ⟨rfl, rfl⟩ := (callC_undef hf).mp h1
      obtain ⟨rfl, rfl⟩ := (callC_undef hf).mp h2
      exact ⟨rfl, rfl⟩
    | some d =>
      by_cases hm : (n, k) ∈ active
      · obtain ⟨rfl, rfl⟩ := (callC_active hf hm).mp h1
        obtain ⟨rfl, rfl⟩ := (callC_active hf hm).mp h2
        exact ⟨rfl, rfl⟩
      · obtain ⟨o1, s1, rfl⟩ := (callC_new hf hm).mp h1
        obtain ⟨o2, s2, rfl⟩ := (callC_new hf hm).mp h2
        obtain ⟨rfl, rfl⟩ := semC_det (fun on rep n l k g r g' r' g'' => ih _ _ on rep n l k g r g' r' g'') s1 _ _ s2
        exact ⟨rfl, rfl⟩

theorem meansC_det {n : List Byte} {k : Nat} {r r' : Option Nat} {ast ast' : List (List UCS4 × Var.Variant)} (h1 : g.MeansC cs n k r ast) (h2 : g.MeansC cs n k r' ast') : r = r' ∧ ast = ast' := by
  obtain ⟨d1, a, o1, e1, s1, rfl⟩ := h1
  obtain ⟨d2, b, o2, e2, s2, rfl⟩ := h2
  rw [e1] at e2
  cases e2
  have t1 := semC_mono (fun _ _ _ _ _ _ _ _ => callC_up g cs (Nat.le_max_left a b)) s1
  have t2 := semC_mono (fun _ _ _ _ _ _ _ _ => callC_up g cs (Nat.le_max_right a b)) s2
  obtain ⟨rfl, rfl⟩ := semC_det (fun on rep n l k g' r g'' r' g''' => callC_det g cs _ _ _ on rep n l k g' r g'' r' g''') t1 _ _ t2
  exact ⟨rfl, rfl⟩

theorem meansC_meansL {n : List Byte} {k : Nat} {r : Option Nat} {ast : List (List UCS4 × Var.Variant)} (h : g.MeansC cs n k r ast) : g.MeansL cs n k r := by
  obtain ⟨d, a, o, e, s, -⟩ := h
  refine ⟨a + 1, callL_new (by rw [rule_find, e]; rfl) List.not_mem_nil ?_⟩
  exact sem_mono (callC_callL g cs _ _ _) (semC_plain s)

theorem meansL_meansC {n : List Byte} {k : Nat} {r : Option Nat} {d : Def} (hd : g.rule n = some d) (h : g.MeansL cs n k r) : ∃ ast, g.MeansC cs n k r ast := by
  obtain ⟨a, h⟩ := h
  cases a with
  | zero => cases h
  | succ a =>
    rw [Grammar.callL, rule_find, hd] at h
    simp only [Option.map_some, List.not_mem_nil, if_false] at h
    obtain ⟨own, h1⟩ := sem_semC (top := true) (C := g.callC cs a [(n, k)] d.captures) (fun n k r h => callL_callC g cs _ _ _ n k r h) h true false []
    exact ⟨astOf own, d, a, own, hd, h1, rfl⟩

end

end Strpp.Pex
