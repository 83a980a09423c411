import Verif.Spec.PegCap
/-! The meaning with captures: its relation to the meaning without, and what happens to the captures. -/
namespace Strpp.Pex

/-- what calls do, with captures -/
abbrev CallC := Bool → Bool → List Byte → Option (List Byte) → Nat → List CapEvent → Option Nat → List CapEvent → Prop

/-- calls, without captures -/
def plainC (C : CallC) (n : List Byte) (k : Nat) (r : Option Nat) : Prop := ∃ on rep l g g', C on rep n l k g r g'

/-- what is required of calls -/
structure CallOkC (C : CallC) : Prop where
  fail : ∀ {on rep n l k g g'}, C on rep n l k g none g' → g' = g
  off : ∀ {rep n l k g r g'}, C false rep n l k g r g' → g' = g
  grow : ∀ {on rep n l k g r g'}, C on rep n l k g r g' → g ≠ [] → g' ≠ []

theorem left_nil (g' : List CapEvent) : left [] g' = [] := rfl

theorem left_ne {g : List CapEvent} (h : g ≠ []) (g' : List CapEvent) : left g g' = g' := by
  cases g with
  | nil => exact absurd rfl h
  | cons _ _ => rfl

theorem left_self (g : List CapEvent) : left g g = g := by cases g <;> rfl

theorem left_left (g g' : List CapEvent) : left g (left g g') = left g g' := by cases g <;> rfl

theorem left_congr {g0 g : List CapEvent} (h : g0 = [] ↔ g = []) (x : List CapEvent) : left g0 x = left g x := by
  by_cases h0 : g0 = []
  · rw [h0, h.mp h0]
  · rw [left_ne h0, left_ne (fun hg => h0 (h.mpr hg))]

theorem note_ne (e : CapEvent) {g : List CapEvent} (h : g ≠ []) : note e g ≠ [] := by
  unfold note
  split
  · exact h
  · simp

section
variable {cs : List UCS4} {top : Bool} {C : CallC}

theorem semC_plain {on rep : Bool} {e : Expr} {k : Nat} {g : List CapEvent} {r : Option Nat} {g' : List CapEvent} (h : SemC cs top C on rep e k g r g') : Sem (plainC C) cs e k r := by
  induction h with
  | one_yes h1 h2 => exact .one_yes h1 h2
  | one_no h1 => exact .one_no h1
  | bol_yes h1 => exact .bol_yes h1
  | bol_no h1 => exact .bol_no h1
  | eol_yes h1 => exact .eol_yes h1
  | eol_no h1 => exact .eol_no h1
  | grp _ ih => exact .grp ih
  | label_yes _ ih => exact .label ih
  | label_no _ ih => exact .label ih
  | opt_yes _ ih => exact .opt_yes ih
  | opt_no _ ih => exact .opt_no ih
  | star_end _ ih => exact .star_end ih
  | star_stay _ ih => exact .star_stay ih
  | star_more _ hl _ ih1 ih2 => exact .star_more ih1 hl ih2
  | plus_no _ ih => exact .plus_no ih
  | plus_yes _ _ ih1 ih2 => exact .plus_yes ih1 ih2
  | and_yes _ ih => exact .and_yes ih
  | and_no _ ih => exact .and_no ih
  | not_yes _ ih => exact .not_yes ih
  | not_no _ ih => exact .not_no ih
  | call h1 => exact .call ⟨_, _, _, _, _, h1⟩
  | empty => exact .empty
  | seq_no _ ih => exact .seq_no ih
  | seq_yes _ _ ih1 ih2 => exact .seq_yes ih1 ih2
  | seq_back _ _ ih1 ih2 => exact .seq_yes ih1 ih2
  | bar _ ih => exact .bar ih
  | alt_first _ ih => exact .alt_first ih
  | alt_next _ _ ih1 ih2 => exact .alt_next ih1 ih2

theorem semC_mono {C' : CallC} (h : ∀ on rep n l k g r g', C on rep n l k g r g' → C' on rep n l k g r g') {on rep : Bool} {e : Expr} {k : Nat} {g : List CapEvent} {r : Option Nat} {g' : List CapEvent}
    (hs : SemC cs top C on rep e k g r g') : SemC cs top C' on rep e k g r g' := by
  induction hs with
  | one_yes h1 h2 => exact .one_yes h1 h2
  | one_no h1 => exact .one_no h1
  | bol_yes h1 => exact .bol_yes h1
  | bol_no h1 => exact .bol_no h1
  | eol_yes h1 => exact .eol_yes h1
  | eol_no h1 => exact .eol_no h1
  | grp _ ih => exact .grp ih
  | label_yes _ ih => exact .label_yes ih
  | label_no _ ih => exact .label_no ih
  | opt_yes _ ih => exact .opt_yes ih
  | opt_no _ ih => exact .opt_no ih
  | star_end _ ih => exact .star_end ih
  | star_stay _ ih => exact .star_stay ih
  | star_more _ hl _ ih1 ih2 => exact .star_more ih1 hl ih2
  | plus_no _ ih => exact .plus_no ih
  | plus_yes _ _ ih1 ih2 => exact .plus_yes ih1 ih2
  | and_yes _ ih => exact .and_yes ih
  | and_no _ ih => exact .and_no ih
  | not_yes _ ih => exact .not_yes ih
  | not_no _ ih => exact .not_no ih
  | call h1 => exact .call (h _ _ _ _ _ _ _ _ h1)
  | empty => exact .empty
  | seq_no _ ih => exact .seq_no ih
  | seq_yes _ _ ih1 ih2 => exact .seq_yes ih1 ih2
  | seq_back _ _ ih1 ih2 => exact .seq_back ih1 ih2
  | bar _ ih => exact .bar ih
  | alt_first _ ih => exact .alt_first ih
  | alt_next _ _ ih1 ih2 => exact .alt_next ih1 ih2

/-- wherever there is a meaning there is one with captures -/
theorem sem_semC {C0 : List Byte → Nat → Option Nat → Prop} (hC : ∀ n k r, C0 n k r → ∀ on rep l g, ∃ g', C on rep n l k g r g') {e : Expr} {k : Nat} {r : Option Nat} (h : Sem C0 cs e k r) :
    ∀ on rep g, ∃ g', SemC cs top C on rep e k g r g' := by
  induction h with
  | one_yes h1 h2 => exact fun on rep g => ⟨_, .one_yes h1 h2⟩
  | one_no h1 => exact fun on rep g => ⟨_, .one_no h1⟩
  | bol_yes h1 => exact fun on rep g => ⟨_, .bol_yes h1⟩
  | bol_no h1 => exact fun on rep g => ⟨_, .bol_no h1⟩
  | eol_yes h1 => exact fun on rep g => ⟨_, .eol_yes h1⟩
  | eol_no h1 => exact fun on rep g => ⟨_, .eol_no h1⟩
  | grp _ ih => exact fun on rep g => (ih on rep g).imp fun _ h => .grp h
  | @label e n k r _ ih =>
    intro on rep g
    obtain ⟨g', h⟩ := ih on rep g
    cases r with
    | none => exact ⟨_, .label_no h⟩
    | some k' => exact ⟨_, .label_yes h⟩
  | opt_yes _ ih => exact fun on rep g => (ih on rep g).imp fun _ h => .opt_yes h
  | opt_no _ ih => exact fun on rep g => (ih on rep g).imp fun _ h => .opt_no h
  | star_end _ ih => exact fun on rep g => (ih on true g).imp fun _ h => .star_end h
  | star_stay _ ih => exact fun on rep g => (ih on true g).imp fun _ h => .star_stay h
  | star_more _ hl _ ih1 ih2 =>
    intro on rep g
    obtain ⟨g1, h1⟩ := ih1 on true g
    exact (ih2 on rep g1).imp fun _ h => .star_more h1 hl h
  | plus_no _ ih => exact fun on rep g => (ih on true g).imp fun _ h => .plus_no h
  | plus_yes _ _ ih1 ih2 =>
    intro on rep g
    obtain ⟨g1, h1⟩ := ih1 on true g
    exact (ih2 on rep g1).imp fun _ h => .plus_yes h1 h
  | and_yes _ ih => exact fun on rep g => let ⟨_, h⟩ := ih false rep g; ⟨_, .and_yes h⟩
  | and_no _ ih => exact fun on rep g => let ⟨_, h⟩ := ih false rep g; ⟨_, .and_no h⟩
  | not_yes _ ih => exact fun on rep g => let ⟨_, h⟩ := ih false rep g; ⟨_, .not_yes h⟩
  | not_no _ ih => exact fun on rep g => let ⟨_, h⟩ := ih false rep g; ⟨_, .not_no h⟩
  | @call n l k r h => exact fun on rep g => (hC _ _ _ h on rep l g).imp fun _ h => .call h
  | empty => exact fun on rep g => ⟨_, .empty⟩
  | seq_no _ ih => exact fun on rep g => (ih on rep g).imp fun _ h => .seq_no h
  | @seq_yes a b k k' r _ _ ih1 ih2 =>
    intro on rep g
    obtain ⟨g1, h1⟩ := ih1 on rep g
    obtain ⟨g2, h2⟩ := ih2 on rep g1
    cases r with
    | none => exact ⟨_, .seq_back h1 h2⟩
    | some k'' => exact ⟨_, .seq_yes h1 h2⟩
  | bar _ ih => exact fun on rep g => (ih on rep g).imp fun _ h => .bar h
  | alt_first _ ih => exact fun on rep g => (ih on rep g).imp fun _ h => .alt_first h
  | alt_next _ _ ih1 ih2 =>
    intro on rep g
    obtain ⟨g1, h1⟩ := ih1 on rep g
    exact (ih2 on rep g1).imp fun _ h => .alt_next h1 h

section
variable (hC : CallOkC C)
include hC

/-- a look-ahead captures nothing -/
theorem semC_off {on rep : Bool} {e : Expr} {k : Nat} {g : List CapEvent} {r : Option Nat} {g' : List CapEvent} (h : SemC cs top C on rep e k g r g') : on = false → g' = g := by
  induction h with
  | call h => rintro rfl; exact hC.off h
  | label_yes _ ih => rintro rfl; exact ih rfl
  | star_more _ _ _ ih1 ih2 => intro h; rw [ih2 h, ih1 h]
  | plus_yes _ _ ih1 ih2 => intro h; rw [ih2 h, ih1 h]
  | seq_yes _ _ ih1 ih2 => intro h; rw [ih2 h, ih1 h]
  | seq_back _ _ ih1 ih2 => intro h; rw [ih2 h, ih1 h, left_self]
  | alt_next _ _ ih1 ih2 => intro h; rw [ih2 h, ih1 h]
  | grp _ ih => exact ih
  | label_no _ ih => exact ih
  | opt_yes _ ih => exact ih
  | opt_no _ ih => exact ih
  | star_end _ ih => exact ih
  | star_stay _ ih => exact ih
  | plus_no _ ih => exact ih
  | seq_no _ ih => exact ih
  | bar _ ih => exact ih
  | alt_first _ ih => exact ih
  | _ => exact fun _ => rfl

/-- captures are not all lost -/
theorem semC_grow {on rep : Bool} {e : Expr} {k : Nat} {g : List CapEvent} {r : Option Nat} {g' : List CapEvent} (h : SemC cs top C on rep e k g r g') : g ≠ [] → g' ≠ [] := by
  induction h with
  | call h => exact hC.grow h
  | label_yes _ ih =>
    intro h
    split
    · exact note_ne _ (ih h)
    · exact ih h
  | star_more _ _ _ ih1 ih2 => exact fun h => ih2 (ih1 h)
  | plus_yes _ _ ih1 ih2 => exact fun h => ih2 (ih1 h)
  | seq_yes _ _ ih1 ih2 => exact fun h => ih2 (ih1 h)
  | seq_back _ _ ih1 ih2 => intro h; rw [left_ne h]; exact ih2 (ih1 h)
  | alt_next _ _ ih1 ih2 => exact fun h => ih2 (ih1 h)
  | grp _ ih => exact ih
  | label_no _ ih => exact ih
  | opt_yes _ ih => exact ih
  | opt_no _ ih => exact ih
  | star_end _ ih => exact ih
  | star_stay _ ih => exact ih
  | plus_no _ ih => exact ih
  | seq_no _ ih => exact ih
  | bar _ ih => exact ih
  | alt_first _ ih => exact ih
  | _ => exact fun h => h

/-- after a failure with none to begin with there are none -/
theorem semC_nil {on rep : Bool} {e : Expr} {k : Nat} {g : List CapEvent} {r : Option Nat} {g' : List CapEvent} (h : SemC cs top C on rep e k g r g') : r = none → g = [] → g' = [] := by
  induction h with
  | call h => rintro rfl; exact fun hg => (hC.fail h).trans hg
  | star_more _ _ h2 _ ih2 => 
    intro hr
    have : ∀ {on rep e' k g r g'}, SemC cs top C on rep e' k g r g' → ∀ e, e' = .star e → r ≠ none := by
      intro on rep e' k g r g' h
      induction h with
      | star_end _ _ => intro _ _ h; cases h
      | star_stay _ _ => intro _ _ h; cases h
      | star_more _ _ _ _ ih => exact ih
      | _ => intro e h; cases h
    exact absurd hr (this h2 _ rfl)
  | plus_yes _ h2 _ ih2 =>
    intro hr
    have : ∀ {on rep e' k g r g'}, SemC cs top C on rep e' k g r g' → ∀ e, e' = .star e → r ≠ none := by
      intro on rep e' k g r g' h
      induction h with
      | star_end _ _ => intro _ _ h; cases h
      | star_stay _ _ => intro _ _ h; cases h
      | star_more _ _ _ _ ih => exact ih
      | _ => intro e h; cases h
    exact absurd hr (this h2 _ rfl)
  | seq_back _ _ _ _ => rintro - rfl; rfl
  | alt_next _ _ ih1 ih2 => exact fun hr hg => ih2 hr (ih1 rfl hg)
  | grp _ ih => exact ih
  | label_no _ ih => exact ih
  | plus_no _ ih => exact ih
  | seq_no _ ih => exact ih
  | bar _ ih => exact ih
  | one_no _ => exact fun _ h => h
  | bol_no _ => exact fun _ h => h
  | eol_no _ => exact fun _ h => h
  | and_no _ _ => exact fun _ h => h
  | not_no _ _ => exact fun _ h => h
  | _ => intro h; cases h

/-- rolling back after a failure changes nothing more -/
theorem semC_left {on rep : Bool} {e : Expr} {k : Nat} {g g' : List CapEvent} (h : SemC cs top C on rep e k g none g') : left g g' = g' := by
  by_cases hg : g = []
  · rw [semC_nil hC h rfl hg, hg]; rfl
  · exact left_ne hg _

theorem semC_iff {on rep : Bool} {e : Expr} {k : Nat} {g g' : List CapEvent} (h : SemC cs top C on rep e k g none g') : g = [] ↔ g' = [] :=
  ⟨semC_nil hC h rfl, fun h' => Classical.byContradiction fun hg => semC_grow hC h hg h'⟩

end

/-- one result, and one list of captures -/
theorem semC_det (hC : ∀ on rep n l k g r g' r' g'', C on rep n l k g r g' → C on rep n l k g r' g'' → r = r' ∧ g' = g'') {on rep : Bool} {e : Expr} {k : Nat} {g : List CapEvent} {r : Option Nat}
    {g' : List CapEvent} (h : SemC cs top C on rep e k g r g') : ∀ r' g'', SemC cs top C on rep e k g r' g'' → r = r' ∧ g' = g'' := by
  induction h with
  | one_yes h1 h2 =>
    intro r' g'' h'
    cases h' with
    | one_yes => exact ⟨rfl, rfl⟩
    | one_no h3 => rw [h3 _ h1] at h2; cases h2
  | one_no h1 =>
    intro r' g'' h'
    cases h' with
    | one_yes h3 h4 => rw [h1 _ h3] at h4; cases h4
    | one_no => exact ⟨rfl, rfl⟩
  | bol_yes h1 => intro r' g'' h'; cases h' with | bol_yes => exact ⟨rfl, rfl⟩ | bol_no h2 => exact absurd h1 h2
  | bol_no h1 => intro r' g'' h'; cases h' with | bol_yes h2 => exact absurd h2 h1 | bol_no => exact ⟨rfl, rfl⟩
  | eol_yes h1 => intro r' g'' h'; cases h' with | eol_yes => exact ⟨rfl, rfl⟩ | eol_no h2 => exact absurd h1 h2
  | eol_no h1 => intro r' g'' h'; cases h' with | eol_yes h2 => exact absurd h2 h1 | eol_no => exact ⟨rfl, rfl⟩
  | grp _ ih => intro r' g'' h'; cases h' with | grp h => exact ih _ _ h
  | label_yes _ ih =>
    intro r' g'' h'
    cases h' with
    | label_yes h => obtain ⟨e1, rfl⟩ := ih _ _ h; cases e1; exact ⟨rfl, rfl⟩
    | label_no h => cases (ih _ _ h).1
  | label_no _ ih =>
    intro r' g'' h'
    cases h' with
    | label_yes h => cases (ih _ _ h).1
    | label_no h => exact ih _ _ h
  | opt_yes _ ih =>
    intro r' g'' h'
    cases h' with
    | opt_yes h => exact ih _ _ h
    | opt_no h => cases (ih _ _ h).1
  | opt_no _ ih =>
    intro r' g'' h'
    cases h' with
    | opt_yes h => cases (ih _ _ h).1
    | opt_no h => exact ⟨rfl, (ih _ _ h).2⟩
  | star_end _ ih =>
    intro r' g'' h'
    cases h' with
    | star_end h => exact ⟨rfl, (ih _ _ h).2⟩
    | star_stay h => cases (ih _ _ h).1
    | star_more h => cases (ih _ _ h).1
  | star_stay _ ih =>
    intro r' g'' h'
    cases h' with
    | star_end h => cases (ih _ _ h).1
    | star_stay h => exact ih _ _ h
    | star_more h hlt => cases (ih _ _ h).1; omega
  | star_more _ hlt _ ih1 ih2 =>
    intro r' g'' h'
    cases h' with
    | star_end h => cases (ih1 _ _ h).1
    | star_stay h => cases (ih1 _ _ h).1; omega
    | star_more h hlt h2 => obtain ⟨e1, rfl⟩ := ih1 _ _ h; cases e1; exact ih2 _ _ h2
  | plus_no _ ih =>
    intro r' g'' h'
    cases h' with
    | plus_no h => exact ih _ _ h
    | plus_yes h => cases (ih _ _ h).1
  | plus_yes _ _ ih1 ih2 =>
    intro r' g'' h'
    cases h' with
    | plus_no h => cases (ih1 _ _ h).1
    | plus_yes h h2 => obtain ⟨e1, rfl⟩ := ih1 _ _ h; cases e1; exact ih2 _ _ h2
  | and_yes _ ih => intro r' g'' h'; cases h' with | and_yes => exact ⟨rfl, rfl⟩ | and_no h => cases (ih _ _ h).1
  | and_no _ ih => intro r' g'' h'; cases h' with | and_yes h => cases (ih _ _ h).1 | and_no => exact ⟨rfl, rfl⟩
  | not_yes _ ih => intro r' g'' h'; cases h' with | not_yes => exact ⟨rfl, rfl⟩ | not_no h => cases (ih _ _ h).1
  | not_no _ ih => intro r' g'' h'; cases h' with | not_yes h => cases (ih _ _ h).1 | not_no => exact ⟨rfl, rfl⟩
  | call h => intro r' g'' h'; cases h' with | call h' => exact hC _ _ _ _ _ _ _ _ _ _ h h'
  | empty => intro r' g'' h'; cases h'; exact ⟨rfl, rfl⟩
  | seq_no _ ih =>
    intro r' g'' h'
    cases h' with
    | seq_no h => exact ih _ _ h
    | seq_yes h => cases (ih _ _ h).1
    | seq_back h => cases (ih _ _ h).1
  | seq_yes _ _ ih1 ih2 =>
    intro r' g'' h'
    cases h' with
    | seq_no h => cases (ih1 _ _ h).1
    | seq_yes h h2 => obtain ⟨e1, rfl⟩ := ih1 _ _ h; cases e1; exact ih2 _ _ h2
    | seq_back h h2 => obtain ⟨e1, rfl⟩ := ih1 _ _ h; cases e1; cases (ih2 _ _ h2).1
  | seq_back _ _ ih1 ih2 =>
    intro r' g'' h'
    cases h' with
    | seq_no h => cases (ih1 _ _ h).1
    | seq_yes h h2 => obtain ⟨e1, rfl⟩ := ih1 _ _ h; cases e1; cases (ih2 _ _ h2).1
    | seq_back h h2 => obtain ⟨e1, rfl⟩ := ih1 _ _ h; cases e1; rw [(ih2 _ _ h2).2]; exact ⟨rfl, rfl⟩
  | bar _ ih => intro r' g'' h'; cases h' with | bar h => exact ih _ _ h
  | alt_first _ ih =>
    intro r' g'' h'
    cases h' with
    | alt_first h => exact ih _ _ h
    | alt_next h => cases (ih _ _ h).1
  | alt_next _ _ ih1 ih2 =>
    intro r' g'' h'
    cases h' with
    | alt_first h => cases (ih1 _ _ h).1
    | alt_next h h2 => obtain ⟨-, rfl⟩ := ih1 _ _ h; exact ih2 _ _ h2

end

end Strpp.Pex
