import Verif.Props.Peg
/-! Property C92: which calls a rule captures, exactly (include/peg_ast.h:102-110, include/peg.h). -/
namespace Strpp.Pex
open Spec
open Var (Variant)

theorem prefix_before {x : Byte} {c l rest : List Byte} (hc : x ∉ c) : c <+: l ++ x :: rest ↔ c <+: l := by
  constructor
  · rintro ⟨m, hm⟩
    induction c generalizing l with
    | nil => exact List.nil_prefix
    | cons a c ih =>
      cases l with
      | nil =>
        simp only [List.cons_append, List.nil_append, List.cons.injEq] at hm
        exact absurd (by simp [hm.1]) hc
      | cons b l =>
        simp only [List.cons_append, List.cons.injEq] at hm
        rw [hm.1]
        exact List.cons_prefix_cons.mpr ⟨rfl, ih (fun h => hc (List.mem_cons_of_mem _ h)) hm.2⟩
  · rintro ⟨m, rfl⟩
    exact ⟨m ++ x :: rest, by simp⟩

/-- C92. A call with the label `l`, written `<name>:l:`, is captured just when a listed name begins `l`; a call without a label
just when one begins the name of the rule called. Names are C strings, and those listed have no colon. What is captured is what the
called rule gives, under the label or else under that name, and nothing changes if the call is not captured. -/
theorem C92_call (rules : List Rule) (text : List Byte) (i sub : Nat) (r s : Rule) (hr : rules[i]? = some r) (hsub : rules[sub]? = some s) (cs : List (List Byte))
    (hcs : r.captures = some cs) (hnul : ∀ c ∈ cs, 0#8 ∉ c ∧ 0x3A#8 ∉ c) (start : St) (b : Byte) (hb : (cstr r.pattern)[start.pat]? = some b) (fin : Src) (d : Ctx) (cx : Cx Ctx) (hd : cx.disabled = 0) :
    (∀ (pre l rest : List Byte), cstr r.pattern = pre ++ l ++ 0x3A#8 :: rest → 0#8 ∈ rest →
      captureCall rules text (cstr r.pattern) i sub (some pre.length) (pre.length + l.length + 1) start fin d cx =
        .ok (if ∃ c ∈ cs, c <+: l then
          { cx with data := captureValue (decodeAll l) (matchResult text b (i == sub && start.pat == 0) start.src fin d) (decide (cx.nesting > 0)) cx.data } else cx)) ∧
    (∀ e : Nat, captureCall rules text (cstr r.pattern) i sub none e start fin d cx =
        .ok (if ∃ c ∈ cs, c <+: s.name then
          { cx with data := captureValue (decodeAll s.name) (matchResult text b (i == sub && start.pat == 0) start.src fin d) (decide (cx.nesting > 0)) cx.data } else cx)) := by
  have h := C56_call_partial rules text i sub r s hr hsub cs hcs (fun c hc => (hnul c hc).1) start b hb fin d cx hd
  constructor
  · intro pre l rest hp h0
    obtain ⟨cx', e, h1, h2⟩ := h.1 pre l rest hp h0
    rw [e]
    by_cases hx : ∃ c ∈ cs, c <+: l
    · rw [if_pos hx, h1]
      obtain ⟨c, hc, hp⟩ := hx
      exact ⟨c, hc, (prefix_before (hnul c hc).2).mpr hp⟩
    · rw [if_neg hx, h2]
      intro c hc hp
      exact hx ⟨c, hc, (prefix_before (hnul c hc).2).mp hp⟩
  · intro e
    obtain ⟨cx', e, h1, h2⟩ := h.2 e
    rw [e]
    by_cases hx : ∃ c ∈ cs, c <+: s.name
    · rw [if_pos hx, h1]
      obtain ⟨c, hc, hp⟩ := hx
      exact ⟨c, hc, (prefix_before (hnul c hc).1).mpr hp⟩
    · rw [if_neg hx, h2]
      intro c hc hp
      exact hx ⟨c, hc, (prefix_before (hnul c hc).1).mp hp⟩

/-- C92. So if no listed name begins a longer label or rule name, what is captured is just what is listed. -/
theorem C92_listed (cs : List (List Byte)) (l : List Byte) (h : ∀ c ∈ cs, c <+: l → c = l) : (∃ c ∈ cs, c <+: l) ↔ l ∈ cs := by
  constructor
  · rintro ⟨c, hc, hp⟩
    rw [← h c hc hp]; exact hc
  · intro hl
    exact ⟨l, hl, List.prefix_refl l⟩

/-- labels x, y of a rule that lists them -/
example : ∀ c ∈ [[0x78#8], [0x79#8]], c <+: [0x79#8] → c = [0x79#8] := by decide

/-- C92. A rule that lists nothing captures no calls, whatever the labels. -/
theorem C92_none (rules : List Rule) (text : List Byte) (i sub : Nat) (r s : Rule) (hr : rules[i]? = some r) (hsub : rules[sub]? = some s)
    (hcs : r.captures = none) (start : St) (fin : Src) (d : Ctx) (cx : Cx Ctx) :
    (∀ (pre l rest : List Byte), cstr r.pattern = pre ++ l ++ 0x3A#8 :: rest →
      captureCall rules text (cstr r.pattern) i sub (some pre.length) (pre.length + l.length + 1) start fin d cx = .ok cx) ∧
    (∀ e : Nat, captureCall rules text (cstr r.pattern) i sub none e start fin d cx = .ok cx) := by
  have hno := C56_no_captures_partial r hcs
  constructor
  · intro pre l rest hp
    have hc : rd (cstr r.pattern) (pre.length + l.length) = .ok 0x3A#8 := by
      rw [rd_eq_ok, hp, List.getElem?_append_right (by simp)]
      have : pre.length + l.length - (pre ++ l).length = 0 := by simp
      rw [this]; rfl
    unfold captureCall
    rw [rd_eq_ok.mpr hr, res_bind_ok, rd_eq_ok.mpr hsub, res_bind_ok]
    by_cases hd : cx.disabled = 0
    · simp [hc, res_bind_ok, hno, hd]
    · simp [hc, res_bind_ok, hno, hd]
  · intro e
    unfold captureCall
    rw [rd_eq_ok.mpr hr, res_bind_ok, rd_eq_ok.mpr hsub, res_bind_ok]
    by_cases hd : cx.disabled = 0
    · simp [res_bind_ok, hno, hd]
    · simp [res_bind_ok, hno, hd]

/-- C92. Within a lookahead (captures disabled) no call is captured, whatever is listed. -/
theorem C92_lookahead (rules : List Rule) (text : List Byte) (i sub : Nat) (r s : Rule) (hr : rules[i]? = some r) (hsub : rules[sub]? = some s)
    (start : St) (fin : Src) (d : Ctx) (cx : Cx Ctx) (hd : cx.disabled ≠ 0) :
    (∀ (pre l rest : List Byte), cstr r.pattern = pre ++ l ++ 0x3A#8 :: rest →
      captureCall rules text (cstr r.pattern) i sub (some pre.length) (pre.length + l.length + 1) start fin d cx = .ok cx) ∧
    (∀ e : Nat, captureCall rules text (cstr r.pattern) i sub none e start fin d cx = .ok cx) := by
  constructor
  · intro pre l rest hp
    have hc : rd (cstr r.pattern) (pre.length + l.length) = .ok 0x3A#8 := by
      rw [rd_eq_ok, hp, List.getElem?_append_right (by simp)]
      have : pre.length + l.length - (pre ++ l).length = 0 := by simp
      rw [this]; rfl
    unfold captureCall
    rw [rd_eq_ok.mpr hr, res_bind_ok, rd_eq_ok.mpr hsub, res_bind_ok]
    simp [hc, res_bind_ok, hd]
  · intro e
    unfold captureCall
    rw [rd_eq_ok.mpr hr, res_bind_ok, rd_eq_ok.mpr hsub, res_bind_ok]
    simp [res_bind_ok, hd]

end Strpp.Pex
