import Verif.Props.VarMem
/-!
C94. Exactly what the calls on Variants leave in memory: what is reached from a variable, and the bodies of the strings that were
coerced to numbers (`Spec.VM.lostAll`), each of which keeps one reference more than there are for every such coercion.
-/
namespace Strpp.VM

open Spec.VM Var

theorem reached_or_lost {s : State} {L : Nat → Nat} (h : Inv s [] L) {b : Nat} (hb : Live s b) : Reached s b ∨ 0 < L b := by
  obtain ⟨r, hr⟩ := h.rank
  obtain ⟨B, hB⟩ : ∃ B, ∀ b x, cont s b = some x → r b ≤ B := by
    refine ⟨((List.range s.bodies.length).map r).sum, fun b x hx => le_sum ?_⟩
    exact List.mem_map.mpr ⟨b, List.mem_range.mpr (lt_of_cont hx), rfl⟩
  have main : ∀ n b, B - r b ≤ n → (∃ x, cont s b = some x) → Reached s b ∨ 0 < L b := by
    intro n
    induction n with
    | zero =>
      intro b hn ⟨x, hx⟩
      have h1 := h.pos b x hx
      rw [h.cnt b] at h1
      by_cases hL : 0 < L b
      · exact .inr hL
      by_cases hv : 0 < vocc s b
      · obtain ⟨v, o, hv, hin⟩ := mem_of_count_flatMap varRefs s.vars b hv
        cases o with
        | none => simp [varRefs] at hin
        | some c => exact .inl (.var v c b hv hin)
      · have hbo : 0 < bocc s b := by simp at h1; omega
        obtain ⟨i, o, hi, hin⟩ := mem_of_count_flatMap bodyRefs s.bodies b hbo
        cases o with
        | none => simp [bodyRefs] at hin
        | some y =>
          have := hr i _ (cont_of_body hi) b hin
          have := hB i _ (cont_of_body hi)
          omega
    | succ n ih =>
      intro b hn ⟨x, hx⟩
      have h1 := h.pos b x hx
      rw [h.cnt b] at h1
      by_cases hL : 0 < L b
      · exact .inr hL
      by_cases hv : 0 < vocc s b
      · obtain ⟨v, o, hv, hin⟩ := mem_of_count_flatMap varRefs s.vars b hv
        cases o with
        | none => simp [varRefs] at hin
        | some c => exact .inl (.var v c b hv hin)
      · have hbo : 0 < bocc s b := by simp at h1; omega
        obtain ⟨i, o, hi, hin⟩ := mem_of_count_flatMap bodyRefs s.bodies b hbo
        cases o with
        | none => simp [bodyRefs] at hin
        | some y =>
          have h2 := hr i _ (cont_of_body hi) b hin
          rcases ih i (by omega) ⟨_, cont_of_body hi⟩ with h3 | h3
          · exact .inl (.body i b y h3 hi hin)
          · obtain ⟨t, ht⟩ := h.lostText i h3
            rw [cont_of_body hi] at ht
            cases y with
            | mk c k => cases ht; simp [bodyRefs, Content.refs] at hin
  obtain ⟨x, hx⟩ := hb
  exact main _ b (Nat.le_refl _) ⟨_, cont_of_body hx⟩

/-- How many calls of the history make a number of a string -/
def losses (σ : Vals) : List Op → Nat
  | [] => 0
  | op :: ops => (if losing σ op then 1 else 0) + match step σ op with
    | some σ' => losses σ' ops
    | none => 0

theorem lost_length {s : State} {L : Nat → Nat} (h : Inv s [] L) {σ : Vals} (hs : Shows s σ) (op : Op) :
    (lost s op).length = if losing σ op then 1 else 0 := by
  cases op with
  | coerce memo junk v ty =>
    cases hv : s.vars[v]? with
    | none =>
      have h2 := hs.2 v
      rw [hv] at h2
      have : value σ v = none := by
        unfold value
        cases hx : σ[v]? with
        | none => rfl
        | some o => rw [hx] at h2; exact absurd h2 (by simp)
      simp [lost, losing, hv, this]
    | some o =>
      have h2 := hs.2 v
      rw [hv] at h2
      cases hx : σ[v]? with
      | none => rw [hx] at h2; cases o <;> exact absurd h2 (by simp)
      | some p =>
        rw [hx] at h2
        cases o with
        | none => cases p with
          | none => simp [lost, losing, hv, value, hx]
          | some x => exact absurd h2 (by simp)
        | some c => cases p with
          | none => exact absurd h2 (by simp)
          | some x =>
            have hty := denotes_type (h.vkind v c hv) h2
            cases c <;> cases x <;> simp [Cell.type, Variant.type] at hty <;> simp [lost, losing, hv, value, hx]
            split <;> simp_all
  | _ => rfl

theorem lostAll_length (ops : List Op) : ∀ {s : State} {L : Nat → Nat} (_ : Inv s [] L) {σ σ' : Vals} (_ : Shows s σ) (_ : steps σ ops = some σ'),
    (lostAll s ops).length = losses σ ops := by
  induction ops with
  | nil => intro s L h σ σ' hs hst; rfl
  | cons op ops ih =>
    intro s L h σ σ' hs hst
    unfold steps at hst
    split at hst
    · rename_i σ1 h1
      obtain ⟨L1, ⟨s1, e1, i1, w1⟩, -⟩ := exec_step h hs op h1
      simp only [lostAll, losses, e1, h1, List.length_append, lost_length h hs op, ih i1 w1 hst]
    · cases hst

/-- C94: after any history, a body exists exactly if it is reached from a variable or is that of a string that was coerced to a number. -/
theorem C94_live (ops : List Op) (σ : Vals) (h : steps [] ops = some σ) :
    ∃ s, execAll State.init ops = .ok s ∧ ∀ b, Live s b ↔ Reached s b ∨ b ∈ lostAll State.init ops := by
  obtain ⟨L, ⟨s, e, i, w⟩, -, hL⟩ := exec_steps init_inv init_shows h
  refine ⟨s, e, fun b => ⟨fun hb => ?_, fun hb => ?_⟩⟩
  · rcases reached_or_lost i hb with h1 | h1
    · exact .inl h1
    · rw [hL b, Nat.zero_add] at h1
      exact .inr (List.count_pos_iff.mp h1)
  · rcases hb with hb | hb
    · obtain ⟨s', e', h'⟩ := C64_reached_exists ops σ h
      rw [e] at e'; cases e'
      exact h' b hb
    · obtain ⟨t, ht⟩ := i.lostText b (by rw [hL b, Nat.zero_add]; exact List.count_pos_iff.mpr hb)
      obtain ⟨y, hy, -⟩ := body_of_cont ht
      exact ⟨y, hy⟩

/-- C94: its count is the number of references to it, and one more for each time its string was coerced to a number. -/
theorem C94_counts (ops : List Op) (σ : Vals) (h : steps [] ops = some σ) :
    ∃ s, execAll State.init ops = .ok s ∧ ∀ b x, s.bodies[b]? = some (some x) →
      x.count = (s.vars.flatMap varRefs).count b + (s.bodies.flatMap bodyRefs).count b + (lostAll State.init ops).count b := by
  obtain ⟨L, ⟨s, e, i, w⟩, -, hL⟩ := exec_steps init_inv init_shows h
  refine ⟨s, e, fun b x hx => ?_⟩
  have := i.cnt b
  rw [cnt_of_body hx, hL b] at this
  simpa [vocc, bocc] using this

/-- C94: when all variables are gone, what remains are the texts of the strings that were coerced to numbers, no more and no less. -/
theorem C94_remains (ops : List Op) (σ : Vals) (h : steps [] ops = some σ) (hgone : ∀ v : Nat, v < σ.length → σ[v]? = some none) :
    ∃ s, execAll State.init ops = .ok s ∧ (∀ b, Live s b ↔ b ∈ lostAll State.init ops) ∧
      ∀ b x, s.bodies[b]? = some (some x) → (∃ t, x.content = .text t) ∧ x.count = (lostAll State.init ops).count b := by
  obtain ⟨L, ⟨s, e, i, w⟩, -, hL⟩ := exec_steps init_inv init_shows h
  have hno : ∀ b, ¬ Reached s b := by
    intro b hr
    induction hr with
    | var v c b hv _ =>
      obtain ⟨x, hx, _⟩ := shows_some w hv
      rw [hgone v (List.getElem?_eq_some_iff.mp hx).1] at hx
      cases hx
    | body b b' x _ _ _ ih => exact ih
  obtain ⟨s', e', hl⟩ := C94_live ops σ h
  rw [e] at e'; cases e'
  have hlive : ∀ b, Live s b ↔ b ∈ lostAll State.init ops := fun b => by rw [hl b]; exact or_iff_right (hno b)
  refine ⟨s, e, hlive, fun b x hx => ?_⟩
  have htext : ∀ (b : Nat) (x : Body), s.bodies[b]? = some (some x) → ∃ t, x.content = .text t := by
    intro b x hx
    obtain ⟨t, ht⟩ := i.lostText b (by rw [hL b, Nat.zero_add]; exact List.count_pos_iff.mpr ((hlive b).mp ⟨x, hx⟩))
    rw [cont_of_body hx] at ht
    exact ⟨t, by simpa using ht⟩
  refine ⟨htext b x hx, ?_⟩
  have hc := i.cnt b
  have hv : vocc s b = 0 := by
    rcases Nat.eq_zero_or_pos (vocc s b) with h0 | h0
    · exact h0
    · obtain ⟨v, o, hv, hin⟩ := mem_of_count_flatMap varRefs s.vars b h0
      cases o with
      | none => simp [varRefs] at hin
      | some c => exact absurd (.var v c b hv hin) (hno b)
  have hb : bocc s b = 0 := by
    rcases Nat.eq_zero_or_pos (bocc s b) with h0 | h0
    · exact h0
    · obtain ⟨j, o, hj, hin⟩ := mem_of_count_flatMap bodyRefs s.bodies b h0
      cases o with
      | none => simp [bodyRefs] at hin
      | some y =>
        obtain ⟨t, ht⟩ := htext j y hj
        simp [bodyRefs, ht, Content.refs] at hin
  rw [cnt_of_body hx, hL b, hv, hb] at hc
  simpa using hc

/-- C94: there are as many entries in that list as calls that coerce a string to a number; so everything is released exactly when
there is no such call. -/
theorem C94_how_many (ops : List Op) (σ : Vals) (h : steps [] ops = some σ) :
    (lostAll State.init ops).length = losses [] ops ∧
    ((∀ v : Nat, v < σ.length → σ[v]? = some none) → ∃ s, execAll State.init ops = .ok s ∧ ((∀ b, ¬ Live s b) ↔ losses [] ops = 0)) := by
  have hlen := lostAll_length ops init_inv init_shows h
  refine ⟨hlen, fun hgone => ?_⟩
  obtain ⟨s, e, hl, -⟩ := C94_remains ops σ h hgone
  refine ⟨s, e, fun hno => ?_, fun h0 b hb => ?_⟩
  · rw [← hlen, List.length_eq_zero_iff]
    rcases hx : lostAll State.init ops with _ | ⟨b, l⟩
    · rfl
    · exact absurd ((hl b).mpr (by rw [hx]; simp)) (hno b)
  · rw [← hlen, List.length_eq_zero_iff] at h0
    have := (hl b).mp hb
    rw [h0] at this
    cases this

/-- Two copies of a string are coerced to numbers, another string is not; all variables go: the first text remains, counted twice. -/
def twice : List Op := [.str [0x34#32, 0x32#32], .copy 0, .str [0x61#32], .coerce 0 0#64 0 .longLong, .coerce 0 0#64 1 .longLong,
  .destroy 0, .destroy 1, .destroy 2]

example : (steps [] twice).map (fun σ => σ.all (·.isNone)) = some true ∧ lostAll State.init twice = [0, 0] ∧ losses [] twice = 2 ∧
    (execAll State.init twice).map (fun s => s.bodies.map (·.map (·.count))) = .ok [some 2, none] := by decide +kernel

end Strpp.VM
