import Verif.Model.Peg
import Verif.Spec.PegCap
import Verif.Proof.CowMap
/-! Peg: histories of captures and of failures. -/
namespace Strpp.Pex
open Var (Variant)

/-! ### Failures -/

/-- A call of record_failure: in a rule with pattern `pat`, by a context that is described by the rest -/
structure FailEvent where
  pat : List Byte
  rule : Nat
  /-- capture_disabled of the context -/
  disabled : Int
  op : Nat
  opEnd : Nat
  loc : Src
  origin : Src
  parents : List Frame
  rootDisabled : Int
  path : List (List Byte)

/-- The context that records it, with what the root has recorded before -/
def FailEvent.view (e : FailEvent) (d : Ctx) : Ctx := { d with rule := e.rule, origin := e.origin, parents := e.parents, rootDisabled := e.rootDisabled, path := e.path }

def recordAll : List FailEvent → Ctx → Res Ctx
  | [], d => .ok d
  | e :: es, d => do
    let d ← recordFailure (cstr e.pat) e.rule e.disabled e.op e.opEnd e.loc (e.view d)
    recordAll es d

/-- It counts: not in a look-ahead, and a literal or a class; of a context below the root, not before where its rule began -/
def FailEvent.counts (e : FailEvent) : Prop :=
  e.disabled = 0 ∧ (∃ b, e.pat[e.op]? = some b ∧ isPegexpOp b = false) ∧ (e.parents = [] ∨ (e.rootDisabled = 0 ∧ e.origin.pos ≤ e.loc.pos))

/-- what has been recorded of `es`, which began when the root had reached `start` -/
structure Recorded (start : Src) (es : List FailEvent) (d : Ctx) : Prop where
  after : start.pos ≤ d.far.pos
  most : ∀ e ∈ es, e.counts → e.loc.pos ≤ d.far.pos
  one : d.far = start ∨ ∃ e ∈ es, e.counts ∧ d.far = e.loc
  atoms : ∀ a, a ∈ d.failures.map Failure.atom ↔ ∃ e ∈ es, e.counts ∧ e.loc.pos = d.far.pos ∧ (e.rule, e.op) = a
  distinct : (d.failures.map Failure.atom).Nodup

theorem any_atom (fs : List Failure) (a : Nat × Nat) : fs.any (fun f => f.atom == a) = true ↔ a ∈ fs.map Failure.atom := by
  rw [List.any_eq_true, List.mem_map]
  constructor
  · rintro ⟨f, h1, h2⟩; exact ⟨f, h1, by simpa using h2⟩
  · rintro ⟨f, h1, h2⟩; exact ⟨f, h1, by simpa using h2⟩

/-- an event that does not count -/
theorem recorded_skip {start : Src} {es : List FailEvent} {d d' : Ctx} (h : Recorded start es d) (e : FailEvent) (h1 : d'.far = d.far) (h2 : d'.failures = d.failures)
    (he : e.counts → e.loc.pos < d.far.pos) : Recorded start (es ++ [e]) d' := by
  obtain ⟨a1, a2, a3, a4, a5⟩ := h
  refine ⟨by rw [h1]; exact a1, ?_, ?_, ?_, by rw [h2]; exact a5⟩
  · intro x hx hc
    rw [h1]
    rcases List.mem_append.mp hx with hx | hx
    · exact a2 x hx hc
    · cases List.mem_singleton.mp hx
      exact Nat.le_of_lt (he hc)
  · rw [h1]
    refine a3.imp id ?_
    rintro ⟨x, hx, hc, hf⟩
    exact ⟨x, List.mem_append.mpr (Or.inl hx), hc, hf⟩
  · intro a
    rw [h1, h2, a4 a]
    constructor
    · rintro ⟨x, hx, hc⟩
      exact ⟨x, List.mem_append.mpr (Or.inl hx), hc⟩
    · rintro ⟨x, hx, hc, hp, ha⟩
      rcases List.mem_append.mp hx with hx | hx
      · exact ⟨x, hx, hc, hp, ha⟩
      · cases List.mem_singleton.mp hx
        have := he hc
        omega

/-- an event that counts, no nearer than before -/
theorem recorded_step {start : Src} {es : List FailEvent} {d d0 : Ctx} (h : Recorded start es d) (e : FailEvent) (h1 : d0.far = d.far) (h2 : d0.failures = d.failures) (he : e.counts)
    (hle : d.far.pos ≤ e.loc.pos) (len : Int) : Recorded start (es ++ [e]) (recordRoot (e.rule, e.op) len e.loc d0) := by
  obtain ⟨a1, a2, a3, a4, a5⟩ := h
  have hmem : ∀ x, x ∈ es ++ [e] ↔ x ∈ es ∨ x = e := by intro x; rw [List.mem_append, List.mem_singleton]
  unfold recordRoot
  simp only
  rw [h1, h2]
  by_cases hlt : d.far.pos < e.loc.pos
  · rw [if_pos hlt]
    simp only [List.any_nil, Bool.false_eq_true, if_false, List.nil_append]
    refine ⟨by simp only; omega, ?_, Or.inr ⟨e, (hmem e).mpr (Or.inr rfl), he, rfl⟩, ?_, by simp⟩
    · intro x hx hc
      simp only
      rcases (hmem x).mp hx with hx | rfl
      · have := a2 x hx hc; omega
      · exact Nat.le_refl _
    · intro a
      simp only [List.map_cons, List.map_nil, List.mem_singleton]
      constructor
      · rintro rfl; exact ⟨e, (hmem e).mpr (Or.inr rfl), he, rfl, rfl⟩
      · rintro ⟨x, hx, hc, hp, ha⟩
        rcases (hmem x).mp hx with hx | rfl
        · have := a2 x hx hc; omega
        · exact ha.symm
  · rw [if_neg hlt]
    have heq : e.loc.pos = d.far.pos := by omega
    by_cases hany : d.failures.any (fun f => f.atom == (e.rule, e.op)) = true
    · rw [if_pos hany]
      have hin := (any_atom _ _).mp hany
      refine ⟨by simp only; omega, ?_, ?_, ?_, a5⟩
      · intro x hx hc
        simp only
        rcases (hmem x).mp hx with hx | rfl
        · exact a2 x hx hc
        · omega
      · simp only
        refine a3.imp id ?_
        rintro ⟨x, hx, hc, hf⟩
        exact ⟨x, (hmem x).mpr (Or.inl hx), hc, hf⟩
      · intro a
        simp only
        rw [a4 a]
        constructor
        · rintro ⟨x, hx, hc⟩
          exact ⟨x, (hmem x).mpr (Or.inl hx), hc⟩
        · rintro ⟨x, hx, hc, hp, ha⟩
          rcases (hmem x).mp hx with hx | rfl
          · exact ⟨x, hx, hc, hp, ha⟩
          · rw [← ha]; exact (a4 _).mp hin
    · rw [if_neg hany]
      have hnin : (e.rule, e.op) ∉ d.failures.map Failure.atom := fun h => hany ((any_atom _ _).mpr h)
      refine ⟨by simp only; omega, ?_, Or.inr ⟨e, (hmem e).mpr (Or.inr rfl), he, rfl⟩, ?_, ?_⟩
      · intro x hx hc
        simp only
        rcases (hmem x).mp hx with hx | rfl
        · have := a2 x hx hc; omega
        · exact Nat.le_refl _
      · intro a
        simp only [List.map_append, List.map_cons, List.map_nil, List.mem_append, List.mem_singleton]
        rw [a4 a, heq]
        constructor
        · rintro (⟨x, hx, hc⟩ | rfl)
          · exact ⟨x, Or.inl hx, hc⟩
          · exact ⟨e, Or.inr rfl, he, heq, rfl⟩
        · rintro ⟨x, hx, hc, hp, ha⟩
          rcases hx with hx | rfl
          · exact Or.inl ⟨x, hx, hc, hp, ha⟩
          · exact Or.inr ha.symm
      · simp only [List.map_append, List.map_cons, List.map_nil]
        rw [List.nodup_append]
        refine ⟨a5, by simp, ?_⟩
        intro a ha b hb
        cases List.mem_singleton.mp hb
        rintro rfl
        exact hnin ha

theorem record_event {start : Src} {es : List FailEvent} {d : Ctx} (h : Recorded start es d) (e : FailEvent) (hop : e.op ≤ e.pat.length) :
    ∃ d', recordFailure (cstr e.pat) e.rule e.disabled e.op e.opEnd e.loc (e.view d) = .ok d' ∧ Recorded start (es ++ [e]) d' := by
  unfold recordFailure FailEvent.view
  simp only
  by_cases h1 : e.loc.pos < (if e.parents.isEmpty then d.far else e.origin).pos
  · rw [if_pos h1]
    refine ⟨_, rfl, recorded_skip h e rfl rfl ?_⟩
    rintro ⟨-, -, hp⟩
    rcases hp with hp | ⟨-, hp⟩
    · rw [hp] at h1; exact h1
    · cases hpe : e.parents with
      | nil => rw [hpe] at h1; exact h1
      | cons f fs => rw [hpe] at h1; simp at h1; omega
  · rw [if_neg h1]
    by_cases h2 : e.disabled = 0
    · rw [if_neg (by simp [h2])]
      have hrd : ∃ b, rd (cstr e.pat) e.op = .ok b ∧ (isPegexpOp b = false → e.pat[e.op]? = some b) := by
        by_cases hlt : e.op < e.pat.length
        · exact ⟨e.pat[e.op], rd_eq_ok.mpr (by unfold cstr; rw [List.getElem?_append_left hlt]; exact List.getElem?_eq_getElem hlt), fun _ => List.getElem?_eq_getElem hlt⟩
        · have : e.op = e.pat.length := by omega
          refine ⟨0#8, rd_eq_ok.mpr (by unfold cstr; rw [this, List.getElem?_append_right (Nat.le_refl _)]; simp), fun h => absurd h (by decide)⟩
      obtain ⟨b, hb, hb2⟩ := hrd
      rw [hb, res_bind_ok]
      by_cases h3 : isPegexpOp b = true
      · rw [if_pos h3]
        refine ⟨_, rfl, recorded_skip h e rfl rfl ?_⟩
        rintro ⟨-, ⟨b', hb', hop'⟩, -⟩
        have : b' = b := by
          have h5 := rd_eq_ok.mp hb
          unfold cstr at h5
          rw [List.getElem?_append_left (List.getElem?_eq_some_iff.mp hb').1, hb'] at h5
          exact Option.some.inj h5
        rw [this, h3] at hop'
        cases hop'
      · rw [if_neg h3]
        have h3 : isPegexpOp b = false := by simpa using h3
        cases hpe : e.parents with
        | nil =>
          rw [hpe] at h1
          simp only [List.isEmpty_nil, if_true] at h1 ⊢
          refine ⟨_, rfl, recorded_step h e ?_ ?_ ⟨h2, ⟨b, hb2 h3, h3⟩, Or.inl hpe⟩ (by omega) _⟩ <;> rfl
        | cons f fs =>
          rw [hpe] at h1
          simp only [List.isEmpty_cons, Bool.false_eq_true, if_false] at h1 ⊢
          by_cases h4 : e.loc.pos < d.far.pos
          · rw [if_pos h4]
            exact ⟨_, rfl, recorded_skip h e rfl rfl (fun _ => h4)⟩
          · rw [if_neg h4]
            by_cases h5 : e.rootDisabled = 0
            · rw [if_neg (by simp [h5])]
              refine ⟨_, rfl, recorded_step h e ?_ ?_ ⟨h2, ⟨b, hb2 h3, h3⟩, Or.inr ⟨h5, by omega⟩⟩ (by omega) _⟩ <;> rfl
            · rw [if_pos (by simpa using h5)]
              refine ⟨_, rfl, recorded_skip h e rfl rfl ?_⟩
              rintro ⟨-, -, hp⟩
              rcases hp with hp | ⟨hp, -⟩
              · rw [hpe] at hp; cases hp
              · exact absurd hp h5
    · rw [if_pos (by simpa using h2)]
      exact ⟨_, rfl, recorded_skip h e rfl rfl (fun hc => absurd hc.1 h2)⟩

theorem recordAll_ok {start : Src} : ∀ (es done : List FailEvent) (d : Ctx), Recorded start done d → (∀ e ∈ es, e.op ≤ e.pat.length) → ∃ d', recordAll es d = .ok d' ∧ Recorded start (done ++ es) d' := by
  intro es
  induction es with
  | nil => intro done d h _; exact ⟨d, rfl, by simpa using h⟩
  | cons e es ih =>
    intro done d h hop
    obtain ⟨d1, h1, h2⟩ := record_event h e (hop e (by simp))
    obtain ⟨d2, h3, h4⟩ := ih (done ++ [e]) d1 h2 (fun x hx => hop x (by simp [hx]))
    refine ⟨d2, ?_, by simpa using h4⟩
    rw [recordAll, h1, res_bind_ok, h3]

/-! ### Captures -/

theorem keyLt_strict : CM.StrictOrder keyLt where
  irrefl := fun a => by simp only [keyLt, decide_eq_false_iff_not]; exact List.lt_irrefl _
  trans := fun a b c h1 h2 => by simp only [keyLt, decide_eq_true_eq] at h1 h2 ⊢; exact List.lt_trans h1 h2
  total := fun a b => by
    simp only [keyLt, decide_eq_true_eq]
    rcases Nat.lt_trichotomy 0 1 with h | h | h
    · by_cases h1 : a.map BitVec.toNat < b.map BitVec.toNat
      · exact Or.inl h1
      · by_cases h2 : b.map BitVec.toNat < a.map BitVec.toNat
        · exact Or.inr (Or.inr h2)
        · exact Or.inr (Or.inl ((List.map_inj_right (fun x y h => BitVec.eq_of_toNat_eq h)).mp (List.le_antisymm h2 h1)))
    · cases h
    · cases h

def captureAll (es : List CapEvent) (d : Ctx) : Ctx := es.foldl (fun d e => captureValue e.key e.value e.rep d) d

structure Captured (es : List CapEvent) (d : Ctx) : Prop where
  sorted : CM.Sorted keyLt d.ast
  found : ∀ key, CM.mfind keyLt key d.ast = collected (under key es)
  count : d.numCaptures = (es.filter (fun e => !emptyText e.value)).length

theorem collected_snoc (vs : List (Variant × Bool)) (hv : ∀ x ∈ vs, isArray x.1 = false) (v : Variant) (rep : Bool) :
    collected (vs ++ [(v, rep)]) = some (match collected vs with
      | some (.varArray a) => .varArray (a ++ [v])
      | some w => .varArray [w, v]
      | none => if rep then .varArray [v] else v) := by
  match vs, hv with
  | [], _ => rfl
  | [(w, true)], _ => rfl
  | [(w, false)], hv =>
    have : isArray w = false := hv (w, false) (by simp)
    cases w <;> simp_all [collected, isArray]
  | x :: y :: vs, _ => simp [collected]

theorem capture_event {es : List CapEvent} {d : Ctx} (h : Captured es d) (hes : ∀ e ∈ es, isArray e.value = false) (e : CapEvent) :
    Captured (es ++ [e]) (captureValue e.key e.value e.rep d) := by
  obtain ⟨h1, h2, h3⟩ := h
  by_cases hem : emptyText e.value = true
  · have : captureValue e.key e.value e.rep d = d := by
      unfold captureValue
      cases hv : e.value <;> simp_all [emptyText]
      rename_i l
      cases l <;> simp_all [emptyText]
    rw [this]
    refine ⟨h1, ?_, ?_⟩
    · intro key; rw [h2 key]; simp [under, List.filter_append, hem]
    · rw [h3]; simp [List.filter_append, hem]
  · have hem : emptyText e.value = false := by simpa using hem
    have hval : ∀ {α : Type} (x : α) (y : Variant → α), (match e.value with | .string [] => x | value => y value) = y e.value := by
      intro α x y
      cases hv : e.value <;> simp_all [emptyText]
      rename_i l
      cases l <;> simp_all [emptyText]
    have hcv : captureValue e.key e.value e.rep d = { d with
        ast := match CM.mfind keyLt e.key d.ast with
          | some (.varArray a) => CM.minsert keyLt e.key (.varArray (a ++ [e.value])) (CM.merase keyLt e.key d.ast)
          | some v => CM.minsert keyLt e.key (.varArray [v, e.value]) (CM.merase keyLt e.key d.ast)
          | none => CM.minsert keyLt e.key (if e.rep then .varArray [e.value] else e.value) d.ast
        numCaptures := d.numCaptures + 1 } := by
      unfold captureValue
      cases hv : e.value with
      | string l => cases l with
        | nil => rw [hv] at hem; cases hem
        | cons x l => rfl
      | _ => rfl
    have hvs : ∀ x ∈ under e.key es, isArray x.1 = false := by
      intro x hx
      simp only [under, List.mem_map, List.mem_filter] at hx
      obtain ⟨y, ⟨hy, -⟩, rfl⟩ := hx
      exact hes y hy
    have hunder : ∀ key, under key (es ++ [e]) = if key = e.key then under key es ++ [(e.value, e.rep)] else under key es := by
      intro key
      by_cases hk : key = e.key
      · subst hk; simp [under, List.filter_append, hem]
      · have : (e.key == key) = false := by simpa using fun h => hk h.symm
        simp [under, List.filter_append, this, hk]
    -- the map afterwards has this under the key
    have hmap : ∃ w m, (match CM.mfind keyLt e.key d.ast with
          | some (.varArray a) => CM.minsert keyLt e.key (.varArray (a ++ [e.value])) (CM.merase keyLt e.key d.ast)
          | some v => CM.minsert keyLt e.key (.varArray [v, e.value]) (CM.merase keyLt e.key d.ast)
          | none => CM.minsert keyLt e.key (if e.rep then .varArray [e.value] else e.value) d.ast) = CM.minsert keyLt e.key w m ∧
        CM.Sorted keyLt m ∧ CM.mfind keyLt e.key m = none ∧ (∀ j, j ≠ e.key → CM.mfind keyLt j m = CM.mfind keyLt j d.ast) ∧ some w = collected (under e.key es ++ [(e.value, e.rep)]) := by
      have hms := CM.merase_spec keyLt_strict e.key d.ast h1
      rw [collected_snoc _ hvs, ← h2 e.key]
      cases hf : CM.mfind keyLt e.key d.ast with
      | none => exact ⟨_, d.ast, rfl, h1, hf, fun _ _ => rfl, rfl⟩
      | some v =>
        have hrest : CM.mfind keyLt e.key (CM.merase keyLt e.key d.ast) = none ∧ (∀ j, j ≠ e.key → CM.mfind keyLt j (CM.merase keyLt e.key d.ast) = CM.mfind keyLt j d.ast) :=
          ⟨by rw [hms.2]; simp, fun j hj => by rw [hms.2]; simp [hj]⟩
        cases v <;> exact ⟨_, CM.merase keyLt e.key d.ast, rfl, hms.1, hrest.1, hrest.2, rfl⟩
    obtain ⟨w, m, hm1, hm2, hm3, hm4, hm5⟩ := hmap
    rw [hcv, hm1]
    have hins := CM.minsert_spec keyLt_strict e.key w m hm2
    refine ⟨hins.1, ?_, ?_⟩
    · intro key
      simp only
      rw [hins.2 key, hm3, hunder key]
      simp only [Option.isSome_none, Bool.false_eq_true, if_false]
      by_cases hk : key = e.key
      · subst hk; rw [if_pos rfl, if_pos rfl, hm5]
      · rw [if_neg hk, if_neg hk, hm4 key hk, h2 key]
    · simp only
      rw [h3]
      simp [List.filter_append, hem]

theorem captureAll_ok : ∀ (es done : List CapEvent) (d : Ctx), Captured done d → (∀ e ∈ done ++ es, isArray e.value = false) → Captured (done ++ es) (captureAll es d) := by
  intro es
  induction es with
  | nil => intro done d h _; simpa [captureAll] using h
  | cons e es ih =>
    intro done d h hv
    have h1 := capture_event h (fun x hx => hv x (by simp [hx])) e
    have h2 := ih (done ++ [e]) _ h1 (by simpa using hv)
    simpa [captureAll] using h2

end Strpp.Pex
