import Verif.Proof.StrCase
import Verif.Proof.StrFind
/-! Histories of calls on StrVal variables refine plain values. -/
namespace Strpp.SV

open Spec Arr

/-- The calls this model shows to be right in state `s`: the arguments exist and are in range, the data is UTF-8 (of
characters the encoding can carry), the result has less than 1 GiB, and the string changed is not one of those that the code
gets wrong (`AtFront`, `MarkBefore`, `Whole`, `MarkFits`). -/
def Safe {S : Type} (F : Meaning S) (s : State) : Op S → Prop
  | .default => True
  | .ofC mem => ∃ (cs : List UCS4) (rest : List Byte), mem = encodeAll cs ++ 0#8 :: rest ∧ (∀ c ∈ cs, ¬ Reserved c) ∧ (∀ c ∈ cs, c ≠ 0#32) ∧
      (encodeAll cs).length + 1 ≤ 1073741824
  | .ofData mem length allocate => ∃ (cs : List UCS4) (z : Byte) (rest : List Byte), mem = encodeAll cs ++ z :: rest ∧ (∀ c ∈ cs, ¬ Reserved c) ∧
      length = (encodeAll cs).length ∧ length + 1 ≤ 1073741824 ∧ allocate ≤ 2147483647
  | .ofChar c => ¬ Reserved c
  | .ofStatic data => ∃ cs : List UCS4, data = encodeAll cs ++ [0#8] ∧ (∀ c ∈ cs, ¬ Reserved c) ∧ (encodeAll cs).length + 1 ≤ 1073741824
  | .copy w => view s w ≠ none
  | .assign v w => view s v ≠ none ∧ view s w ≠ none
  | .destroy v => view s v ≠ none
  | .substr w _ len => view s w ≠ none ∧ -2147483648 ≤ len ∧ len < 2147483648
  | .head w k => view s w ≠ none ∧ k < 2147483648
  | .tail w k => view s w ≠ none ∧ k ≤ (text (view s) w).length
  | .shorter w k => view s w ≠ none ∧ k ≤ (text (view s) w).length
  | .plus v w => view s v ≠ none ∧ view s w ≠ none ∧ Roomy s (encodeAll (text (view s) w)).length
  | .addEq v w => view s v ≠ none ∧ view s w ≠ none ∧ v ≠ w ∧ AtFront s v ∧ Roomy s (encodeAll (text (view s) w)).length
  | .addEqChar v c => view s v ≠ none ∧ ¬ Reserved c ∧ AtFront s v ∧ Roomy s 12
  | .insert v pos w => view s v ≠ none ∧ view s w ≠ none ∧ v ≠ w ∧ AtFront s v ∧ MarkBefore s v pos ∧
      pos ≤ (text (view s) v).length ∧ Roomy s (encodeAll (text (view s) w)).length
  | .times v k => view s v ≠ none ∧ Roomy s (k.toNat * (encodeAll (text (view s) v)).length)
  | .asUTF8 v => view s v ≠ none
  | .toLower v memo => view s v ≠ none ∧ Whole s v ∧ 0 ≤ memo ∧ memo < unicodeToLower.length ∧
      MarkFits s v (text (view s) v) ((text (view s) v).map (convert unicodeToLower)) ∧
      (encodeAll ((text (view s) v).map (convert unicodeToLower))).length + 1 ≤ 1073741824
  | .toUpper v memo => view s v ≠ none ∧ Whole s v ∧ 0 ≤ memo ∧ memo < unicodeToUpper.length ∧
      MarkFits s v (text (view s) v) ((text (view s) v).map (convert unicodeToUpper)) ∧
      (encodeAll ((text (view s) v).map (convert unicodeToUpper))).length + 1 ≤ 1073741824
  | .transform v x st after => view s v ≠ none ∧ Whole s v ∧ -1 ≤ after ∧ after < 2147483647 ∧ (∃ I : S → Prop, Behaves I x (F x) ∧ I st) ∧
      (∀ c ∈ transformAfter (F x) st (after + 1).toNat (text (view s) v), ¬ Reserved c) ∧
      (encodeAll (transformAfter (F x) st (after + 1).toNat (text (view s) v))).length + 1 ≤ 1073741824
  | .join j ws => view s j ≠ none ∧ (∀ w ∈ ws, view s w ≠ none) ∧
      Roomy s (joinCost (text (view s) j) ((ws.map (text (view s))).drop 1))

theorem text_of {s : State} (h : Inv s) {v : Nat} (hv : view s v ≠ none) : Txt s v (text (view s) v) := by
  refine h.txt ?_
  unfold text
  cases hh : view s v with
  | none => exact absurd hh hv
  | some t => rfl

theorem view_some {s : State} {v : Nat} (hv : view s v ≠ none) : some (text (view s) v) = view s v := by
  unfold text
  cases hh : view s v with
  | none => exact absurd hh hv
  | some t => rfl

theorem view_out {s : State} {v : Nat} (hv : s.vars.length ≤ v) : view s v = none := by
  unfold view; rw [List.getElem?_eq_none hv]

theorem view_dead {s : State} {v : Nat} (hv : s.vars[v]? = some none) : view s v = none := by
  unfold view; rw [hv]

/-- the rest of the refinement once the variable made is known -/
theorem made_effect {s s' : State} (h : Inv s) {t : List UCS4} {P T : Nat → Prop} (hm : Made s s' 0 t P) (hf : Frame s s' T) (hT : ∀ v, ¬ T v) (v : Nat) :
    view s' v = if v = s.vars.length then some t else view s v := by
  split
  · rename_i hv; rw [hv]; exact hm.txt.view
  · rename_i hv
    rcases Nat.lt_or_ge v s.vars.length with hl | hl
    · exact (hf.same v hl (hT v)).view h.ids hl
    · rw [view_out hl, view_out (by rw [hm.len]; omega)]

theorem set_effect {s s' : State} (h : Inv s) {u : Nat} {o : Option (List UCS4)} {T : Nat → Prop} (ht : view s' u = o)
    (hl : s'.vars.length = s.vars.length) (hf : Frame s s' T) (hT : ∀ v, T v → v = u) (v : Nat) :
    view s' v = if v = u then o else view s v := by
  split
  · rename_i hv; rw [hv]; exact ht
  · rename_i hv
    rcases Nat.lt_or_ge v s.vars.length with hl' | hl'
    · exact (hf.same v hl' (fun hh => hv (hT v hh))).view h.ids hl'
    · rw [view_out hl', view_out (by rw [hl]; exact hl')]

theorem decode_encode (cs : List UCS4) (hg : ∀ c ∈ cs, ¬ Reserved c) : decodeAll (encodeAll cs) = cs := by
  have := decodeAll_encodeAll cs hg []
  simpa [decodeAll_nil] using this

theorem takeWhile_nz (a : List Byte) (rest : List Byte) (h : ∀ b ∈ a, b ≠ 0#8) : (a ++ 0#8 :: rest).takeWhile (· != 0#8) = a := by
  induction a with
  | nil => simp
  | cons x a ih =>
    rw [List.cons_append, List.takeWhile_cons, if_pos (by simpa using h x (by simp)), ih (fun b hb => h b (by simp [hb]))]

theorem wrap_after {after : Int} (h1 : -1 ≤ after) (h2 : after < 2147483647) : wrap (after + 1) = (after + 1).toNat := by
  unfold wrap; omega

/-! ### how many variables a call makes -/

theorem len_unshare {s s' : State} {v : Nat} (h : unshare s v = .ok s') : s'.vars.length = s.vars.length := by
  unfold unshare at h
  obtain ⟨x, -, h⟩ := hbind h
  obtain ⟨σ, -, h⟩ := hbind h
  obtain ⟨m, -, h⟩ := hbind h
  split at h
  · obtain ⟨σ', -, h⟩ := hbind h
    cases h; simp [ownStr, setVar, addBody]
  · cases h; rfl

theorem len_insert {s s' : State} {v p w : Nat} (h : insert s v p w = .ok s') : s'.vars.length = s.vars.length := by
  unfold insert at h
  obtain ⟨x, -, h⟩ := hbind h
  obtain ⟨y, -, h⟩ := hbind h
  split at h
  · cases h; simp [setVar]
  · obtain ⟨s1, h1, h⟩ := hbind h
    split at h
    · cases h
    · obtain ⟨x1, -, h⟩ := hbind h
      obtain ⟨σ, -, h⟩ := hbind h
      obtain ⟨τ, -, h⟩ := hbind h
      obtain ⟨ab, -, h⟩ := hbind h
      obtain ⟨σ', -, h⟩ := hbind h
      unfold putStr at h
      obtain ⟨x2, -, h⟩ := hbind h
      cases h
      rw [← len_unshare h1]; simp [setVar, setBody]

theorem len_addEq {s s' : State} {v w : Nat} (h : addEq s v w = .ok s') : s'.vars.length = s.vars.length := by
  unfold addEq at h
  obtain ⟨x, -, h⟩ := hbind h
  obtain ⟨y, -, h⟩ := hbind h
  obtain ⟨b, -, h⟩ := hbind h
  split at h
  · unfold assign at h
    obtain ⟨x, -, h⟩ := hbind h
    obtain ⟨y, -, h⟩ := hbind h
    cases h; simp [setVar]
  · exact len_insert h

theorem len_newData {s s' : State} {mem : List Byte} {p l a : Nat} (h : newData s mem p l a = .ok s') : s'.vars.length = s.vars.length + 1 := by
  unfold newData at h
  split at h
  · cases h; simp [newEmpty, newVar]
  · obtain ⟨b, -, h⟩ := hbind h
    obtain ⟨σ, -, h⟩ := hbind h
    cases h; simp [newStr, newVar, addBody]

theorem len_plus {s s' : State} {v w : Nat} (h : plus s v w = .ok s') : s'.vars.length = s.vars.length + 1 := by
  unfold plus at h
  obtain ⟨x, -, h⟩ := hbind h
  obtain ⟨y, -, h⟩ := hbind h
  split at h
  · cases h; simp [newVar]
  · obtain ⟨σ, -, h⟩ := hbind h
    obtain ⟨τ, -, h⟩ := hbind h
    obtain ⟨cp, -, h⟩ := hbind h
    obtain ⟨cp', -, h⟩ := hbind h
    obtain ⟨len, -, h⟩ := hbind h
    obtain ⟨al, -, h⟩ := hbind h
    obtain ⟨s1, h1, h⟩ := hbind h
    rw [len_addEq h, len_newData h1]

theorem len_destroy {s s' : State} {v : Nat} (h : destroy s v = .ok s') : s'.vars.length = s.vars.length := by
  unfold destroy at h
  obtain ⟨x, -, h⟩ := hbind h
  cases h; simp

theorem len_joinLoop {r j : Nat} : ∀ (ws : List Nat) {s s' : State}, joinLoop s r j ws = .ok s' → s'.vars.length = s.vars.length + ws.length := by
  intro ws
  induction ws with
  | nil => intro s s' h; cases h; rfl
  | cons w ws ih =>
    intro s s' h
    unfold joinLoop at h
    simp only at h
    obtain ⟨s1, h1, h⟩ := hbind h
    obtain ⟨s2, h2, h⟩ := hbind h
    obtain ⟨s3, h3, h⟩ := hbind h
    rw [ih h, len_destroy h3, len_addEq h2, len_plus h1, List.length_cons]
    omega

theorem len_join {s s' : State} {j w : Nat} {ws : List Nat} (h : join s j (w :: ws) = .ok s') : s'.vars.length = s.vars.length + 2 + ws.length := by
  simp only [join] at h
  obtain ⟨x, -, h⟩ := hbind h
  obtain ⟨s1, h1, h⟩ := hbind h
  obtain ⟨σ, -, h⟩ := hbind h
  obtain ⟨cp, -, h⟩ := hbind h
  obtain ⟨cp', -, h⟩ := hbind h
  obtain ⟨n, -, h⟩ := hbind h
  obtain ⟨s2, h2, h⟩ := hbind h
  obtain ⟨s3, h3, h⟩ := hbind h
  have e1 : s1.vars.length = s.vars.length + 1 := by
    unfold asUTF8 at h1
    obtain ⟨σ, -, h1⟩ := hbind h1
    obtain ⟨m, -, h1⟩ := hbind h1
    split at h1
    · obtain ⟨σ', -, h1⟩ := hbind h1
      cases h1; simp [ownStr, setVar, addBody, newVar]
    · cases h1; simp [newVar]
  rw [len_destroy h, len_joinLoop ws h3, len_newData h2, e1]

theorem refine_step {S : Type} (F : Meaning S) {s : State} (h : Inv s) (hr : Roomy s 0) (op : Op S) (hs : Safe F s op) :
    ∃ s', exec s op = .ok s' ∧ Inv s' ∧ Roomy s' 0 ∧ s'.vars.length = s.vars.length + grow op ∧
      ∀ v, view s' v = if v = (effect F (view s) s.vars.length op).1 then (effect F (view s) s.vars.length op).2 else view s v := by
  have mk : ∀ {s' : State} {t : List UCS4} {P : Nat → Prop}, exec s op = .ok s' → Made s s' 0 t P → (∀ v, ¬ targets op v) → grow op = 1 →
      effect F (view s) s.vars.length op = (s.vars.length, some t) →
      ∃ s', exec s op = .ok s' ∧ Inv s' ∧ Roomy s' 0 ∧ s'.vars.length = s.vars.length + grow op ∧
      ∀ v, view s' v = if v = (effect F (view s) s.vars.length op).1 then (effect F (view s) s.vars.length op).2 else view s v := by
    intro s' t P e hm hT hgr he
    refine ⟨s', e, hm.inv, hm.roomy, by rw [hm.len, hgr], fun v => ?_⟩
    rw [he]
    exact made_effect h hm (frame_exec h.ids h.pos op e) hT v
  have st : ∀ {s' : State} {u : Nat} {o : Option (List UCS4)}, exec s op = .ok s' → Inv s' → Roomy s' 0 → s'.vars.length = s.vars.length →
      view s' u = o → (∀ v, targets op v → v = u) → grow op = 0 → effect F (view s) s.vars.length op = (u, o) →
      ∃ s', exec s op = .ok s' ∧ Inv s' ∧ Roomy s' 0 ∧ s'.vars.length = s.vars.length + grow op ∧
      ∀ v, view s' v = if v = (effect F (view s) s.vars.length op).1 then (effect F (view s) s.vars.length op).2 else view s v := by
    intro s' u o e hi hro hl ht hT hgr he
    refine ⟨s', e, hi, hro, by rw [hl, hgr]; rfl, fun v => ?_⟩
    rw [he]
    exact set_effect h ht hl (frame_exec h.ids h.pos op e) hT v
  cases op with
  | default => exact mk rfl (newEmpty_made h hr (fun _ => False)) (fun _ hh => hh) rfl rfl
  | ofC mem =>
    obtain ⟨cs, rest, rfl, h1, h2, h3⟩ := hs
    obtain ⟨s', e, hm⟩ := newC_made h hr (fun _ => False) cs rest h1 h2 (by omega)
    refine mk e hm (fun _ hh => hh) rfl ?_
    simp only [effect]
    rw [takeWhile_nz _ _ (encodeAll_nz cs h1 h2), decode_encode cs h1]
  | ofData mem l a =>
    obtain ⟨cs, z, rest, rfl, h1, rfl, h3, h4⟩ := hs
    obtain ⟨s', e, hm⟩ := newData_made h hr (fun _ => False) (encodeAll cs ++ z :: rest) 0 a [] cs z rest rfl rfl h1 (by omega) h4
    refine mk e hm (fun _ hh => hh) rfl ?_
    simp only [effect]
    rw [List.take_left, decode_encode cs h1]
  | ofChar c =>
    obtain ⟨s', e, hm⟩ := newChar_made h hr (fun _ => False) c hs (by omega)
    exact mk e hm (fun _ hh => hh) rfl rfl
  | ofStatic d =>
    obtain ⟨cs, rfl, h1, h3⟩ := hs
    obtain ⟨s', e, hm⟩ := newStatic_made h hr (fun _ => False) cs h1 (by omega)
    refine mk e hm (fun _ hh => hh) rfl ?_
    simp only [effect]
    rw [List.dropLast_concat, decode_encode cs h1]
  | copy w =>
    obtain ⟨s', e, hm⟩ := copy_made h (text_of h hs) hr
    refine mk e hm (fun _ hh => hh) rfl ?_
    simp only [effect]
    rw [view_some hs]
  | assign v w =>
    obtain ⟨s', e, h1, h2, h3, h4⟩ := assign_ok h (text_of h hs.1) (text_of h hs.2) hr
    refine st e h1 h2 h3 h4.view (fun _ hh => hh) rfl ?_
    simp only [effect]
    rw [view_some hs.2]
  | destroy v =>
    obtain ⟨s', e, h1, h2, h3, h4⟩ := destroy_ok h (text_of h hs) hr
    exact st e h1 h2 h3 h4 (fun _ hh => hh) rfl rfl
  | substr w a l =>
    obtain ⟨s', e, hm⟩ := substr_made h (text_of h hs.1) a l hr hs.2
    exact mk e hm (fun _ hh => hh) rfl rfl
  | head w k =>
    obtain ⟨s', e, hm⟩ := head_made h (text_of h hs.1) k hr (Or.inl hs.2)
    exact mk e hm (fun _ hh => hh) rfl rfl
  | tail w k =>
    obtain ⟨h1, h2⟩ := hs
    have hc := (text_of h h1).size hr
    have hl := encodeAll_length_ge (text (view s) w)
    obtain ⟨s', e, hm⟩ := tail_made h (text_of h h1) k hr (by omega)
    rw [if_pos h2] at hm
    exact mk e hm (fun _ hh => hh) rfl rfl
  | shorter w k =>
    obtain ⟨s', e, hm⟩ := shorter_made h (text_of h hs.1) k hr hs.2
    exact mk e hm (fun _ hh => hh) rfl rfl
  | plus v w =>
    obtain ⟨s', e, hm⟩ := plus_made (k := 0) h (text_of h hs.1) (text_of h hs.2.1) (by rw [Nat.zero_add]; exact hs.2.2)
    exact mk e hm (fun _ hh => hh) rfl rfl
  | addEq v w =>
    obtain ⟨h1, h2, h3, h4, h5⟩ := hs
    obtain ⟨s', e, a1, a2, a3, a4, -⟩ := addEq_ok (k := 0) h h3 (text_of h h1) (text_of h h2) h4 (by rw [Nat.zero_add]; exact h5)
    exact st e a1 a2 a3 a4.view (fun _ hh => hh) rfl rfl
  | addEqChar v c =>
    obtain ⟨h1, h2, h4, h5⟩ := hs
    obtain ⟨s', e, a1, a2, a3, a4, -, a5⟩ := addEqChar_ok (k := 0) h (text_of h h1) c h2 h4 (by rw [Nat.zero_add]; exact h5)
    refine ⟨s', e, a1, a2, a3, fun u => ?_⟩
    have he : effect F (view s) s.vars.length (.addEqChar v c) = (v, some (text (view s) v ++ [c])) := rfl
    rw [he]
    by_cases hv : u = v
    · rw [if_pos hv, hv]; exact a4.view
    · rw [if_neg hv]
      rcases Nat.lt_trichotomy u s.vars.length with hl | hl | hl
      · exact ((frame_exec (S := S) h.ids h.pos (.addEqChar v c) e).same u hl hv).view h.ids hl
      · rw [view_out (s := s) (v := u) (by omega), hl, view_dead a5]
      · rw [view_out (by omega), view_out (by omega)]
  | insert v p w =>
    obtain ⟨h1, h2, h3, h4, h5, h6, h7⟩ := hs
    obtain ⟨s', e, a1, a2, a3, a4, -⟩ := insert_ok (k := 0) h h3 (text_of h h1) (text_of h h2) p h6 h4 h5 (by rw [Nat.zero_add]; exact h7)
    exact st e a1 a2 a3 a4.view (fun _ hh => hh) rfl rfl
  | times v n =>
    obtain ⟨s', e, hm⟩ := times_made (k := 0) h (text_of h hs.1) n (by rw [Nat.zero_add]; exact hs.2)
    exact mk e hm (fun _ hh => hh) rfl rfl
  | asUTF8 v =>
    obtain ⟨s', e, a1, a2, a3, a4⟩ := asUTF8_ok h (text_of h hs) hr
    refine st e a1 a2 a3 a4.view (fun _ hh => hh) rfl ?_
    simp only [effect]
    rw [view_some hs]
  | toLower v m =>
    obtain ⟨h1, h2, h3, h4, h5, h6⟩ := hs
    have hM : (unicodeToLower.length : Int) = 396 := by decide +kernel
    obtain ⟨s', e, a1, a2, a3, a4⟩ := toCase_ok (k := 0) h (text_of h h1) h2 lower_conv m h3 (by omega) h5 hr (by omega)
    exact st e a1 a2 a3 a4.view (fun _ hh => hh) rfl rfl
  | toUpper v m =>
    obtain ⟨h1, h2, h3, h4, h5, h6⟩ := hs
    have hM : (unicodeToUpper.length : Int) = 406 := by decide +kernel
    obtain ⟨s', e, a1, a2, a3, a4⟩ := toCase_ok (k := 0) h (text_of h h1) h2 upper_conv m h3 (by omega) h5 hr (by omega)
    exact st e a1 a2 a3 a4.view (fun _ hh => hh) rfl rfl
  | transform v x s0 a =>
    obtain ⟨h1, h2, h3, h4, ⟨I, h5, h6⟩, h7, h8⟩ := hs
    rw [← wrap_after h3 h4] at h7 h8
    obtain ⟨s', e, a1, a2, a3, a4⟩ := transform_ok (k := 0) h (text_of h h1) h2 I x (F x) h5 s0 h6 a h7 hr (by omega)
    refine st e a1 a2 a3 a4.view (fun _ hh => hh) rfl ?_
    simp only [effect]
    rw [wrap_after h3 h4]
  | join j ws =>
    obtain ⟨h1, h2, h3⟩ := hs
    cases ws with
    | nil => exact mk rfl (newEmpty_made h hr (fun _ => False)) (fun _ hh => hh) rfl rfl
    | cons w ws =>
      obtain ⟨s', e, a1, a2, a3, a4⟩ := join_ok (k := 0) (ws := ws) (ts := ws.map (text (view s))) h (text_of h h1) (text_of h (h2 w (by simp))) (by rw [List.length_map])
        (by
          intro i u t hu ht
          rw [List.getElem?_map, hu] at ht
          simp only [Option.map_some, Option.some.injEq] at ht
          rw [← ht]
          exact text_of h (h2 u (by simp [List.mem_of_getElem? hu]))) (by
          rw [Nat.zero_add]
          rw [List.map_cons, List.drop_succ_cons, List.drop_zero] at h3
          exact h3)
      refine ⟨s', e, a1, a2, by rw [len_join e]; simp only [grow]; omega, fun u => ?_⟩
      have he : effect F (view s) s.vars.length (.join j (w :: ws)) =
        (s.vars.length + 1, some (text (view s) w ++ joinTail (text (view s) j) (ws.map (text (view s))))) := by
        simp only [effect, List.map_cons, joined, joinTail]
      rw [he]
      by_cases hv : u = s.vars.length + 1
      · rw [if_pos hv, hv]; exact a3.view
      · rw [if_neg hv]
        rcases Nat.lt_or_ge u s.vars.length with hl | hl
        · exact ((frame_exec (S := S) h.ids h.pos (.join j (w :: ws)) e).same u hl (fun hh => hh)).view h.ids hl
        · rw [view_out hl]
          rcases Nat.lt_or_ge u s'.vars.length with hl' | hl'
          · exact view_dead (a4 u hl hl' hv)
          · exact view_out hl'

end Strpp.SV
