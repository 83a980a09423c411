import Verif.Proof.StrBorrow
import Verif.Props.StrVal
set_option linter.unusedVariables false
set_option linter.unusedSimpArgs false
/-! C106: which strings refer to memory that belongs to the caller. -/
namespace Strpp.SV

open Spec Arr

theorem only_inv {S : Type} {s s' : State} (hi : Inv s) (op : Op S) (ho : ∀ w ∈ operands op, w < s.vars.length)
    (he : exec s op = .ok s') (v : Nat) :
    (v < s.vars.length → v ≠ result s.vars.length op → (Borrows s' v ↔ Borrows s v)) ∧
    (Borrows s' (result s.vars.length op) → MayBorrow s op) := by
  have f := frame_exec hi.ids hi.pos op he
  constructor
  · intro hv hne
    refine borrows_same hi.ids hv (f.same v hv (fun ht => hne ?_))
    cases op <;> first | exact ht | exact ht.elim
  · intro hb
    cases op with
    | default => cases he; exact absurd hb newEmpty_not
    | ofC mem => exact absurd hb (newC_not he)
    | ofData mem l a => exact absurd hb (newData_not he)
    | ofChar c => exact absurd hb (newChar_not he)
    | ofStatic d => exact trivial
    | copy w => exact absurd hb (copy_not (plain_of hi w) he)
    | assign v w => exact (assign_borrows he).mp hb
    | destroy v =>
      simp only [exec, destroy] at he
      obtain ⟨x, h1, he⟩ := hbind he
      cases he
      obtain ⟨z, b, g1, -⟩ := hb
      have := get_lt (getVar_inv h1)
      simp [result, this] at g1
    | substr w a l => exact substr_borrows he hb
    | head w n => exact substr_borrows he hb
    | tail w n =>
      simp only [exec, tail] at he
      obtain ⟨x, -, he⟩ := hbind he
      exact substr_borrows he hb
    | shorter w n =>
      simp only [exec, shorter] at he
      obtain ⟨x, -, he⟩ := hbind he
      exact substr_borrows he hb
    | plus v w =>
      exact plus_borrows hi.ids hi.pos (plain_of hi w) (ho w (by simp [operands])) he hb
    | addEq v w => exact addEq_borrows hi.ids (plain_of hi w) he hb
    | addEqChar v c => exact absurd hb (addEqChar_not hi.ids (ho v (by simp [operands])) he)
    | insert v p w => exact insert_borrows hi.ids he hb
    | times v n => exact absurd hb (times_not hi.ids (plain_of hi v) hi.pos he)
    | asUTF8 v => exact (asUTF8_borrows he hb).1
    | toLower v m => exact absurd hb (toCase_own hi.ids he).not
    | toUpper v m => exact absurd hb (toCase_own hi.ids he).not
    | transform v x st a => exact absurd hb (transform_own hi.ids he).not
    | join j ws =>
      have hws : ∀ w ∈ ws, Plain s w ∧ w < s.vars.length :=
        fun w hw => ⟨plain_of hi w, ho w (List.mem_cons_of_mem _ hw)⟩
      have := join_not hi.ids hi.pos hws he
      match ws, this, hb with
      | [], this, hb => exact absurd hb this
      | w :: ws, this, hb => exact absurd hb this

/-- C106. After any call, a string borrows only if the call left it alone and it borrowed before, or if it is the result of
the call, and that is construction on borrowed data, assignment from a string that borrows, a part of one, or two neighbouring
parts of one put together. The results of all other calls (copies among them) have memory of their own. -/
theorem C106_only {S : Type} {s s' : State} (h : Reached s) (op : Op S) (ho : ∀ w ∈ operands op, w < s.vars.length)
    (he : exec s op = .ok s') (v : Nat) :
    (v < s.vars.length → v ≠ result s.vars.length op → (Borrows s' v ↔ Borrows s v)) ∧
    (Borrows s' (result s.vars.length op) → MayBorrow s op) := only_inv h.inv.1 op ho he v

/-- every string a safe call is given exists -/
theorem safe_operands {S : Type} {F : Meaning S} {s : State} (op : Op S) (h : Safe F s op) : ∀ w ∈ operands op, w < s.vars.length := by
  have key : ∀ w, view s w ≠ none → w < s.vars.length := fun w hw => Nat.lt_of_not_le fun hle => hw (view_out hle)
  cases op <;> simp only [operands, Safe, List.mem_cons, List.not_mem_nil, or_false, false_implies, implies_true, forall_eq_or_imp, forall_eq] at h ⊢
  all_goals first
    | trivial
    | exact key _ h
    | exact key _ h.1
    | exact ⟨key _ h.1, key _ h.2⟩
    | exact ⟨key _ h.1, key _ h.2.1⟩
    | exact ⟨key _ h.1, fun w hw => key w (h.2.1 w hw)⟩

theorem result_place {S : Type} (F : Meaning S) (m : Nat → Option (List UCS4)) (n : Nat) (op : Op S) : (effect F m n op).1 = result n op := by
  cases op with
  | join j ws => cases ws <;> rfl
  | _ => rfl

/-- If no string borrows, none does after a safe call that does not construct one on borrowed data. -/
theorem none_borrows {S : Type} (F : Meaning S) {s : State} (hi : Inv s) (hr : Roomy s 0) (op : Op S) (hs : Safe F s op)
    (hn : ∀ v, ¬ Borrows s v) (hop : ∀ d, op ≠ .ofStatic d) {s' : State} (he : exec s op = .ok s') : ∀ v, ¬ Borrows s' v := by
  obtain ⟨s1, e1, i1, -, -, hv⟩ := refine_step F hi hr op hs
  rw [he] at e1; cases e1
  intro v hb
  obtain ⟨h1, h2⟩ := only_inv hi op (safe_operands op hs) he v
  by_cases hp : v = result s.vars.length op
  · rw [hp] at hb
    have hm := h2 hb
    cases op with
    | ofStatic d => exact hop d rfl
    | assign _ w | substr w _ _ | head w _ | tail w _ | shorter w _ | asUTF8 w => exact hn _ hm
    | plus _ _ | addEq _ _ | insert _ _ _ => exact hn _ hm.1
    | _ => exact hm.elim
  · rcases Nat.lt_or_ge v s.vars.length with hl | hl
    · exact hn v ((h1 hl hp).mp hb)
    · have := hv v
      rw [result_place, if_neg hp, view_out hl] at this
      obtain ⟨x, b, g1, -⟩ := hb
      obtain ⟨c, pre, t, post, k1, k2, k3⟩ := i1.vars v x g1
      rw [Txt.view ⟨x, c, pre, post, g1, k1, k2, k3⟩] at this
      cases this

/-- C106. In a program that constructs no string on borrowed data no string ever borrows, temporaries included. -/
theorem C106_never {S : Type} (F : Meaning S) (ops : List (Op S)) (hs : SafeRun F State.init ops) (hop : ∀ d, Op.ofStatic d ∉ ops) :
    ∃ s, execAll State.init ops = .ok s ∧ ∀ v, ¬ Borrows s v := by
  have go : ∀ (ops : List (Op S)) (s : State), Inv s → Roomy s 0 → SafeRun F s ops → (∀ d, Op.ofStatic d ∉ ops) → (∀ v, ¬ Borrows s v) →
      ∃ s', execAll s ops = .ok s' ∧ ∀ v, ¬ Borrows s' v := by
    intro ops
    induction ops with
    | nil => intro s _ _ _ _ hn; exact ⟨s, rfl, hn⟩
    | cons op ops ih =>
      intro s hi hr hs hop hn
      obtain ⟨s1, e1, h1, r1, -, -⟩ := refine_step F hi hr op hs.1
      obtain ⟨s2, e2, n2⟩ := ih s1 h1 r1 (hs.2 s1 e1) (fun d hd => hop d (List.mem_cons_of_mem _ hd))
        (none_borrows F hi hr op hs.1 hn (fun d hd => hop d (by rw [hd]; exact List.mem_cons_self ..)) e1)
      exact ⟨s2, by rw [execAll, e1, res_bind_ok, e2], n2⟩
  exact go ops State.init init_inv init_roomy hs hop (by
    rintro v ⟨x, b, h1, -⟩
    simp [State.init] at h1)

/-- C106_never for "aéc", a copy, a part and "x". -/
example : ∃ s, execAll State.init sample = .ok s ∧ ∀ v, ¬ Borrows s v := C106_never noMeaning sample sample_safe (by simp [sample])

/-- C106. Assignment does not copy: the assigned string borrows exactly if the other does. -/
theorem C106_assign {S : Type} {s s' : State} (h : Reached s) {v w : Nat} (he : exec s (.assign v w : Op S) = .ok s') :
    Borrows s' v ↔ Borrows s w := assign_borrows he

/-- C106. A part that is not empty borrows exactly if the string it is a part of does. -/
theorem C106_part {S : Type} {s s' : State} (h : Reached s) {w a : Nat} {l : Int} {t : List UCS4} (hw : view s w = some t)
    (ha : a < t.length) (hl : l = -1 ∨ 0 < l) (he : exec s (.substr w a l : Op S) = .ok s') :
    Borrows s' s.vars.length ↔ Borrows s w := by
  constructor
  · exact fun hb => substr_borrows he hb
  · rintro ⟨x, b, g1, g2, g3, g4⟩
    obtain ⟨y, c, pre, post, k1, k2, k3, -⟩ := h.inv.1.txt hw
    rw [g1] at k1; cases k1
    have hn := k3.num
    simp only at hn
    simp only [exec, substr] at he
    rw [getVar_ok g1, res_bind_ok, if_neg (by
      simp only [Bool.or_eq_true, decide_eq_true_eq, beq_iff_eq]
      omega)] at he
    cases he
    exact ⟨⟨x.body, x.off + a, _, ⟨0, 0⟩⟩, b, by simp [SV.newVar]; rfl, g2, g3, g4⟩

/-- C106. A string made from a StrRef to `w` shows what `w` shows, nothing else changes, and, unlike a copy of `w`, it borrows
exactly if `w` does. -/
theorem C106_ref {s : State} (h : Reached s) {w : Nat} {t : List UCS4} (hw : view s w = some t) :
    ∃ s', viaRef s w = .ok s' ∧ view s' s.vars.length = some t ∧ (∀ v, v ≠ s.vars.length → view s' v = view s v) ∧
      (Borrows s' s.vars.length ↔ Borrows s w) := by
  have hi := h.inv.1
  obtain ⟨x, b, pre, post, hx, hb, hd, he⟩ := hi.txt hw
  have hd' : Den ⟨b, x.off, x.num, ⟨0, 0⟩⟩ pre t post := ⟨hd.body, hd.off, hd.num, Or.inl ⟨by simp, by simp⟩, Or.inl (by simp)⟩
  obtain ⟨h1, h2, h3, h4, h5⟩ := newVar_txt (x := ⟨x.body, x.off, x.num, ⟨0, 0⟩⟩) hi hb hd' he h.inv.2
  have f := frame_newVar hi.ids ⟨x.body, x.off, x.num, ⟨0, 0⟩⟩ (hi.ids w x hx)
  refine ⟨_, by unfold viaRef; rw [getVar_ok hx, res_bind_ok], h4.view, fun v hv => ?_, ?_⟩
  · rcases Nat.lt_or_ge v s.vars.length with hl | hl
    · exact (f.same v hl (fun e => e)).view hi.ids hl
    · rw [view_out (s := s) hl, view_out (by rw [h3]; omega)]
  · constructor
    · rintro ⟨z, c, g1, g2, g3, g4⟩
      rw [h5] at g1; cases g1
      exact ⟨x, c, hx, g2, g3, g4⟩
    · rintro ⟨z, c, g1, g2, g3, g4⟩
      rw [hx] at g1; cases g1
      exact ⟨_, c, h5, g2, g3, g4⟩

/-- "qr" is borrowed, and assigned; a part of it is taken, and the whole is copied. -/
def borrowOps : List (Op Unit) := [.ofStatic [0x71#8, 0x72#8, 0#8], .default, .assign 1 0, .substr 0 1 1, .copy 0]
def borrowBody : SBody := ⟨⟨[0x71#8, 0x72#8, 0#8], 3, 0, true⟩, 2⟩
def ownBody : SBody := ⟨⟨[0x71#8, 0x72#8, 0#8, 0#8, 0#8, 0#8, 0#8, 0#8], 3, 8, false⟩, 0⟩
def borrowState : State := ⟨[nullBody, borrowBody, ownBody],
  [some ⟨1, 0, 2, ⟨0, 0⟩⟩, some ⟨1, 0, 2, ⟨0, 0⟩⟩, some ⟨1, 1, 1, ⟨0, 0⟩⟩, some ⟨2, 0, 2, ⟨0, 0⟩⟩]⟩

theorem borrow_run : execAll State.init borrowOps = .ok borrowState := by decide +kernel

theorem borrow_safe : SafeRun noMeaning State.init borrowOps := by
  refine SafeRun.cons (s1 := ⟨[nullBody, borrowBody], [some ⟨1, 0, 2, ⟨0, 0⟩⟩]⟩) (by decide +kernel)
    ⟨[0x71#32, 0x72#32], by decide +kernel, small_good _ (by simp), by decide +kernel⟩ ?_
  refine SafeRun.cons (s1 := ⟨[nullBody, borrowBody], [some ⟨1, 0, 2, ⟨0, 0⟩⟩, some ⟨0, 0, 0, ⟨0, 0⟩⟩]⟩) (by decide +kernel)
    (by unfold Safe; trivial) ?_
  refine SafeRun.cons (s1 := ⟨[nullBody, borrowBody], [some ⟨1, 0, 2, ⟨0, 0⟩⟩, some ⟨1, 0, 2, ⟨0, 0⟩⟩]⟩) (by decide +kernel)
    (by unfold Safe; decide +kernel) ?_
  refine SafeRun.cons (s1 := ⟨[nullBody, borrowBody], [some ⟨1, 0, 2, ⟨0, 0⟩⟩, some ⟨1, 0, 2, ⟨0, 0⟩⟩, some ⟨1, 1, 1, ⟨0, 0⟩⟩]⟩) (by decide +kernel)
    (by unfold Safe; decide +kernel) ?_
  exact SafeRun.cons (s1 := borrowState) (by decide +kernel) (by unfold Safe; decide +kernel) trivial

theorem borrow_reached : Reached borrowState := ⟨Unit, noMeaning, borrowOps, borrow_safe, borrow_run⟩

example : Borrows borrowState 0 ∧ Borrows borrowState 1 ∧ Borrows borrowState 2 ∧ ¬ Borrows borrowState 3 :=
  ⟨⟨_, _, rfl, by decide, rfl, rfl⟩, ⟨_, _, rfl, by decide, rfl, rfl⟩, ⟨_, _, rfl, by decide, rfl, rfl⟩, by
    rintro ⟨x, b, h1, h2, h3, h4⟩
    cases h1
    cases h3
    cases h4⟩

/-- C106_ref for the borrowed "qr". -/
example : ∃ s', viaRef borrowState 0 = .ok s' ∧ view s' 4 = some [0x71#32, 0x72#32] ∧ (∀ v, v ≠ 4 → view s' v = view borrowState v) ∧
    (Borrows s' 4 ↔ Borrows borrowState 0) := C106_ref borrow_reached (by decide +kernel)

end Strpp.SV
