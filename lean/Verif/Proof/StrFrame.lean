import Verif.Spec.StrHistory
import Verif.Model.StrVal
import Verif.Spec.Utf8
import Verif.Proof.ArrayBody
/-! Calls leave other variables alone. -/
namespace Strpp.SV

open Spec

/-- every variable has a body -/
def Ids (s : State) : Prop := ∀ (v : Nat) (x : Var), s.vars[v]? = some (some x) → x.body < s.bodies.length

/-- variable `w` is as before, up to its bookmark and the cached count of characters -/
def Same (s s' : State) (w : Nat) : Prop :=
  (s.vars[w]? = some none → s'.vars[w]? = some none) ∧
  ∀ (x : Var), s.vars[w]? = some (some x) → ∃ x' : Var, s'.vars[w]? = some (some x') ∧ x'.body = x.body ∧ x'.off = x.off ∧
    x'.num = x.num ∧ ∀ (b : SBody), s.bodies[x.body]? = some b → ∃ b' : SBody, s'.bodies[x.body]? = some b' ∧ b'.arr = b.arr

/-- a call that may only change the variables in `T` (and make new ones) -/
structure Frame (s s' : State) (T : Nat → Prop) : Prop where
  ids : Ids s'
  bl : s.bodies.length ≤ s'.bodies.length
  vl : s.vars.length ≤ s'.vars.length
  same : ∀ (w : Nat), w < s.vars.length → ¬ T w → Same s s' w

theorem Same.refl (s : State) (w : Nat) : Same s s w := ⟨id, fun x h => ⟨x, h, rfl, rfl, rfl, fun b hb => ⟨b, hb, rfl⟩⟩⟩

theorem Same.trans {s s' s'' : State} {w : Nat} (h1 : Same s s' w) (h2 : Same s' s'' w) : Same s s'' w := by
  refine ⟨fun h => h2.1 (h1.1 h), fun x h => ?_⟩
  obtain ⟨x', a1, a2, a3, a4, a5⟩ := h1.2 x h
  obtain ⟨x'', b1, b2, b3, b4, b5⟩ := h2.2 x' a1
  refine ⟨x'', b1, by rw [b2, a2], by rw [b3, a3], by rw [b4, a4], fun b hb => ?_⟩
  obtain ⟨b', c1, c2⟩ := a5 b hb
  rw [← a2] at c1
  obtain ⟨b'', d1, d2⟩ := b5 b' c1
  exact ⟨b'', by rw [← a2]; exact d1, by rw [d2, c2]⟩

theorem Same.view {s s' : State} {w : Nat} (hi : Ids s) (hw : w < s.vars.length) (h : Same s s' w) : view s' w = view s w := by
  have he : ∃ o : Option Var, s.vars[w]? = some o := ⟨s.vars[w], List.getElem?_eq_getElem hw⟩
  obtain ⟨o, ho⟩ := he
  cases o with
  | none => unfold SV.view; rw [ho, h.1 ho]
  | some x =>
    obtain ⟨x', a1, a2, a3, a4, a5⟩ := h.2 x ho
    have hb := List.getElem?_eq_getElem (hi w x ho)
    obtain ⟨b', c1, c2⟩ := a5 _ hb
    unfold SV.view
    rw [ho, a1]
    simp only
    rw [a2, c1, hb]
    simp only [c2, a3, a4]

theorem Frame.refl {s : State} (h : Ids s) (T : Nat → Prop) : Frame s s T := ⟨h, Nat.le_refl _, Nat.le_refl _, fun w _ _ => Same.refl s w⟩

theorem Frame.trans {s s' s'' : State} {T T' : Nat → Prop} (h1 : Frame s s' T) (h2 : Frame s' s'' T') :
    Frame s s'' (fun w => T w ∨ T' w) := by
  refine ⟨h2.ids, Nat.le_trans h1.bl h2.bl, Nat.le_trans h1.vl h2.vl, fun w hw hT => ?_⟩
  exact (h1.same w hw (fun h => hT (Or.inl h))).trans (h2.same w (Nat.lt_of_lt_of_le hw h1.vl) (fun h => hT (Or.inr h)))

theorem Frame.weaken {s s' : State} {T T' : Nat → Prop} (h : Frame s s' T) (hT : ∀ w, w < s.vars.length → T w → T' w) : Frame s s' T' :=
  ⟨h.ids, h.bl, h.vl, fun w hw h' => h.same w hw (fun ht => h' (hT w hw ht))⟩

theorem get_lt {α : Type} {l : List α} {i : Nat} {x : α} (h : l[i]? = some x) : i < l.length := by
  rcases Nat.lt_or_ge i l.length with h1 | h1
  · exact h1
  · rw [List.getElem?_eq_none h1] at h; cases h

theorem getVar_eq {s : State} {v : Nat} {x : Var} (h : getVar s v = .ok x) : s.vars[v]? = some (some x) := by
  unfold getVar at h
  split at h
  · rename_i y hy; cases h; exact hy
  · cases h

theorem getVar_ok {s : State} {v : Nat} {x : Var} (h : s.vars[v]? = some (some x)) : getVar s v = .ok x := by
  unfold getVar; rw [h]

theorem getBody_eq {s : State} {b : Nat} {x : SBody} (h : getBody s b = .ok x) : s.bodies[b]? = some x := by
  unfold getBody at h
  split at h
  · rename_i y hy; cases h; exact hy
  · cases h

theorem getBody_ok {s : State} {b : Nat} {x : SBody} (h : s.bodies[b]? = some x) : getBody s b = .ok x := by
  unfold getBody; rw [h]

theorem frame_newVar {s : State} (h : Ids s) (x : Var) (hx : x.body < s.bodies.length) : Frame s (newVar s x) (fun _ => False) := by
  refine ⟨?_, Nat.le_refl _, by simp [newVar], ?_⟩
  · intro v y hv
    simp only [newVar, List.getElem?_append] at hv
    split at hv
    · exact h v y hv
    · have : v - s.vars.length = 0 := by
        rcases Nat.eq_zero_or_pos (v - s.vars.length) with h0 | h0
        · exact h0
        · rw [List.getElem?_eq_none (by simp; omega)] at hv; cases hv
      rw [this] at hv
      simp only [List.getElem?_cons_zero, Option.some.injEq] at hv
      subst hv; exact hx
  · intro w hw _
    have e : (newVar s x).vars[w]? = s.vars[w]? := by simp only [newVar]; rw [List.getElem?_append_left hw]
    exact ⟨fun h' => by rw [e]; exact h', fun y hy => ⟨y, by rw [e]; exact hy, rfl, rfl, rfl, fun b hb => ⟨b, hb, rfl⟩⟩⟩

theorem frame_setVar {s : State} (h : Ids s) (v : Nat) (x : Var) (hx : x.body < s.bodies.length) : Frame s (setVar s v x) (fun w => w = v) := by
  refine ⟨?_, Nat.le_refl _, by simp [setVar], ?_⟩
  · intro w y hw
    simp only [setVar, List.getElem?_set] at hw
    split at hw
    · split at hw
      · simp only [Option.some.injEq] at hw; subst hw; exact hx
      · cases hw
    · exact h w y hw
  · intro w hw hne
    have e : (setVar s v x).vars[w]? = s.vars[w]? := by
      simp only [setVar]; rw [List.getElem?_set_ne (by omega)]
    exact ⟨fun h' => by rw [e]; exact h', fun y hy => ⟨y, by rw [e]; exact hy, rfl, rfl, rfl, fun b hb => ⟨b, hb, rfl⟩⟩⟩

theorem frame_addBody {s : State} (h : Ids s) (b : SBody) : Frame s (addBody s b) (fun _ => False) := by
  refine ⟨?_, by simp [addBody], Nat.le_refl _, ?_⟩
  · intro v x hv
    have := h v x hv
    simp [addBody]; omega
  · intro w hw _
    refine ⟨id, fun x hx => ⟨x, hx, rfl, rfl, rfl, fun b' hb => ⟨b', ?_, rfl⟩⟩⟩
    simp only [addBody]; rw [List.getElem?_append_left (get_lt hb)]; exact hb

theorem frame_ownStr {s : State} (h : Ids s) (v : Nat) (σ : Str) : Frame s (ownStr s v σ) (fun w => w = v) := by
  have h1 := frame_addBody h σ.b
  have h2 := frame_setVar h1.ids v ⟨s.bodies.length, σ.off, σ.num, σ.mark⟩ (by simp [addBody])
  exact (h1.trans h2).weaken (by simp)

theorem frame_newStr {s : State} (h : Ids s) (σ : Str) : Frame s (newStr s σ) (fun _ => False) := by
  have h1 := frame_addBody h σ.b
  have h2 := frame_newVar h1.ids ⟨s.bodies.length, σ.off, σ.num, σ.mark⟩ (by simp [addBody])
  exact (h1.trans h2).weaken (by simp)

/-- a count of at most one, and `v` is counted: nobody else is -/
theorem countP_le_one {α : Type} (p : α → Bool) : ∀ (l : List α) (v w : Nat) (a b : α), l.countP p ≤ 1 → l[v]? = some a → p a = true →
    l[w]? = some b → p b = true → v = w := by
  intro l
  induction l with
  | nil => intro v w a b _ h; cases h
  | cons c l ih =>
    intro v w a b hc hv ha hw hb
    have pos : ∀ (i : Nat) (y : α), l[i]? = some y → p y = true → 0 < l.countP p := by
      intro i y hy hp
      exact List.countP_pos_iff.mpr ⟨y, List.mem_of_getElem? hy, hp⟩
    rw [List.countP_cons] at hc
    cases v with
    | zero =>
      cases w with
      | zero => rfl
      | succ w =>
        simp only [List.getElem?_cons_zero, Option.some.injEq] at hv
        simp only [List.getElem?_cons_succ] at hw
        have := pos w b hw hb
        rw [hv, ha] at hc
        simp only [↓reduceIte] at hc; omega
    | succ v =>
      cases w with
      | zero =>
        simp only [List.getElem?_cons_zero, Option.some.injEq] at hw
        simp only [List.getElem?_cons_succ] at hv
        have := pos v a hv ha
        rw [hw, hb] at hc
        simp only [↓reduceIte] at hc; omega
      | succ w =>
        simp only [List.getElem?_cons_succ] at hv hw
        rw [ih v w a b (by omega) hv ha hw hb]

theorem sole {s : State} {v w : Nat} {x y : Var} (hc : refCount s x.body ≤ 1) (hv : s.vars[v]? = some (some x))
    (hw : s.vars[w]? = some (some y)) (he : y.body = x.body) : w = v := by
  unfold refCount at hc
  refine (countP_le_one _ s.vars v w _ _ (Nat.le_trans (Nat.le_add_right _ _) hc) hv ?_ hw ?_).symm
  · simp [holds]
  · simp [holds, he]

/-- changing a variable's body in place, when nobody else has it -/
theorem frame_putStr {s s' : State} (h : Ids s) (v : Nat) (x : Var) (σ : Str) (hv : getVar s v = .ok x) (hc : refCount s x.body ≤ 1)
    (hp : putStr s v σ = .ok s') : Frame s s' (fun w => w = v) := by
  have hvx := getVar_eq hv
  unfold putStr at hp
  rw [hv, res_bind_ok] at hp
  cases hp
  have hxb := h v x hvx
  have hids : Ids (setBody s x.body σ.b) := by
    intro w y hw
    have := h w y hw
    simpa [setBody] using this
  have h2 := frame_setVar hids v ⟨x.body, σ.off, σ.num, σ.mark⟩ (by simpa [setBody] using hxb)
  refine ⟨h2.ids, by simp [setVar, setBody], by simp [setVar, setBody], fun w hw hne => ?_⟩
  have e : (setVar (setBody s x.body σ.b) v ⟨x.body, σ.off, σ.num, σ.mark⟩).vars[w]? = s.vars[w]? := by
    simp only [setVar, setBody]; rw [List.getElem?_set_ne (by omega)]
  refine ⟨fun h' => by rw [e]; exact h', fun y hy => ⟨y, by rw [e]; exact hy, rfl, rfl, rfl, fun b hb => ⟨b, ?_, rfl⟩⟩⟩
  have hyb : y.body ≠ x.body := fun he => hne (sole hc hvx hy he)
  simp only [setVar, setBody]
  rw [List.getElem?_set_ne (by omega)]; exact hb

theorem frame_unshare {s s' : State} (h : Ids s) (v : Nat) (hu : unshare s v = .ok s') : Frame s s' (fun w => w = v) := by
  unfold unshare at hu
  obtain ⟨x, -, hu⟩ := hbind hu
  obtain ⟨σ, -, hu⟩ := hbind hu
  obtain ⟨m, -, hu⟩ := hbind hu
  split at hu
  · obtain ⟨σ', -, hu⟩ := hbind hu
    cases hu
    exact frame_ownStr h v σ'
  · cases hu
    exact Frame.refl h _

theorem null_lt {s : State} (h0 : 0 < s.bodies.length) : (⟨0, 0, 0, ⟨0, 0⟩⟩ : Var).body < s.bodies.length := h0

theorem frame_newEmpty {s : State} (h : Ids s) (h0 : 0 < s.bodies.length) : Frame s (newEmpty s) (fun _ => False) :=
  frame_newVar h _ h0

theorem frame_newNull {s s' : State} (h : Ids s) (h0 : 0 < s.bodies.length) (hu : newNull s = .ok s') : Frame s s' (fun _ => False) := by
  have h1 := frame_newEmpty h h0
  have h2 := frame_unshare h1.ids _ hu
  exact (h1.trans h2).weaken (by intro w hw hT; rcases hT with hT | hT; exact hT; omega)

theorem frame_newData {s s' : State} (h : Ids s) (h0 : 0 < s.bodies.length) (mem : List Byte) (p l a : Nat)
    (hu : newData s mem p l a = .ok s') : Frame s s' (fun _ => False) := by
  unfold newData at hu
  split at hu
  · cases hu; exact frame_newEmpty h h0
  · obtain ⟨b, -, hu⟩ := hbind hu
    obtain ⟨σ, -, hu⟩ := hbind hu
    cases hu; exact frame_newStr h σ

theorem frame_newStatic {s s' : State} (h : Ids s) (d : List Byte) (hu : newStatic s d = .ok s') : Frame s s' (fun _ => False) := by
  unfold newStatic at hu
  obtain ⟨σ, -, hu⟩ := hbind hu
  cases hu; exact frame_newStr h σ

theorem frame_assign {s s' : State} (h : Ids s) (v w : Nat) (hu : assign s v w = .ok s') : Frame s s' (fun i => i = v) := by
  unfold assign at hu
  obtain ⟨x, -, hu⟩ := hbind hu
  obtain ⟨y, hy, hu⟩ := hbind hu
  cases hu
  exact frame_setVar h v y (h w y (getVar_eq hy))

theorem frame_destroy {s s' : State} (h : Ids s) (v : Nat) (hu : destroy s v = .ok s') : Frame s s' (fun i => i = v) := by
  unfold destroy at hu
  obtain ⟨x, -, hu⟩ := hbind hu
  cases hu
  refine ⟨?_, Nat.le_refl _, by simp, fun w hw hne => ?_⟩
  · intro w y hw
    simp only [List.getElem?_set] at hw
    split at hw
    · split at hw <;> cases hw
    · exact h w y hw
  · have e : (s.vars.set v none)[w]? = s.vars[w]? := List.getElem?_set_ne (by omega)
    exact ⟨fun h' => by rw [← h']; exact e, fun y hy => ⟨y, by rw [← hy]; exact e, rfl, rfl, rfl, fun b hb => ⟨b, hb, rfl⟩⟩⟩

theorem insertOwn_rc {rc : Nat} {σ σ' : Str} {pos : Nat} {ab : List Byte} {an : Nat} (h : σ.insertOwn rc pos ab an = .ok σ') : rc ≤ 1 := by
  unfold Str.insertOwn at h
  obtain ⟨r, -, h⟩ := hbind h
  simp only at h
  obtain ⟨r', -, h⟩ := hbind h
  obtain ⟨a, -, h⟩ := hbind h
  obtain ⟨z, -, h⟩ := hbind h
  obtain ⟨arr, h1, -⟩ := hbind h
  unfold Arr.Body.insert at h1
  obtain ⟨u, h1, -⟩ := hbind h1
  unfold assert at h1
  split at h1
  · rename_i hc; simpa using hc
  · cases h1

theorem frame_insert {s s' : State} (h : Ids s) (v pos w : Nat) (hu : insert s v pos w = .ok s') : Frame s s' (fun i => i = v) := by
  unfold insert at hu
  obtain ⟨x, hx, hu⟩ := hbind hu
  obtain ⟨y, hy, hu⟩ := hbind hu
  split at hu
  · cases hu
    exact frame_setVar h v _ (h v x (getVar_eq hx))
  · obtain ⟨s1, hs1, hu⟩ := hbind hu
    split at hu
    · cases hu
    · obtain ⟨x1, hx1, hu⟩ := hbind hu
      obtain ⟨σ, -, hu⟩ := hbind hu
      obtain ⟨τ, -, hu⟩ := hbind hu
      obtain ⟨ab, -, hu⟩ := hbind hu
      obtain ⟨σ', hi, hu⟩ := hbind hu
      have h1 := frame_unshare h v hs1
      have h2 := frame_putStr h1.ids v x1 σ' hx1 (insertOwn_rc hi) hu
      exact (h1.trans h2).weaken (by simp)

theorem frame_addEq {s s' : State} (h : Ids s) (v w : Nat) (hu : addEq s v w = .ok s') : Frame s s' (fun i => i = v) := by
  unfold addEq at hu
  obtain ⟨x, -, hu⟩ := hbind hu
  obtain ⟨y, -, hu⟩ := hbind hu
  obtain ⟨b, -, hu⟩ := hbind hu
  split at hu
  · exact frame_assign h v w hu
  · exact frame_insert h v _ w hu

theorem frame_plus {s s' : State} (h : Ids s) (h0 : 0 < s.bodies.length) (v w : Nat) (hu : plus s v w = .ok s') :
    Frame s s' (fun _ => False) := by
  unfold plus at hu
  obtain ⟨x, hx, hu⟩ := hbind hu
  obtain ⟨y, hy, hu⟩ := hbind hu
  split at hu
  · cases hu
    exact frame_newVar h _ (h v x (getVar_eq hx))
  · obtain ⟨σ, -, hu⟩ := hbind hu
    obtain ⟨τ, -, hu⟩ := hbind hu
    obtain ⟨cp, -, hu⟩ := hbind hu
    obtain ⟨cp', -, hu⟩ := hbind hu
    obtain ⟨len, -, hu⟩ := hbind hu
    obtain ⟨al, -, hu⟩ := hbind hu
    obtain ⟨s1, hs1, hu⟩ := hbind hu
    have h1 := frame_newData h h0 _ _ _ _ hs1
    have h2 := frame_addEq h1.ids _ w hu
    exact (h1.trans h2).weaken (by intro w hw hT; rcases hT with hT | hT; exact hT; omega)

theorem frame_substr {s s' : State} (h : Ids s) (h0 : 0 < s.bodies.length) (w a : Nat) (l : Int) (hu : substr s w a l = .ok s') :
    Frame s s' (fun _ => False) := by
  unfold substr at hu
  obtain ⟨x, hx, hu⟩ := hbind hu
  split at hu
  · exact frame_newNull h h0 hu
  · cases hu
    exact frame_newVar h _ (h w x (getVar_eq hx))

theorem frame_timesLoop {r v : Nat} : ∀ (n : Nat) {s s' : State}, Ids s → timesLoop s r v n = .ok s' → Frame s s' (fun i => i = r) := by
  intro n
  induction n with
  | zero => intro s s' h hu; cases hu; exact Frame.refl h _
  | succ n ih =>
    intro s s' h hu
    unfold timesLoop at hu
    obtain ⟨s1, hs1, hu⟩ := hbind hu
    have h1 := frame_addEq h r v hs1
    exact (h1.trans (ih h1.ids hu)).weaken (by simp)

theorem frame_times {s s' : State} (h : Ids s) (h0 : 0 < s.bodies.length) (v : Nat) (n : Int) (hu : times s v n = .ok s') :
    Frame s s' (fun _ => False) := by
  unfold times at hu
  obtain ⟨x, hx, hu⟩ := hbind hu
  obtain ⟨σ, -, hu⟩ := hbind hu
  obtain ⟨r, -, hu⟩ := hbind hu
  obtain ⟨r', -, hu⟩ := hbind hu
  have hxe := getVar_eq hx
  have hxb := h v x hxe
  have hvl := get_lt hxe
  have h1 : Frame s (setVar s v { x with mark := r'.1.mark }) (fun _ => False) := by
    have hf := frame_setVar h v { x with mark := r'.1.mark } hxb
    refine ⟨hf.ids, hf.bl, hf.vl, fun w hw _ => ?_⟩
    by_cases hwv : w = v
    · subst hwv
      refine ⟨fun h' => (by rw [hxe] at h'; cases h'), fun y hy => ?_⟩
      rw [hxe] at hy
      cases hy
      exact ⟨{ x with mark := r'.1.mark }, by simp [setVar, hvl], rfl, rfl, rfl, fun b hb => ⟨b, hb, rfl⟩⟩
    · exact hf.same w hw hwv
  have h2 := frame_newEmpty h1.ids (by simpa [setVar] using h0)
  have h3 := frame_timesLoop _ h2.ids hu
  exact ((h1.trans h2).trans h3).weaken (by
    intro w hw hT
    rcases hT with (hT | hT) | hT
    · exact hT
    · exact hT
    · omega)

theorem transform_rc {S : Type} {x : XForm S} {st : S} {rc : Nat} {b : SBody} {a : Int} {r : S × SBody}
    (h : b.transform x st rc a = .ok r) : rc ≤ 1 := by
  unfold SBody.transform at h
  obtain ⟨u, h1, -⟩ := hbind h
  unfold assert at h1
  split at h1
  · rename_i hc; simpa using hc
  · cases h1

theorem frame_transform {S : Type} {s s' : State} (h : Ids s) (v : Nat) (x : XForm S) (st : S) (a : Int)
    (hu : transform s v x st a = .ok s') : Frame s s' (fun i => i = v) := by
  unfold transform at hu
  obtain ⟨s1, hs1, hu⟩ := hbind hu
  obtain ⟨y, hy, hu⟩ := hbind hu
  obtain ⟨σ, -, hu⟩ := hbind hu
  obtain ⟨r, hr, hu⟩ := hbind hu
  obtain ⟨σ', -, hu⟩ := hbind hu
  have h1 := frame_unshare h v hs1
  have h2 := frame_putStr h1.ids v y _ hy (transform_rc hr) hu
  exact (h1.trans h2).weaken (by simp)

theorem frame_toCase {s s' : State} (h : Ids s) (v : Nat) (conv : Int → UCS4 → Res (UCS4 × Option Int)) (m : Int)
    (hu : toCase s v conv m = .ok s') : Frame s s' (fun i => i = v) := by
  unfold toCase at hu
  obtain ⟨s1, hs1, hu⟩ := hbind hu
  obtain ⟨y, hy, hu⟩ := hbind hu
  obtain ⟨σ, -, hu⟩ := hbind hu
  obtain ⟨r, hr, hu⟩ := hbind hu
  obtain ⟨σ', -, hu⟩ := hbind hu
  unfold SBody.toCase at hr
  obtain ⟨q, hq, -⟩ := hbind hr
  have h1 := frame_unshare h v hs1
  have h2 := frame_putStr h1.ids v y _ hy (transform_rc hq) hu
  exact (h1.trans h2).weaken (by simp)

theorem frame_asUTF8 {s s' : State} (h : Ids s) (v : Nat) (hu : asUTF8 s v = .ok s') : Frame s s' (fun i => i = v) := by
  unfold asUTF8 at hu
  obtain ⟨σ, -, hu⟩ := hbind hu
  obtain ⟨r, -, hu⟩ := hbind hu
  split at hu
  · obtain ⟨σ', -, hu⟩ := hbind hu
    cases hu
    exact frame_ownStr h v σ'
  · cases hu; exact Frame.refl h _

theorem frame_addEqChar {s s' : State} (h : Ids s) (v : Nat) (c : UCS4) (hu : addEqChar s v c = .ok s') : Frame s s' (fun i => i = v) := by
  unfold addEqChar at hu
  obtain ⟨s1, hs1, hu⟩ := hbind hu
  obtain ⟨s2, hs2, hu⟩ := hbind hu
  have h1 := frame_newStatic h _ hs1
  have h2 := frame_addEq h1.ids v _ hs2
  have h3 := frame_destroy h2.ids _ hu
  exact ((h1.trans h2).trans h3).weaken (by
    intro w hw hT
    rcases hT with (hT | hT) | hT
    · exact hT.elim
    · exact hT
    · omega)

theorem frame_joinLoop {r j : Nat} : ∀ (ws : List Nat) {s s' : State}, Ids s → 0 < s.bodies.length → joinLoop s r j ws = .ok s' →
    Frame s s' (fun i => i = r) := by
  intro ws
  induction ws with
  | nil => intro s s' h _ hu; cases hu; exact Frame.refl h _
  | cons w ws ih =>
    intro s s' h h0 hu
    unfold joinLoop at hu
    simp only at hu
    obtain ⟨s1, hs1, hu⟩ := hbind hu
    obtain ⟨s2, hs2, hu⟩ := hbind hu
    obtain ⟨s3, hs3, hu⟩ := hbind hu
    have h1 := frame_plus h h0 j w hs1
    have h2 := frame_addEq h1.ids r _ hs2
    have h3 := frame_destroy h2.ids _ hs3
    have h123 := (h1.trans h2).trans h3
    have h4 := ih h3.ids (Nat.lt_of_lt_of_le h0 h123.bl) hu
    exact (h123.trans h4).weaken (by
      intro w hw hT
      rcases hT with ((hT | hT) | hT) | hT
      · exact hT.elim
      · exact hT
      · omega
      · exact hT)

theorem frame_join {s s' : State} (h : Ids s) (h0 : 0 < s.bodies.length) (j : Nat) (ws : List Nat) (hu : join s j ws = .ok s') :
    Frame s s' (fun _ => False) := by
  cases ws with
  | nil => unfold join at hu; cases hu; exact frame_newEmpty h h0
  | cons w ws =>
    unfold join at hu
    simp only at hu
    obtain ⟨x, hx, hu⟩ := hbind hu
    obtain ⟨s1, hs1, hu⟩ := hbind hu
    obtain ⟨σ, -, hu⟩ := hbind hu
    obtain ⟨cp, -, hu⟩ := hbind hu
    obtain ⟨cp', -, hu⟩ := hbind hu
    obtain ⟨n, -, hu⟩ := hbind hu
    obtain ⟨s2, hs2, hu⟩ := hbind hu
    obtain ⟨s3, hs3, hu⟩ := hbind hu
    have f0 := frame_newVar h ⟨x.body, x.off, x.num, ⟨0, 0⟩⟩ (h w x (getVar_eq hx))
    have f1 := frame_asUTF8 f0.ids _ hs1
    have f01 := f0.trans f1
    have f2 := frame_newData f1.ids (Nat.lt_of_lt_of_le h0 f01.bl) _ _ _ _ hs2
    have f012 := f01.trans f2
    have f3 := frame_joinLoop ws f2.ids (Nat.lt_of_lt_of_le h0 f012.bl) hs3
    have f4 := frame_destroy f3.ids _ hu
    exact ((f012.trans f3).trans f4).weaken (by
      intro w hw hT
      rcases hT with (((hT | hT) | hT) | hT) | hT <;> first | exact hT.elim | omega)

theorem frame_newChar {s s' : State} (h : Ids s) (c : UCS4) (hu : newChar s c = .ok s') : Frame s s' (fun _ => False) := by
  unfold newChar at hu
  obtain ⟨b, -, hu⟩ := hbind hu
  cases hu; exact frame_newStr h _

theorem frame_newC {s s' : State} (h : Ids s) (h0 : 0 < s.bodies.length) (mem : List Byte) (hu : newC s mem = .ok s') :
    Frame s s' (fun _ => False) := by
  unfold newC at hu
  obtain ⟨c, -, hu⟩ := hbind hu
  split at hu
  · cases hu; exact frame_newEmpty h h0
  · obtain ⟨b, -, hu⟩ := hbind hu
    obtain ⟨σ, -, hu⟩ := hbind hu
    cases hu; exact frame_newStr h σ

theorem frame_copy {s s' : State} (h : Ids s) (w : Nat) (hu : copy s w = .ok s') : Frame s s' (fun _ => False) := by
  unfold copy at hu
  obtain ⟨x, hx, hu⟩ := hbind hu
  obtain ⟨b, -, hu⟩ := hbind hu
  simp only at hu
  have f0 := frame_newVar h ⟨x.body, x.off, x.num, ⟨0, 0⟩⟩ (h w x (getVar_eq hx))
  split at hu
  · have f1 := frame_unshare f0.ids _ hu
    exact (f0.trans f1).weaken (by intro w hw hT; rcases hT with hT | hT; exact hT; omega)
  · cases hu; exact f0

/-- The variables a call may change, besides making new ones -/
def targets {S : Type} : Op S → Nat → Prop
  | .assign v _, w | .destroy v, w | .addEq v _, w | .addEqChar v _, w | .insert v _ _, w | .asUTF8 v, w | .toLower v _, w
  | .toUpper v _, w | .transform v _ _ _, w => w = v
  | _, _ => False

theorem frame_exec {S : Type} {s s' : State} (h : Ids s) (h0 : 0 < s.bodies.length) (op : Op S) (hu : exec s op = .ok s') :
    Frame s s' (targets op) := by
  cases op with
  | default => cases hu; exact frame_newEmpty h h0
  | ofC mem => exact frame_newC h h0 mem hu
  | ofData mem l a => exact frame_newData h h0 mem 0 l a hu
  | ofChar c => exact frame_newChar h c hu
  | ofStatic d => exact frame_newStatic h d hu
  | copy w => exact frame_copy h w hu
  | assign v w => exact frame_assign h v w hu
  | destroy v => exact frame_destroy h v hu
  | substr w a l => exact frame_substr h h0 w a l hu
  | head w n => exact frame_substr h h0 w _ _ hu
  | tail w n => simp only [exec, tail] at hu; obtain ⟨x, -, hu⟩ := hbind hu; exact frame_substr h h0 w _ _ hu
  | shorter w n => simp only [exec, shorter] at hu; obtain ⟨x, -, hu⟩ := hbind hu; exact frame_substr h h0 w _ _ hu
  | plus v w => exact frame_plus h h0 v w hu
  | addEq v w => exact frame_addEq h v w hu
  | addEqChar v c => exact frame_addEqChar h v c hu
  | insert v p w => exact frame_insert h v p w hu
  | times v n => exact frame_times h h0 v n hu
  | asUTF8 v => exact frame_asUTF8 h v hu
  | toLower v m => exact frame_toCase h v _ m hu
  | toUpper v m => exact frame_toCase h v _ m hu
  | transform v x st a => exact frame_transform h v x st a hu
  | join j ws => exact frame_join h h0 j ws hu

end Strpp.SV
