import Verif.Proof.ArrayBody
import Verif.Spec.ArrPar
/-! The actions of an edit, one after the other, have the effect of the edit. -/
set_option linter.unusedSimpArgs false
set_option linter.unusedSectionVars false
set_option linter.unusedVariables false
namespace Strpp.ArrPar
open Arr (Body wrap)
open Spec

variable {E : Type} [Inhabited E]

/-- all the actions, on a body with a count of one -/
def runAll (b : Body E) : List (Micro E) → Res (Body E)
  | [] => .ok b
  | m :: ms => do
    let b ← m.run 1 b
    runAll b ms

theorem runAll_append (b : Body E) (ms ns : List (Micro E)) : runAll b (ms ++ ns) = (runAll b ms >>= fun b => runAll b ns) := by
  induction ms generalizing b with
  | nil => rfl
  | cons m ms ih =>
    simp only [List.cons_append, runAll]
    cases h : m.run 1 b with
    | error e => rfl
    | ok c => simp only [res_bind_ok]; exact ih c

theorem runAll_ups (pos n : Nat) (i : Nat) (b : Body E) (mem : List E) (h : Arr.moveUp b.mem pos n i = .ok mem) :
    runAll b (ups pos n i) = .ok { b with mem := mem } := by
  induction i generalizing b mem with
  | zero => cases h; rfl
  | succ i ih =>
    unfold Arr.moveUp at h
    unfold ups
    split at h
    · rename_i hc
      rw [if_pos hc]
      obtain ⟨x, hx, h⟩ := hbind h
      obtain ⟨mem', hm, h⟩ := hbind h
      show (Micro.run 1 b (.move i (i - n)) >>= fun b => runAll b (ups pos n i)) = _
      have : Micro.run 1 b (.move i (i - n)) = .ok { b with mem := mem' } := by
        simp only [Micro.run]; rw [hx, res_bind_ok, hm, res_bind_ok]
      rw [this, res_bind_ok, ih { b with mem := mem' } mem h]
    · rename_i hc
      rw [if_neg hc]
      cases h; rfl

theorem runAll_downs (len : Nat) (k : Nat) (i : Nat) (b : Body E) (mem : List E) (h : Arr.moveDown b.mem len i k = .ok mem) :
    runAll b (downs len i k) = .ok { b with mem := mem } := by
  induction k generalizing b mem i with
  | zero => cases h; rfl
  | succ k ih =>
    unfold Arr.moveDown at h
    obtain ⟨x, hx, h⟩ := hbind h
    obtain ⟨mem', hm, h⟩ := hbind h
    show (Micro.run 1 b (.move i (i + len)) >>= fun b => runAll b (downs len (i + 1) k)) = _
    have : Micro.run 1 b (.move i (i + len)) = .ok { b with mem := mem' } := by
      simp only [Micro.run]; rw [hx, res_bind_ok, hm, res_bind_ok]
    rw [this, res_bind_ok, ih (i + 1) { b with mem := mem' } mem h]

/-- a body and a shape that show a value -/
structure Shows (b : Body E) (sh : Shape) (x : Val E) : Prop where
  wf : b.WF
  owned : b.static = false
  front : x.front = true → sh.off = 0
  num : sh.num = x.items.length
  fits : sh.off + sh.num ≤ b.num
  items : x.items = (b.mem.drop sh.off).take sh.num

/-- the edit on plain lists -/
def Edit.apply (e : Edit E) (x : Val E) : Val E :=
  match e with
  | .set i e => ⟨x.items.set i e, x.front⟩
  | .push e => ⟨x.items ++ [e], x.front⟩
  | .remove i len => ⟨x.items.take i ++ x.items.drop (i + len), x.front⟩

/-- the edits that are made, on a body with `n` elements -/
def Edit.Ok (e : Edit E) (sh : Shape) (n : Nat) : Prop :=
  match e with
  | .set i _ => i < sh.num
  | .push _ => sh.off = 0 ∧ n + 1 ≤ 2147483647
  | .remove i len => sh.off = 0 ∧ 0 < i ∧ 0 < len ∧ i + len < sh.num

omit [Inhabited E] in
theorem take_elems {b : Body E} {off num : Nat} (h : off + num ≤ b.num) :
    (b.mem.drop off).take num = (b.elems.drop off).take num := by
  unfold Body.elems
  rw [List.drop_take, List.take_take]
  congr 1
  omega

theorem runAll_push {b b' : Body E} {num : Nat} {e : E} (h : b.insert 1 num [e] = .ok b') (hn : b.num + 1 ≤ 2147483647) (hp : num ≤ b.num) :
    runAll b (micros ⟨0, num⟩ b.num (.push e)) = .ok b' := by
  unfold Body.insert at h
  have e0 : (([e] : List E).length == 0) = false := rfl
  rw [e0] at h
  simp only [Bool.false_eq_true, if_false, List.length_singleton] at h
  have ew : wrap ((b.num : Int) + 1) = b.num + 1 := by unfold wrap; omega
  have ew' : wrap ((b.num : Int) + ((1 : Nat) : Int)) = b.num + 1 := by unfold wrap; omega
  simp only [Nat.le_refl, ew', hp, decide_true, assert_true, res_bind_ok, ge_iff_le, Nat.le_add_right] at h
  obtain ⟨b1, h1, h⟩ := hbind h
  obtain ⟨mem, h2, h⟩ := hbind h
  obtain ⟨mem', h3, h⟩ := hbind h
  cases h
  have hb1 : b1.num = b.num := by
    unfold Body.resize at h1
    split at h1
    · cases h1; rfl
    · split at h1
      · cases h1
      · obtain ⟨_, _, h1⟩ := hbind h1
        obtain ⟨_, _, h1⟩ := hbind h1
        cases h1; rfl
  have hm : runAll b1 (if b.num > num then ups num 1 (b.num + 1) else []) = .ok { b1 with mem := mem } := by
    unfold Arr.makeRoom at h2
    rw [hb1] at h2
    split at h2
    · rename_i hc
      rw [if_pos hc]
      exact runAll_ups _ _ _ _ _ h2
    · rename_i hc
      rw [if_neg hc]
      cases h2; rfl
  have h3' : Arr.wr mem num e = .ok mem' := by
    unfold Arr.copyIn Arr.copyIn at h3
    obtain ⟨m, h4, h5⟩ := hbind h3
    cases h5; exact h4
  simp only [micros]
  rw [List.append_assoc, runAll_append]
  have hfirst : runAll b [Micro.unique, .claim (decide (num ≤ b.num)), .claim (decide (wrap ((b.num : Int) + 1) ≥ b.num)), .grow (wrap ((b.num : Int) + 1))] = .ok b1 := by
    have h1' : decide ((1 : Int) ≤ 1) = true := rfl
    simp only [runAll, Micro.run, ew, h1', hp, Nat.le_add_right, ge_iff_le, decide_true, assert_true, res_bind_ok, h1]
  rw [hfirst, res_bind_ok, runAll_append, hm, res_bind_ok]
  simp only [runAll, Micro.run, h3', res_bind_ok, hb1]

theorem runAll_remove {b b' : Body E} {num at_ len : Nat} (h : b.remove 1 at_ len = .ok b') (hl : 0 < len) (hp : at_ < b.num) (hc : len ≤ 2147483647) (hb : b.num ≤ 2147483647) (hle : len ≤ b.num) :
    runAll b (micros ⟨0, num⟩ b.num (.remove at_ len)) = .ok b' := by
  unfold Body.remove at h
  have e0 : ((len : Int) == 0) = false := by rw [beq_eq_false_iff_ne]; omega
  have e1 : decide ((len : Int) ≥ -1) = true := by simp
  have e3 : ((len : Int) == -1) = false := by rw [beq_eq_false_iff_ne]; omega
  have e4 : wrap (len : Int) = len := by unfold wrap; omega
  have e2 : decide (at_ < b.num) = true := by simpa using hp
  simp only [Nat.le_refl, decide_true, e0, e1, e2, e3, assert_true, res_bind_ok, Bool.false_eq_true, if_false, e4] at h
  obtain ⟨mem, h1, h⟩ := hbind h
  cases h
  simp only [micros]
  rw [List.append_assoc, runAll_append]
  have hfirst : runAll b [Micro.unique, .claim (decide (at_ < b.num))] = .ok b := by
    simp only [runAll, Micro.run, hp, decide_true, assert_true, res_bind_ok]
    simp
  rw [hfirst, res_bind_ok, runAll_append, runAll_downs _ _ _ _ _ h1, res_bind_ok]
  rfl

/-- the actions of an edit give a body that shows the edited value -/
theorem runAll_edit {b : Body E} {sh : Shape} {x : Val E} (h : Shows b sh x) (e : Edit E) (he : e.Ok sh b.num) :
    ∃ b', runAll b (micros sh b.num e) = .ok b' ∧ Shows b' ⟨sh.off, newNum sh.num e⟩ (e.apply x) := by
  obtain ⟨off, num⟩ := sh
  have hwf := h.wf
  have hle := hwf.le
  have hcap := hwf.cap
  have hfit := h.fits
  have hnum := h.num
  have hit := h.items
  simp only at hfit hnum hit
  cases e with
  | set i e =>
    have hi : i < num := he
    refine ⟨{ b with mem := b.mem.set (off + i) e }, ?_, ?_⟩
    · simp only [micros, runAll, Micro.run]
      rw [Arr.wr_lt _ _ _ (by omega)]
      rfl
    · refine ⟨⟨by simpa using hle, fun hs => by simpa using hwf.alloc hs, hwf.static, hcap⟩, h.owned, h.front, ?_, hfit, ?_⟩
      · simp [Edit.apply, newNum, hnum]
      · simp only [Edit.apply, newNum]
        rw [hit]
        apply List.ext_getElem?
        intro k
        simp only [List.getElem?_set, List.getElem?_take, List.getElem?_drop, List.length_take, List.length_drop]
        by_cases hk : k < num
        · by_cases hik : i = k
          · subst hik
            rw [if_pos rfl, if_pos (by omega), if_pos hk, if_pos rfl, if_pos (by omega)]
          · rw [if_neg hik, if_pos hk, if_pos hk, if_neg (by omega)]
        · rw [if_neg (by omega), if_neg hk, if_neg hk]
  | push e =>
    obtain ⟨h0, hr⟩ := he
    simp only at h0
    subst h0
    obtain ⟨b', h1, h2, h3, h4, h5⟩ := Arr.insert_spec b hwf h.owned 1 (Nat.le_refl _) num (by omega) [e] hr
    refine ⟨b', runAll_push h1 hr (by omega), h2, h3, h.front, ?_, ?_, ?_⟩
    · simp [Edit.apply, newNum, hnum]
    · simp only [newNum, h4, List.length_singleton]; omega
    · simp only [Edit.apply, newNum, List.drop_zero]
      have e1 : b'.mem.take (num + 1) = b'.elems.take (num + 1) := by
        have := take_elems (b := b') (off := 0) (num := num + 1) (by rw [h4, List.length_singleton]; omega)
        simpa using this
      rw [e1, h5, hit]
      have e2 : b.mem.take num = b.elems.take num := by
        have := take_elems (b := b) (off := 0) (num := num) (by omega)
        simpa using this
      have e3 : (b.elems.take num).length = num := by
        rw [List.length_take, hwf.length]; omega
      rw [List.drop_zero, e2, List.take_append_of_le_length (by simp only [List.length_append, e3]; simp)]
      exact (List.take_of_length_le (by simp only [List.length_append, e3]; simp)).symm
  | remove i len =>
    obtain ⟨h0, hi, hl, hil⟩ := he
    simp only at h0 hil
    subst h0
    obtain ⟨b', h1, h2, h3, h4, h5⟩ := Arr.remove_spec b hwf h.owned 1 (Nat.le_refl _) i len hl (by omega)
    refine ⟨b', runAll_remove h1 hl (by omega) (by omega) hcap (by omega), h2, h3, h.front, ?_, ?_, ?_⟩
    · simp only [Edit.apply, newNum, List.length_append, List.length_take, List.length_drop]; omega
    · simp only [newNum, h4]; omega
    · simp only [Edit.apply, newNum, List.drop_zero]
      have e1 : b'.mem.take (num - len) = b'.elems.take (num - len) := by
        have := take_elems (b := b') (off := 0) (num := num - len) (by rw [h4]; omega)
        simpa using this
      have e2 : b.mem.take num = b.elems.take num := by
        have := take_elems (b := b) (off := 0) (num := num) (by omega)
        simpa using this
      have e3 : b.elems.length = b.num := hwf.length
      rw [e1, h5, hit, List.drop_zero, e2]
      apply List.ext_getElem?
      intro k
      simp only [List.getElem?_append, List.getElem?_take, List.getElem?_drop, List.length_take, e3]
      by_cases hk : k < i
      · rw [if_pos (by omega), if_pos hk, if_pos (by omega), if_pos (by omega), if_pos (by omega), if_pos hk]
      · rw [if_neg (by omega)]
        by_cases hk2 : k < num - len
        · rw [if_pos (by omega), if_pos hk2, if_neg (by omega)]
          congr 1; omega
        · rw [if_neg (by omega), if_neg hk2]

end Strpp.ArrPar
