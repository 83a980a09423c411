import Verif.Model.ArrCost
import Verif.Props.ArrayExact
/-! Proofs about the cost of building up an array (C101). -/
set_option linter.unusedSimpArgs false
set_option linter.unusedVariables false
set_option linter.unusedSectionVars false
namespace Strpp.Arr

variable {E : Type} [Inhabited E]

/-- Growing takes at least half as much again. -/
theorem newAlloc_grows (a m : Nat) (h1 : a < m) (h2 : m ≤ 1073741824) : m ≤ newAlloc a m ∧ 3 * a ≤ 2 * newAlloc a m := by
  have o1 : m - 1 ≤ (m - 1) ||| 7 := Nat.left_le_or
  have o2 : (m - 1) ||| 7 < 2 ^ 31 := Nat.or_lt_two_pow (by omega) (by omega)
  have e1 : a * 3 % 4294967296 = a * 3 := Nat.mod_eq_of_lt (by omega)
  have o3 : a * 3 / 2 ≤ a * 3 / 2 ||| 15 := Nat.left_le_or
  have o4 : a * 3 / 2 ||| 15 < 2 ^ 31 := Nat.or_lt_two_pow (by omega) (by omega)
  unfold newAlloc
  simp only [e1]
  by_cases h0 : a = 0
  · subst h0
    simp only [ne_eq, not_true_eq_false, if_false]
    split <;> omega
  · rw [if_pos h0]
    split <;> omega

theorem insert_alloc {b b' : Body E} {rc pos : Nat} {e : E} (h : b.insert rc pos [e] = .ok b') (hc : b.num + 1 ≤ 2147483647) :
    b'.alloc = if b.num + 1 ≤ b.alloc then b.alloc else newAlloc b.alloc (b.num + 1) := by
  have hw : wrap (((b.num : Nat) : Int) + (([e] : List E).length : Nat)) = b.num + 1 := by
    unfold wrap; simp only [List.length_cons, List.length_nil]; omega
  unfold Body.insert at h
  obtain ⟨u1, -, h⟩ := hbind h
  rw [if_neg (by simp)] at h
  obtain ⟨u2, -, h⟩ := hbind h
  simp only [hw] at h
  obtain ⟨u3, -, h⟩ := hbind h
  obtain ⟨b1, g1, h⟩ := hbind h
  obtain ⟨m1, -, h⟩ := hbind h
  obtain ⟨m2, -, h⟩ := hbind h
  cases h
  simp only
  unfold Body.resize at g1
  split at g1
  · cases g1; rw [if_pos (by assumption)]
  · rename_i hn
    rw [if_neg hn]
    split at g1
    · cases g1
    · obtain ⟨old, -, g1⟩ := hbind g1
      obtain ⟨mem, -, g1⟩ := hbind g1
      cases g1
      rfl

/-- Variable `v` shows all of a storage `x` that it is alone in. -/
structure Whole (s : State E) (v : Nat) (x : Body E) : Prop where
  wf : WF s
  sl : ∃ sl id, s.vars[v]? = some (some sl) ∧ sl.body = some id ∧ sl.off = 0 ∧ sl.num = x.num ∧ s.bodies[id]? = some x ∧ refCount s id ≤ 1
  own : x.static = false

/-- what pushes that come are spared: three for each element there is, but two for each there is room for -/
def debt (x : Body E) : Nat := 3 * x.num - 2 * x.alloc

theorem push_whole {s : State E} {v : Nat} {x : Body E} (h : Whole s v x) (e : E) (hc : x.num + 1 ≤ 1073741824) :
    ∃ s' x', exec s (.push v e) = .ok s' ∧ Whole s' v x' ∧ x'.elems = x.elems ++ [e] ∧ x'.num = x.num + 1 ∧
      pushCost s v + debt x' ≤ debt x + 4 ∧ ∀ w, w ≠ v → view s' w = view s w := by
  obtain ⟨hwf, ⟨sl, id, hv, hb, ho, hn, hx, hrc⟩, hown⟩ := h
  have hxwf := hwf.bodies id x hx
  have hun : unshare s v 1 = .ok s := by
    unfold unshare
    rw [getVar_ok hv, res_bind_ok, hb]
    simp [hrc]
  have huc : unshareCost s v = 0 := by
    unfold unshareCost
    rw [getVar_ok hv]
    simp [hb, hrc]
  obtain ⟨b, b1, b2, b3, b4, b5⟩ := insert_spec x hxwf hown (refCount s id) hrc sl.num (by omega) [e] (by simp; omega)
  have ha := insert_alloc b1 (by omega)
  have hm := mutate_spec (sl' := { sl with num := sl.num + 1 }) hwf hv hb hrc b2 (lt_of_get hx) hb (by simp only; rw [b4]; simp; omega)
  have halone := alone_of_refCount hv hb hrc
  refine ⟨setVar (setBody s id b) v { sl with num := sl.num + 1 }, b, ?_, ⟨hm.1, ⟨{ sl with num := sl.num + 1 }, id, ?_, hb, ho, ?_, ?_, ?_⟩, b3⟩, ?_, ?_, ?_, hm.2.1⟩
  · simp only [exec]
    unfold push
    rw [hun, res_bind_ok, getVar_ok hv, res_bind_ok]
    simp only [hb, getBody, hx, res_bind_ok, b1]
  · simp [setVar, setBody, lt_of_get hv]
  · simp only; rw [b4, hn]; rfl
  · simp [setVar, setBody, lt_of_get hx]
  · refine (alone_iff (s := setVar (setBody s id b) v { sl with num := sl.num + 1 }) (v := v) (sl := { sl with num := sl.num + 1 }) (x := b)
      (by simp [setVar, setBody, lt_of_get hv]) hb (by simp [setVar, setBody, lt_of_get hx])).mp ?_
    refine ⟨{ sl with num := sl.num + 1 }, id, b, by simp [setVar, setBody, lt_of_get hv], hb, by simp [setVar, setBody, lt_of_get hx], b3,
      fun w sl' hw hw' => ?_⟩
    have h1 : s.vars[w]? = some (some sl') := by
      simp only [setVar, setBody] at hw'
      rw [List.getElem?_set_ne (fun e => hw e.symm)] at hw'
      exact hw'
    exact halone.1 w sl' h1 hw
  · rw [b5]
    have hlen := hxwf.length
    rw [List.take_of_length_le (by omega), List.drop_of_length_le (by omega), List.append_nil]
  · rw [b4]; rfl
  · have hcost : pushCost s v = x.insertCost sl.num 1 := by
      unfold pushCost
      simp only [huc, hun, getVar_ok hv, hb, getBody, hx, Nat.zero_add]
    rw [hcost]
    unfold Body.insertCost Body.resizeCost debt
    rw [if_neg (by decide), ha, b4, hn]
    have hal := hxwf.alloc hown
    have hle := hxwf.le
    simp only [List.length_cons, List.length_nil]
    by_cases hr : x.num + 1 ≤ x.alloc
    · rw [if_pos hr, if_pos hr]; omega
    · rw [if_neg hr, if_neg hr]
      have hg := newAlloc_grows x.alloc (x.num + 1) (by omega) (by omega)
      omega

theorem whole_cost {s : State E} {v : Nat} {x : Body E} (h : Whole s v x) : 1 ≤ pushCost s v := by
  obtain ⟨hwf, ⟨sl, id, hv, hb, ho, hn, hx, hrc⟩, hown⟩ := h
  have hun : unshare s v 1 = .ok s := by
    unfold unshare
    rw [getVar_ok hv, res_bind_ok, hb]
    simp [hrc]
  have hcost : pushCost s v = unshareCost s v + x.insertCost sl.num 1 := by
    unfold pushCost
    simp only [hun, getVar_ok hv, hb, getBody, hx, Nat.zero_add]
  rw [hcost]
  unfold Body.insertCost
  rw [if_neg (by decide)]
  omega

theorem pushes_whole : ∀ (es : List E) {s : State E} {v : Nat} {x : Body E}, Whole s v x → x.num + es.length ≤ 1073741824 →
    ∃ s' x', execAll s (es.map (.push v)) = .ok s' ∧ Whole s' v x' ∧ x'.elems = x.elems ++ es ∧
      pushesCost s v es + debt x' ≤ debt x + 4 * es.length ∧ ∀ w, w ≠ v → view s' w = view s w
  | [], s, v, x => fun h _ => ⟨s, x, rfl, h, by simp, by simp [pushesCost], fun _ _ => rfl⟩
  | e :: es, s, v, x => fun h hc => by
    simp only [List.length_cons] at hc
    obtain ⟨s1, x1, a1, a2, a3, a4, a5, a6⟩ := push_whole h e (by omega)
    obtain ⟨s2, x2, b1, b2, b3, b4, b5⟩ := pushes_whole es a2 (by omega)
    refine ⟨s2, x2, ?_, b2, ?_, ?_, fun w hw => by rw [b5 w hw, a6 w hw]⟩
    · show (exec s (.push v e) >>= fun s => execAll s (es.map (.push v))) = _
      rw [a1, res_bind_ok]; exact b1
    · rw [b3, a3]; simp
    · simp only [pushesCost, a1, List.length_cons]
      omega

theorem Whole.view {s : State E} {v : Nat} {x : Body E} (h : Whole s v x) : view s v = some x.elems := by
  obtain ⟨hwf, ⟨sl, id, hv, hb, ho, hn, hx, hrc⟩, hown⟩ := h
  unfold Arr.view contents Body.elems
  rw [hv]
  simp only [hb, hx, ho, hn, List.drop_zero]

end Strpp.Arr
