import Verif.Model.ArrDelete
import Verif.Props.ArrayExact
/-! C103: what `delete_if` does. -/
namespace Strpp.Arr

variable {E : Type} [Inhabited E]

theorem deleteLoop_spec (cond : E → Bool) (shared : Bool) (mem : List E) : ∀ (n i : Nat) (bp : Int), 0 ≤ bp → i + n ≤ mem.length →
    (shared = true ∧ ((mem.drop i).take n).any cond = true ∧ deleteLoop cond shared mem i n bp = .error .ub) ∨
    ((shared = false ∨ ((mem.drop i).take n).any cond = false) ∧ ∃ r, 0 ≤ r ∧ deleteLoop cond shared mem i n bp = .ok r)
  | 0, i, bp => fun h0 hle => Or.inr ⟨Or.inr (by simp), bp, h0, rfl⟩
  | n + 1, i, bp => fun h0 hle => by
    obtain ⟨y, h1, -⟩ := readable (num := n) (by omega : i + n + 1 ≤ mem.length)
    have hd : (mem.drop i).take (n + 1) = y :: (mem.drop (i + 1)).take n := by
      have hi : i < mem.length := by omega
      have hy : mem[i] = y := by
        unfold rd at h1
        rw [List.getElem?_eq_getElem hi] at h1
        exact Except.ok.inj h1
      rw [List.drop_eq_getElem_cons hi, List.take_succ_cons, hy]
    rw [deleteLoop, h1, res_bind_ok, hd, List.any_cons]
    by_cases hc : cond y = true
    · rw [if_pos hc, hc]
      cases shared with
      | true => exact Or.inl ⟨rfl, by simp, rfl⟩
      | false =>
        rcases deleteLoop_spec cond false mem n (i + 1) (bp - 1 + 1) (by omega) (by omega) with ⟨g, -⟩ | ⟨-, g⟩
        · cases g
        · exact Or.inr ⟨Or.inl rfl, g⟩
    · rw [if_neg hc]
      have hc' : cond y = false := by simpa using hc
      rw [hc', Bool.false_or]
      exact deleteLoop_spec cond shared mem n (i + 1) (bp + 1) (by omega) (by omega)

theorem setVar_self {s : State E} {v : Nat} {sl : Slice} (h : s.vars[v]? = some (some sl)) : setVar s v sl = s := by
  unfold setVar
  have hl := lt_of_get h
  have : s.vars.set v (some sl) = s.vars := by
    apply List.ext_getElem?
    intro i
    rw [get_set_if _ _ _ _ hl]
    split
    · rename_i e; subst e; exact h.symm
    · rfl
  rw [this]

/-- C103. `delete_if` deletes nothing: it leaves every variable and every storage as it was if no element satisfies the
condition or the variable is alone with its storage, and in every other case its behaviour is undefined. -/
theorem C103_delete_if {before : List (Op E)} {s : State E} (hs : Runs State.init before s) {v : Nat} {l : List E}
    (hv : view s v = some l) (cond : E → Bool) :
    ((∀ x ∈ l, cond x = false) ∨ Alone s v → deleteWhere cond s v = .ok s) ∧
    ((∃ x ∈ l, cond x = true) ∧ ¬ Alone s v → deleteWhere cond s v = .error .ub) := by
  have h := runs_wf hs
  obtain ⟨sl, hsl, rfl⟩ := view_var hv
  have hlen := contents_length h hsl
  unfold deleteWhere
  rw [getVar_ok hsl, res_bind_ok]
  by_cases h0 : sl.num = 0
  · rw [if_pos (by simpa using h0)]
    refine ⟨fun _ => rfl, fun ⟨⟨x, hx, _⟩, _⟩ => ?_⟩
    rw [List.eq_nil_of_length_eq_zero (by omega : (contents s sl).length = 0)] at hx
    exact nomatch hx
  · rw [if_neg (by simpa using h0)]
    have hok := h.vars v sl hsl
    unfold SliceOk at hok
    cases hb : sl.body with
    | none => rw [hb] at hok; exact absurd hok h0
    | some id =>
      rw [hb] at hok
      obtain ⟨x, hx, hle⟩ := hok
      have hxw := (h.bodies id x hx).le
      have hc : contents s sl = (x.mem.drop sl.off).take sl.num := by
        unfold contents; rw [hb]; simp only [hx]
      simp only [getBody, hx, res_bind_ok]
      have ha := alone_iff hsl hb hx
      rw [hc]
      rcases deleteLoop_spec cond (decide (refCount s id > 1)) x.mem sl.num sl.off 0 (by omega) (by omega) with ⟨g1, g2, g3⟩ | ⟨g1, r, g2, g3⟩
      · rw [g3]
        have hna : ¬ Alone s v := by
          intro hh
          have := ha.mp hh
          simp at g1; omega
        refine ⟨fun hh => ?_, fun _ => rfl⟩
        rcases hh with hh | hh
        · rw [List.any_eq_true] at g2
          obtain ⟨y, hy, hy2⟩ := g2
          rw [hh y hy] at hy2; cases hy2
        · exact absurd hh hna
      · rw [g3, res_bind_ok, if_neg (by omega)]
        have e : setVar s v ⟨some id, sl.off, sl.num⟩ = s := by
          rw [← hb]; exact setVar_self hsl
        rw [e]
        refine ⟨fun _ => rfl, fun ⟨⟨y, hy, hy2⟩, hna⟩ => ?_⟩
        exfalso
        rcases g1 with g1 | g1
        · apply hna
          apply ha.mpr
          simp at g1; exact g1
        · rw [List.any_eq_false] at g1
          exact absurd hy2 (by simpa using g1 y hy)

/-- what `delete_if` leaves of variable `v` after a history -/
def deleteAfter (ops : List (Op Nat)) (v : Nat) (cond : Nat → Bool) : Res (Option (List Nat)) := do
  let s ← execAll State.init ops
  let s ← deleteWhere cond s v
  .ok (view s v)

/-- All three cases occur: the even elements are not deleted, and if there is a copy the behaviour is undefined. -/
example : deleteAfter [.ofData [1, 2, 3, 4] 0] 0 (fun x => x % 2 == 0) = .ok (some [1, 2, 3, 4]) ∧
    deleteAfter [.ofData [1, 2, 3, 4] 0, .copy 0] 1 (fun x => x % 2 == 0) = .error .ub ∧
    deleteAfter [.ofData [1, 2, 3, 4] 0, .copy 0] 1 (fun x => x == 7) = .ok (some [1, 2, 3, 4]) := by decide

end Strpp.Arr
