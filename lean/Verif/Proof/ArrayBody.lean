import Verif.Model.Array
/-! Lemmas about ArrayBody. -/
namespace Strpp.Arr

variable {E : Type} [Inhabited E]

theorem readN_spec (mem : List E) (n : Nat) : ∀ p, p + n ≤ mem.length → readN mem p n = .ok ((mem.drop p).take n) := by
  induction n with
  | zero => intro p _; simp [readN]
  | succ n ih =>
    intro p h
    have hp : p < mem.length := by omega
    rw [readN, rd_lt mem p hp, res_bind_ok, ih (p + 1) (by omega), res_bind_ok]
    congr 1
    rw [List.drop_eq_getElem_cons hp, List.take_succ_cons]

theorem wr_lt {α : Type} (m : List α) (i : Nat) (x : α) (h : i < m.length) : wr m i x = .ok (m.set i x) := by
  simp [wr, h]

theorem copyIn_spec (es : List E) : ∀ (mem : List E) (pos : Nat), pos + es.length ≤ mem.length →
    copyIn mem pos es = .ok (mem.take pos ++ es ++ mem.drop (pos + es.length)) := by
  induction es with
  | nil => intro mem pos _; simp [copyIn]
  | cons e es ih =>
    intro mem pos h
    simp only [List.length_cons] at h
    rw [copyIn, wr_lt _ _ _ (by omega), res_bind_ok, ih _ _ (by simp; omega)]
    congr 1
    apply List.ext_getElem?
    intro k
    simp only [List.append_assoc, List.getElem?_append, List.length_take, List.length_set, List.getElem?_take,
      List.getElem?_drop, List.length_cons, List.cons_append]
    have e1 : min (pos + 1) mem.length = pos + 1 := by omega
    have e2 : min pos mem.length = pos := by omega
    rw [e1, e2]
    by_cases h1 : k < pos
    · rw [if_pos (by omega), if_pos (by omega), if_pos h1, if_pos h1, List.getElem?_set_ne (by omega)]
    · by_cases h2 : k = pos
      · subst h2
        rw [if_pos (by omega), if_pos (by omega), if_neg (by omega), List.getElem?_set_self (by omega)]
        simp
      · rw [if_neg (by omega), if_neg h1]
        have e3 : k - pos = (k - (pos + 1)) + 1 := by omega
        rw [e3, List.getElem?_cons_succ, List.getElem?_append]
        by_cases h3 : k - (pos + 1) < es.length
        · rw [if_pos h3, if_pos h3]
        · rw [if_neg h3, if_neg h3, List.getElem?_drop, List.getElem?_set_ne (by omega)]
          congr 1; omega

theorem moveUp_spec (pos n : Nat) (i : Nat) : ∀ (mem : List E), i ≤ mem.length →
    ∃ mem', moveUp mem pos n i = .ok mem' ∧ mem'.length = mem.length ∧
      ∀ k, mem'[k]? = if pos + n ≤ k ∧ k < i then mem[k - n]? else mem[k]? := by
  induction i with
  | zero => intro mem _; exact ⟨mem, rfl, rfl, fun k => by rw [if_neg (by omega)]⟩
  | succ i ih =>
    intro mem h
    unfold moveUp
    by_cases hc : i + 1 > pos + n
    · rw [if_pos hc, rd_lt _ _ (by omega : i - n < mem.length), res_bind_ok, wr_lt _ _ _ (by omega), res_bind_ok]
      obtain ⟨mem', h1, h2, h3⟩ := ih (mem.set i mem[i - n]) (by simp; omega)
      refine ⟨mem', h1, by simpa using h2, ?_⟩
      intro k
      rw [h3 k]
      by_cases hk : pos + n ≤ k ∧ k < i
      · rw [if_pos hk, if_pos (by omega), List.getElem?_set_ne (by omega)]
      · rw [if_neg hk]
        by_cases hk2 : k = i
        · subst hk2
          rw [if_pos (by omega)]
          have hlt : k - n < mem.length := by omega
          rw [List.getElem?_set_self (by omega), List.getElem?_eq_getElem hlt]
        · rw [if_neg (by omega), List.getElem?_set_ne (by omega)]
    · rw [if_neg hc]
      exact ⟨mem, rfl, rfl, fun k => by rw [if_neg (by omega)]⟩

theorem moveDown_spec (len : Nat) (k : Nat) : ∀ (mem : List E) (i : Nat), i + k + len ≤ mem.length →
    ∃ mem', moveDown mem len i k = .ok mem' ∧ mem'.length = mem.length ∧
      ∀ j, mem'[j]? = if i ≤ j ∧ j < i + k then mem[j + len]? else mem[j]? := by
  induction k with
  | zero => intro mem i _; exact ⟨mem, rfl, rfl, fun j => by rw [if_neg (by omega)]⟩
  | succ k ih =>
    intro mem i h
    unfold moveDown
    rw [rd_lt _ _ (by omega : i + len < mem.length), res_bind_ok, wr_lt _ _ _ (by omega), res_bind_ok]
    obtain ⟨mem', h1, h2, h3⟩ := ih (mem.set i mem[i + len]) (i + 1) (by simp; omega)
    refine ⟨mem', h1, by simpa using h2, ?_⟩
    intro j
    rw [h3 j]
    by_cases hj : i + 1 ≤ j ∧ j < i + 1 + k
    · rw [if_pos hj, if_pos (by omega), List.getElem?_set_ne (by omega)]
    · rw [if_neg hj]
      by_cases hj2 : j = i
      · subst hj2
        rw [if_pos (by omega)]
        have hlt : j + len < mem.length := by omega
        rw [List.getElem?_set_self (by omega), List.getElem?_eq_getElem hlt]
      · rw [if_neg (by omega), List.getElem?_set_ne (by omega)]

theorem newAlloc_spec (alloc minimum : Nat) (h1 : 1 ≤ minimum) (h2 : minimum ≤ 2147483647) :
    minimum ≤ newAlloc alloc minimum ∧ newAlloc alloc minimum < 4294967296 := by
  unfold newAlloc
  have a : minimum - 1 ≤ (minimum - 1) ||| 7 := Nat.left_le_or
  have b : (minimum - 1) ||| 7 < 2 ^ 31 := Nat.or_lt_two_pow (by omega) (by decide)
  simp only
  split
  · split <;> omega
  · split <;> omega

/-- a body whose storage matches its fields -/
structure Body.WF (b : Body E) : Prop where
  le : b.num ≤ b.mem.length
  alloc : b.static = false → b.mem.length = b.alloc
  static : b.static = true → b.alloc = 0
  cap : b.num ≤ 2147483647

/-- the elements of a body -/
def Body.elems (b : Body E) : List E := b.mem.take b.num

theorem Body.WF.length {b : Body E} (h : b.WF) : b.elems.length = b.num := by
  have := h.le; simp [Body.elems]; omega

theorem resize_spec (b : Body E) (h : b.WF) (hs : b.static = false) (m : Nat) (hm : b.num ≤ m) (hcap : m ≤ 2147483647) :
    ∃ b', b.resize m = .ok b' ∧ b'.WF ∧ b'.static = false ∧ b'.num = b.num ∧ b'.elems = b.elems ∧ m ≤ b'.mem.length := by
  unfold Body.resize
  by_cases hc : m ≤ b.alloc
  · rw [if_pos hc]
    exact ⟨b, rfl, h, hs, rfl, rfl, by rw [h.alloc hs]; exact hc⟩
  · rw [if_neg hc, if_neg (by rw [hs]; decide)]
    have hle := h.le
    have ha := newAlloc_spec b.alloc m (by omega) hcap
    rw [readN_spec _ _ _ (by omega), res_bind_ok, copyIn_spec _ _ _ (by simp; omega), res_bind_ok]
    refine ⟨_, rfl, ⟨?_, ?_, ?_, h.cap⟩, hs, rfl, ?_, ?_⟩
    · simp; omega
    · intro _; simp; omega
    · intro hst; simp only at hst; rw [hs] at hst; cases hst
    · have e : min b.num b.mem.length = b.num := by omega
      simp [Body.elems, e, List.take_append, List.take_take]
    · simp; omega

/-- C21's statement for the constructor -/
theorem ofData_spec (data : List E) (allocate : Nat) (h1 : data.length ≤ 2147483647) (h2 : allocate ≤ 2147483647) :
    ∃ b', Body.ofData data allocate = .ok b' ∧ b'.WF ∧ b'.static = false ∧ b'.elems = data ∧ b'.num = data.length := by
  unfold Body.ofData
  simp only
  have hm : (if allocate < data.length then data.length else allocate) ≤ 2147483647 := by split <;> omega
  have hge : data.length ≤ (if allocate < data.length then data.length else allocate) := by split <;> omega
  generalize (if allocate < data.length then data.length else allocate) = m at hm hge
  have hemp : (Body.empty : Body E).WF := ⟨by simp [Body.empty], fun _ => rfl, nofun, by simp [Body.empty]⟩
  obtain ⟨b, hb1, hb2, hb3, hb4, hb5, hb6⟩ := resize_spec (Body.empty : Body E) hemp rfl m (by simp [Body.empty]) hm
  rw [hb1, res_bind_ok, copyIn_spec _ _ _ (by omega), res_bind_ok]
  refine ⟨_, rfl, ⟨?_, ?_, ?_, h1⟩, hb3, ?_, rfl⟩
  · simp
  · intro hs; rw [← hb2.alloc hb3]; simp; omega
  · intro hs; simp only at hs; rw [hb3] at hs; cases hs
  · simp [Body.elems]

theorem insert_spec (b : Body E) (h : b.WF) (hs : b.static = false) (rc : Nat) (hrc : rc ≤ 1) (pos : Nat) (hp : pos ≤ b.num)
    (es : List E) (hcap : b.num + es.length ≤ 2147483647) :
    ∃ b', b.insert rc pos es = .ok b' ∧ b'.WF ∧ b'.static = false ∧ b'.num = b.num + es.length ∧
      b'.elems = b.elems.take pos ++ es ++ b.elems.drop pos := by
  unfold Body.insert
  have hrc' : decide (rc ≤ 1) = true := by simpa using hrc
  rw [hrc', assert_true, res_bind_ok]
  by_cases h0 : es.length = 0
  · have : es = [] := List.eq_nil_of_length_eq_zero h0
    subst this
    refine ⟨b, by simp, h, hs, by simp, ?_⟩
    simp
  · have e0 : (es.length == 0) = false := by simpa using h0
    have ew : wrap ((b.num : Int) + es.length) = b.num + es.length := by unfold wrap; omega
    rw [e0]
    simp only [Bool.false_eq_true, if_false]
    rw [ew]
    simp only [hp, decide_true, assert_true, res_bind_ok, ge_iff_le, Nat.le_add_right]
    obtain ⟨b1, hb1, hb2, hb3, hb4, hb5, hb6⟩ := resize_spec b h hs (b.num + es.length) (by omega) hcap
    rw [hb1, res_bind_ok, hb4]
    have key : ∃ mem, makeRoom b1 pos es.length = .ok mem ∧
        mem.length = b1.mem.length ∧ ∀ k, mem[k]? = if pos + es.length ≤ k ∧ k < b.num + es.length
          then b1.mem[k - es.length]? else b1.mem[k]? := by
      unfold makeRoom
      rw [hb4]
      by_cases hgt : b.num > pos
      · rw [if_pos hgt]; exact moveUp_spec pos es.length _ b1.mem hb6
      · rw [if_neg hgt]; exact ⟨_, rfl, rfl, fun k => by rw [if_neg (by omega)]⟩
    obtain ⟨mem, hm1, hm2, hm3⟩ := key
    rw [hm1, res_bind_ok, copyIn_spec _ _ _ (by omega), res_bind_ok]
    refine ⟨_, rfl, ⟨?_, ?_, ?_, ?_⟩, hb3, rfl, ?_⟩
    · simp; omega
    · intro _; simp only; rw [← hb2.alloc hb3]; simp; omega
    · intro hst; simp only at hst; rw [hb3] at hst; cases hst
    · exact hcap
    · rw [← hb5]
      simp only [Body.elems, hb4]
      apply List.ext_getElem?
      intro k
      have hle := hb2.le
      simp only [List.getElem?_take, List.append_assoc, List.getElem?_append, List.length_take, List.getElem?_drop, hm2, hm3]
      rw [hb4] at hle
      have e1 : min pos b1.mem.length = pos := by omega
      have e2 : min pos (min b.num b1.mem.length) = pos := by omega
      rw [e1, e2]
      by_cases hk1 : k < pos
      · rw [if_pos (by omega : k < b.num + es.length), if_pos hk1, if_pos hk1, if_pos hk1, if_neg (by omega), if_pos hk1,
          if_pos (by omega)]
      · rw [if_neg hk1, if_neg hk1]
        by_cases hk2 : k - pos < es.length
        · rw [if_pos (by omega), if_pos hk2, if_pos hk2]
        · rw [if_neg hk2, if_neg hk2]
          by_cases hk3 : k < b.num + es.length
          · rw [if_pos hk3, if_pos (by omega), if_pos (by omega)]
            congr 1; omega
          · rw [if_neg hk3, if_neg (by omega)]

theorem remove_spec (b : Body E) (h : b.WF) (hs : b.static = false) (rc : Nat) (hrc : rc ≤ 1) (at_ len : Nat) (hl : 0 < len)
    (hp : at_ + len ≤ b.num) :
    ∃ b', b.remove rc at_ len = .ok b' ∧ b'.WF ∧ b'.static = false ∧ b'.num = b.num - len ∧
      b'.elems = b.elems.take at_ ++ b.elems.drop (at_ + len) := by
  unfold Body.remove
  have hrc' : decide (rc ≤ 1) = true := by simpa using hrc
  have hcap := h.cap
  have hle := h.le
  have e0 : ((len : Int) == 0) = false := by rw [beq_eq_false_iff_ne]; omega
  have e1 : decide ((len : Int) ≥ -1) = true := by simp
  have e2 : decide (at_ < b.num) = true := by simp; omega
  have e3 : ((len : Int) == -1) = false := by rw [beq_eq_false_iff_ne]; omega
  have e4 : wrap (len : Int) = len := by unfold wrap; omega
  have e5 : wrap ((b.num : Int) - len) = b.num - len := by unfold wrap; omega
  simp only [hrc', e0, e1, e2, e3, assert_true, res_bind_ok, Bool.false_eq_true, if_false, e4, e5]
  obtain ⟨mem, hm1, hm2, hm3⟩ := moveDown_spec len (b.num - len - at_) b.mem at_ (by omega)
  rw [hm1, res_bind_ok]
  refine ⟨_, rfl, ⟨?_, ?_, ?_, ?_⟩, hs, rfl, ?_⟩
  · simp only; omega
  · intro _; simp only; rw [hm2, h.alloc hs]
  · intro hst; simp only at hst; rw [hs] at hst; cases hst
  · simp only; omega
  · simp only [Body.elems]
    apply List.ext_getElem?
    intro k
    simp only [List.getElem?_take, List.getElem?_append, List.length_take, List.getElem?_drop, hm3]
    have e6 : min at_ (min b.num b.mem.length) = at_ := by omega
    rw [e6]
    by_cases hk : k < at_
    · rw [if_pos (by omega), if_neg (by omega), if_pos hk, if_pos hk, if_pos (by omega)]
    · rw [if_neg hk]
      by_cases hk2 : k < b.num - len
      · rw [if_pos hk2, if_pos (by omega), if_pos (by omega)]
        congr 1; omega
      · rw [if_neg hk2, if_neg (by omega)]

end Strpp.Arr
