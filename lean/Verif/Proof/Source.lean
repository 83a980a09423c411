import Verif.Model.Source
import Verif.Proof.PegLeaf
set_option linter.unusedVariables false
set_option linter.unusedSimpArgs false
/-! Reads on a source, against the trace of the reads -/
namespace Strpp.Source
open Spec

/-- The source after taking `tr` -/
def place (tr : List (UCS4 × Nat)) : Source := ⟨some (traceBytes tr), traceBytes tr, traceLine tr, traceCol tr⟩

theorem traceBytes_append (a b : List (UCS4 × Nat)) : traceBytes (a ++ b) = traceBytes a + traceBytes b := by
  simp [traceBytes]

theorem taken_pos (narrow : Bool) (r : Read) (t : List Byte) (c : UCS4) (n : Nat) (h : taken narrow r t = some (c, n)) :
    0 < n ∧ n ≤ t.length := by
  cases t with
  | nil => cases r <;> simp [taken] at h
  | cons b rest =>
    have hb : some (b.signExtend 32, 1) = some (c, n) → 0 < n ∧ n ≤ (b :: rest).length := by
      intro h
      injection h with h
      injection h with _ h
      subst h
      simp
    cases r with
    | byte => exact hb h
    | char =>
      simp only [taken] at h
      split at h
      · exact hb h
      · have := decode1_pos _ _ _ h
        exact ⟨this.1, this.2.2⟩

theorem taken_none (narrow : Bool) (r : Read) (t : List Byte) : taken narrow r t = none ↔ t = [] := by
  constructor
  · intro h
    cases t with
    | nil => rfl
    | cons b rest =>
      exfalso
      cases r with
      | byte => simp [taken] at h
      | char =>
        simp only [taken] at h
        split at h
        · cases h
        · obtain ⟨c, n, e⟩ := decode1_some (b :: rest) (by simp)
          rw [e] at h; cases h
  · rintro rfl
    cases r <;> rfl

/-- Every list of reads, one more at the end -/
theorem trace_snoc (narrow : Bool) (r : Read) (rs : List Read) : ∀ t : List Byte,
    trace narrow t (rs ++ [r]) = trace narrow t rs ++ (taken narrow r (t.drop (traceBytes (trace narrow t rs)))).toList := by
  induction rs with
  | nil =>
    intro t
    simp only [List.nil_append, trace, traceBytes, List.map_nil, List.sum_nil, List.drop_zero]
    cases taken narrow r t <;> rfl
  | cons q qs ih =>
    intro t
    simp only [List.cons_append, trace]
    cases h : taken narrow q t with
    | none => simp only; exact ih t
    | some x =>
      simp only [List.cons_append]
      rw [ih]
      have : traceBytes (x :: trace narrow (t.drop x.2) qs) = x.2 + traceBytes (trace narrow (t.drop x.2) qs) := by simp [traceBytes]
      rw [this, List.drop_drop]

theorem trace_le (narrow : Bool) (rs : List Read) : ∀ t : List Byte, traceBytes (trace narrow t rs) ≤ t.length := by
  induction rs with
  | nil => intro t; simp [trace, traceBytes]
  | cons q qs ih =>
    intro t
    simp only [trace]
    cases h : taken narrow q t with
    | none => simp only; exact ih t
    | some x =>
      have h1 := taken_pos narrow q t x.1 x.2 h
      have h2 := ih (t.drop x.2)
      simp only [List.length_drop] at h2
      have : traceBytes (x :: trace narrow (t.drop x.2) qs) = x.2 + traceBytes (trace narrow (t.drop x.2) qs) := by simp [traceBytes]
      simp only
      omega

theorem place_bump (tr : List (UCS4 × Nat)) (c : UCS4) (n : Nat) :
    bump { place tr with data := some (traceBytes tr + n), byteCount := (traceBytes tr : Int) + n } c = place (tr ++ [(c, n)]) := by
  have hb : traceBytes (tr ++ [(c, n)]) = traceBytes tr + n := by simp [traceBytes]
  unfold bump place
  rw [hb]
  by_cases hc : c = 0x0A#32
  · subst hc
    simp [traceLine, traceCol, List.count_append]
    omega
  · have h1 : traceLine (tr ++ [(c, n)]) = traceLine tr := by
      simp [traceLine, List.count_append, List.count_cons, hc]
    have h2 : traceCol (tr ++ [(c, n)]) = traceCol tr + 1 := by
      simp [traceCol, List.takeWhile_cons, hc]
      omega
    rw [h1, h2]
    simp [hc]

section
variable (t : List Byte) (ht : 0#8 ∉ t)
include ht

theorem rd_in (p : Nat) (h : p < t.length) : ∃ b rest, t.drop p = b :: rest ∧ rd (t ++ [0#8]) p = .ok b ∧ b ≠ 0#8 := by
  refine ⟨t[p], t.drop (p + 1), List.drop_eq_getElem_cons h, ?_, ?_⟩
  · rw [rd_eq_ok, List.getElem?_append_left h, List.getElem?_eq_getElem h]
  · intro e
    exact ht (e ▸ List.getElem_mem h)

theorem place_eof (tr : List (UCS4 × Nat)) (hl : traceBytes tr ≤ t.length) :
    atEof (t ++ [0#8]) (place tr) = .ok (decide (traceBytes tr = t.length)) := by
  unfold atEof place
  simp only
  rcases Nat.lt_or_ge (traceBytes tr) t.length with h | h
  · obtain ⟨b, rest, -, e2, e3⟩ := rd_in t ht _ h
    rw [e2, res_bind_ok]
    have : ¬ traceBytes tr = t.length := by omega
    simp [this, e3]
  · have e : traceBytes tr = t.length := by omega
    have hr : rd (t ++ [0#8]) (traceBytes tr) = .ok 0#8 := by rw [rd_eq_ok, e]; simp
    rw [hr, res_bind_ok]
    simp [e]

/-- get_byte anywhere -/
theorem place_byte (tr : List (UCS4 × Nat)) (hl : traceBytes tr ≤ t.length) :
    getByte (t ++ [0#8]) (place tr) = .ok
      ((t.drop (traceBytes tr)).headD 0#8, place (tr ++ (taken false .byte (t.drop (traceBytes tr))).toList)) := by
  unfold getByte
  rw [place_eof t ht tr hl, res_bind_ok]
  rcases Nat.lt_or_ge (traceBytes tr) t.length with h | h
  · obtain ⟨b, rest, e1, e2, e3⟩ := rd_in t ht _ h
    rw [if_neg (by simp; omega), e1]
    simp only [ptr, place, res_bind_ok, e2, taken, Option.toList_some, List.headD_cons]
    have hp := place_bump tr (b.signExtend 32) 1
    simp only [place] at hp
    exact congrArg (fun x => (Except.ok (b, x) : Res (Byte × Source))) hp
  · rw [if_pos (by simp; omega), List.drop_eq_nil_of_le h]
    simp [taken]

/-- get_char anywhere, of a source of wide characters -/
theorem place_char (tr : List (UCS4 × Nat)) (hl : traceBytes tr ≤ t.length) :
    getChar false (t ++ [0#8]) (place tr) = .ok
      (((taken false .char (t.drop (traceBytes tr))).map Prod.fst).getD 0xFFFFFFFF#32,
       place (tr ++ (taken false .char (t.drop (traceBytes tr))).toList)) := by
  unfold getChar
  rw [if_neg (by simp), place_eof t ht tr hl, res_bind_ok]
  rcases Nat.lt_or_ge (traceBytes tr) t.length with h | h
  · have hne : t.drop (traceBytes tr) ≠ [] := by
      intro h'
      have := congrArg List.length h'
      simp at this
      omega
    obtain ⟨c, n, hd, hg, hn1, -, -⟩ := get_decode1 (t ++ [0#8]) (traceBytes tr) t.length 0#8 h (by simp) (by decide)
    rw [List.drop_append_of_le_length hl, Pex.decode1_nul _ hne] at hd
    have htk : taken false .char (t.drop (traceBytes tr)) = some (c, n) := by
      cases hx : t.drop (traceBytes tr) with
      | nil => exact absurd hx hne
      | cons b rest => rw [hx] at hd; simpa [taken] using hd
    rw [if_neg (by simp; omega), htk]
    simp only [ptr, place, res_bind_ok, hg, Option.toList_some, Option.map_some, Option.getD_some]
    have hp := place_bump tr c n
    simp only [place] at hp
    have ha : (traceBytes tr : Int) + (((traceBytes tr + n : Nat) : Int) - (traceBytes tr : Int)) = (traceBytes tr : Int) + n := by omega
    rw [ha]
    exact congrArg (fun x => (Except.ok (c, x) : Res (UCS4 × Source))) hp
  · rw [if_pos (by simp; omega), List.drop_eq_nil_of_le h]
    simp [taken]

end

theorem place_narrow (t : List Byte) (ht : 0#8 ∉ t) (tr : List (UCS4 × Nat)) (hl : traceBytes tr ≤ t.length) :
    getChar true (t ++ [0#8]) (place tr) = .ok
      (((t.drop (traceBytes tr)).headD 0#8).signExtend 32, place (tr ++ (taken true .char (t.drop (traceBytes tr))).toList)) := by
  unfold getChar
  rw [if_pos rfl, place_byte t ht tr hl, res_bind_ok]
  cases t.drop (traceBytes tr) <;> rfl

/-- The source that some reads have been made on -/
def den (narrow : Bool) (t : List Byte) : Option (List Read) → Source
  | none => null
  | some rs => place (trace narrow t rs)

/-- get_byte on any source -/
theorem den_byte (narrow : Bool) (t : List Byte) (ht : 0#8 ∉ t) (rs : List Read) :
    getByte (t ++ [0#8]) (den narrow t (some rs)) =
      .ok ((t.drop (traceBytes (trace narrow t rs))).headD 0#8, den narrow t (some (rs ++ [.byte]))) := by
  have hb : ∀ l, taken narrow .byte l = taken false .byte l := by intro l; cases l <;> rfl
  simp only [den, trace_snoc, hb]
  exact place_byte t ht _ (trace_le narrow rs t)

theorem den_char (t : List Byte) (ht : 0#8 ∉ t) (rs : List Read) :
    getChar false (t ++ [0#8]) (den false t (some rs)) =
      .ok (((decode1 (t.drop (traceBytes (trace false t rs)))).map Prod.fst).getD 0xFFFFFFFF#32, den false t (some (rs ++ [.char]))) := by
  have hb : ∀ l, taken false .char l = decode1 l := by intro l; cases l <;> rfl
  simp only [den, trace_snoc]
  rw [← hb]
  exact place_char t ht _ (trace_le false rs t)

theorem den_narrow (t : List Byte) (ht : 0#8 ∉ t) (rs : List Read) :
    getChar true (t ++ [0#8]) (den true t (some rs)) =
      .ok (((t.drop (traceBytes (trace true t rs))).headD 0#8).signExtend 32, den true t (some (rs ++ [.char]))) := by
  simp only [den, trace_snoc]
  exact place_narrow t ht _ (trace_le true rs t)

theorem den_read (narrow : Bool) (t : List Byte) (ht : 0#8 ∉ t) (x : Option (List Read)) :
    (∃ b, getByte (t ++ [0#8]) (den narrow t x) = .ok (b, den narrow t (x.map (· ++ [.byte])))) ∧
    (∃ c, getChar narrow (t ++ [0#8]) (den narrow t x) = .ok (c, den narrow t (x.map (· ++ [.char])))) := by
  cases x with
  | none => constructor <;> cases narrow <;> exact ⟨_, rfl⟩
  | some rs =>
    refine ⟨⟨_, den_byte narrow t ht rs⟩, ?_⟩
    cases narrow with
    | false => exact ⟨_, den_char t ht rs⟩
    | true => exact ⟨_, den_narrow t ht rs⟩

theorem run_den (narrow : Bool) (t : List Byte) (ht : 0#8 ∉ t) (os : List SrcOp) :
    ∀ (vs ws : List (Option (List Read))), srcRun vs os = some ws →
      run narrow (t ++ [0#8]) (vs.map (den narrow t)) os = .ok (ws.map (den narrow t)) := by
  induction os with
  | nil => intro vs ws h; simp only [srcRun, Option.some.injEq] at h; subst h; rfl
  | cons o os ih =>
    intro vs ws h
    have hn : ∀ v x, vs[v]? = some x → nth (vs.map (den narrow t)) v = .ok (den narrow t x) := by
      intro v x hx
      unfold nth
      rw [List.getElem?_map, hx]
      rfl
    have hset : ∀ v x, (vs.map (den narrow t)).set v (den narrow t x) = (vs.set v x).map (den narrow t) := by
      intro v x; rw [List.map_set]
    have happ : ∀ x, vs.map (den narrow t) ++ [den narrow t x] = (vs ++ [x]).map (den narrow t) := by
      intro x; simp
    cases o with
    | null =>
      simp only [srcRun] at h
      rw [run, step, res_bind_ok, show (null : Source) = den narrow t none from rfl, happ]
      exact ih _ _ h
    | start =>
      simp only [srcRun] at h
      rw [run, step, res_bind_ok, show ofPtr (some 0) = den narrow t (some []) by simp [ofPtr, den, place, trace, traceBytes, traceLine, traceCol], happ]
      exact ih _ _ h
    | copy v =>
      simp only [srcRun] at h
      split at h
      · cases h
      · rename_i x hx
        rw [run, step, hn v x hx, res_bind_ok, res_bind_ok, show copyOf (den narrow t x) = den narrow t x from rfl, happ]
        exact ih _ _ h
    | assign v w =>
      simp only [srcRun] at h
      split at h
      · rename_i x y hx hy
        rw [run, step, hn v x hx, res_bind_ok, hn w y hy, res_bind_ok, res_bind_ok, show copyOf (den narrow t y) = den narrow t y from rfl, hset]
        exact ih _ _ h
      · cases h
    | read v r =>
      simp only [srcRun] at h
      split at h
      · cases h
      · rename_i x hx
        obtain ⟨⟨b, hb⟩, ⟨c, hc⟩⟩ := den_read narrow t ht x
        cases r with
        | byte =>
          rw [run, step, hn v x hx, res_bind_ok, hb, res_bind_ok, res_bind_ok, hset]
          exact ih _ _ h
        | char =>
          rw [run, step, hn v x hx, res_bind_ok, hc, res_bind_ok, res_bind_ok, hset]
          exact ih _ _ h

end Strpp.Source
