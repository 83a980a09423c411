import Verif.Proof.RxTerm
import Verif.Proof.RxCount
import Verif.Props.RxStack
/-! Matching terminates without undefined behaviour, also with counters. -/
set_option linter.unusedSimpArgs false
set_option linter.unusedVariables false
namespace Strpp.Rx
open Spec

/-- Instructions that are harmless at station `s` -/
def OkK (P : Prog) (s : Nat) : Instr → Prop
  | .zero n => s < n
  | .count .. => True
  | i => OkI P s i

/-- The stations inside the code of an expression: threads stay there or leave at its end. -/
def InnerK (P : Prog) (p : Nat) (bs : List Byte) (S : Nat → Prop) : Prop :=
  (∀ s, S s → p ≤ s ∧ s < p + bs.length) ∧ (S p ∨ bs = []) ∧
  ∀ s, S s → ∃ i, P.decode s = .ok i ∧ OkK P s i ∧ ∀ n ∈ i.succs, S n ∨ n = p + bs.length

theorem InnerK.one {P p bs ins} (hd : P.decode p = .ok ins) (hne : bs ≠ []) (hs : OkK P p ins)
    (hn : ∀ n ∈ ins.succs, n = p + bs.length) : InnerK P p bs (fun s => s = p) := by
  refine ⟨?_, .inl rfl, ?_⟩
  · rintro s rfl
    have := List.length_pos_iff.2 hne
    omega
  · rintro s rfl
    exact ⟨ins, hd, hs, fun n h => .inr (hn n h)⟩

theorem InnerK.start {P p bs S} (h : InnerK P p bs S) : S p ∨ p = p + bs.length := by
  rcases h.2.1 with h | h
  · exact .inl h
  · right; rw [h]; simp

theorem code_okK {P : Prog} (hlen : P.nfa.length < 2 ^ 30) {r : Re} {bs : List Byte} (hc : Code true r bs) :
    ∀ (p : Nat), At P p bs → ∃ S, InnerK P p bs S := by
  induction hc with
  | empty => intro p _; exact ⟨fun _ => False, by simp, .inr rfl, by simp⟩
  | chr s c hr h0 =>
    intro p hat
    exact ⟨_, .one (decode_char hat hr) (by simp) trivial (by simp [Instr.succs]; omega)⟩
  | any => intro p hat; exact ⟨_, .one (decode_any hat) (by simp) trivial (by simp [Instr.succs])⟩
  | bol => intro p hat; exact ⟨_, .one (decode_bol hat) (by simp) (Nat.lt_succ_self _) (by simp [Instr.succs])⟩
  | eol => intro p hat; exact ⟨_, .one (decode_eol hat) (by simp) (Nat.lt_succ_self _) (by simp [Instr.succs])⟩
  | cls neg text rs hne hr hb =>
    intro p hat
    exact ⟨_, .one (decode_cls hat hb) (by simp) (cls_text rs hne hr) (by simp [Instr.succs]; omega)⟩
  | prop br q =>
    intro p hat
    exact ⟨_, .one (decode_prop hat (by cases q <;> decide)) (by simp) (prop_text q) (by simp [Instr.succs])⟩
  | seq a b x y _ _ iha ihb =>
    intro p hat
    obtain ⟨A, ha1, ha2, ha3⟩ := iha p hat.left
    obtain ⟨B, hb⟩ := ihb _ hat.right
    have hbs := hb.start
    obtain ⟨hb1, hb2, hb3⟩ := hb
    refine ⟨fun s => A s ∨ B s, ?_, ?_, ?_⟩
    · rintro s (h | h)
      · have := ha1 s h; rw [List.length_append]; omega
      · have := hb1 s h; rw [List.length_append]; omega
    · rcases ha2 with h | h
      · exact .inl (.inl h)
      · rcases hb2 with h' | h'
        · rw [h] at h'; exact .inl (.inr h')
        · right; rw [h, h']; rfl
    · rw [List.length_append, ← Nat.add_assoc]
      rintro s (h | h)
      · obtain ⟨i, hi, hs, hn⟩ := ha3 s h
        refine ⟨i, hi, hs, fun n hn' => ?_⟩
        rcases hn n hn' with h | rfl
        · exact .inl (.inl h)
        · rcases hbs with h | h
          · exact .inl (.inr h)
          · exact .inr h
      · obtain ⟨i, hi, hs, hn⟩ := hb3 s h
        refine ⟨i, hi, hs, fun n hn' => ?_⟩
        rcases hn n hn' with h | rfl
        · exact .inl (.inr h)
        · exact .inr rfl
  | alt a b x y o1 o2 _ _ e1 l1 e2 l2 iha ihb =>
    intro p hat
    obtain ⟨px, py, g1, g2, hend, d1, hx, d2, hy⟩ := alt_layout hlen e1 l1 e2 l2 hat
    obtain ⟨A, ha⟩ := iha px hx
    obtain ⟨B, hb⟩ := ihb py hy
    have has := ha.start
    have hbs := hb.start
    obtain ⟨ha1, ha2, ha3⟩ := ha
    obtain ⟨hb1, hb2, hb3⟩ := hb
    refine ⟨fun s => s = p ∨ A s ∨ s = px + x.length ∨ B s, ?_, .inl (.inl rfl), ?_⟩
    · rw [← hend]
      rintro s (rfl | h | rfl | h)
      · omega
      · have := ha1 s h; omega
      · omega
      · have := hb1 s h; omega
    · rw [← hend]
      have hpy : (py = p ∨ A py ∨ py = px + x.length ∨ B py) ∨ py = py + y.length := by
        rcases hbs with h | h
        · exact .inl (.inr (.inr (.inr h)))
        · exact .inr h
      rintro s (rfl | h | rfl | h)
      · refine ⟨_, d1, trivial, ?_⟩
        simp only [Instr.succs, List.mem_cons, List.not_mem_nil, or_false]
        rintro n (rfl | rfl)
        · exact hpy
        · rcases has with h | h
          · exact .inl (.inr (.inl h))
          · exact .inl (.inr (.inr (.inl h)))
      · obtain ⟨i, hi, hs, hn⟩ := ha3 s h
        refine ⟨i, hi, hs, fun n hn' => ?_⟩
        rcases hn n hn' with h | h
        · exact .inl (.inr (.inl h))
        · exact .inl (.inr (.inr (.inl h)))
      · refine ⟨_, d2, .inl (by omega), ?_⟩
        simp only [Instr.succs, List.mem_cons, List.not_mem_nil, or_false]
        rintro n rfl
        exact .inr rfl
      · obtain ⟨i, hi, hs, hn⟩ := hb3 s h
        refine ⟨i, hi, hs, fun n hn' => ?_⟩
        rcases hn n hn' with h | h
        · exact .inl (.inr (.inr (.inr h)))
        · exact .inr h
  | star a x o1 o2 _ e1 l1 e2 l2 iha =>
    intro p hat
    obtain ⟨px, pe, g1, g2, hend, d1, hx, d2⟩ := star_layout hlen e1 l1 e2 l2 hat
    obtain ⟨A, ha⟩ := iha px hx
    have has := ha.start
    obtain ⟨ha1, ha2, ha3⟩ := ha
    refine ⟨fun s => s = p ∨ A s ∨ s = px + x.length, ?_, .inl (.inl rfl), ?_⟩
    · rw [← hend]
      rintro s (rfl | h | rfl)
      · omega
      · have := ha1 s h; omega
      · omega
    · rw [← hend]
      rintro s (rfl | h | rfl)
      · refine ⟨_, d1, trivial, ?_⟩
        simp only [Instr.succs, List.mem_cons, List.not_mem_nil, or_false]
        rintro n (rfl | rfl)
        · exact .inr rfl
        · rcases has with h | h
          · exact .inl (.inr (.inl h))
          · exact .inl (.inr (.inr h))
      · obtain ⟨i, hi, hs, hn⟩ := ha3 s h
        refine ⟨i, hi, hs, fun n hn' => ?_⟩
        rcases hn n hn' with h | h
        · exact .inl (.inr (.inl h))
        · exact .inl (.inr (.inr h))
      · refine ⟨_, d2, .inr ⟨_, _, d1⟩, ?_⟩
        simp only [Instr.succs, List.mem_cons, List.not_mem_nil, or_false]
        rintro n rfl
        exact .inl (.inl rfl)
  | plus a x o _ e1 l1 iha =>
    intro p hat
    obtain ⟨pe, g1, hend, hx, d1⟩ := plus_layout hlen e1 l1 hat
    obtain ⟨A, ha⟩ := iha p hx
    have has := ha.start
    obtain ⟨ha1, ha2, ha3⟩ := ha
    refine ⟨fun s => A s ∨ s = p + x.length, ?_, .inl has, ?_⟩
    · rw [← hend]
      rintro s (h | rfl)
      · have := ha1 s h; omega
      · omega
    · rw [← hend]
      rintro s (h | rfl)
      · obtain ⟨i, hi, hs, hn⟩ := ha3 s h
        exact ⟨i, hi, hs, fun n hn' => .inl (hn n hn')⟩
      · refine ⟨_, d1, trivial, ?_⟩
        simp only [Instr.succs, List.mem_cons, List.not_mem_nil, or_false]
        rintro n (rfl | rfl)
        · exact .inl has
        · exact .inr rfl
  | opt a x o _ e1 l1 iha =>
    intro p hat
    obtain ⟨px, g1, hend, d1, hx⟩ := opt_layout hlen e1 l1 hat
    obtain ⟨A, ha⟩ := iha px hx
    have has := ha.start
    obtain ⟨ha1, ha2, ha3⟩ := ha
    refine ⟨fun s => s = p ∨ A s, ?_, .inl (.inl rfl), ?_⟩
    · rw [← hend]
      rintro s (rfl | h)
      · omega
      · have := ha1 s h; omega
    · rw [← hend]
      rintro s (rfl | h)
      · refine ⟨_, d1, trivial, ?_⟩
        simp only [Instr.succs, List.mem_cons, List.not_mem_nil, or_false]
        rintro n (rfl | rfl)
        · exact .inr rfl
        · rcases has with h | h
          · exact .inl (.inr h)
          · exact .inr h
      · obtain ⟨i, hi, hs, hn⟩ := ha3 s h
        refine ⟨i, hi, hs, fun n hn' => ?_⟩
        rcases hn n hn' with h | h
        · exact .inl (.inr h)
        · exact .inr h
  | grp nc a x _ iha => exact iha
  | repStar _ _ _ _ _ ih | repOpt _ _ _ _ _ ih | repPlus _ _ _ _ _ ih => exact ih
  | rep w mn mx a x o hcnt _ hmn hmx e1 l1 iha =>
    intro p hat
    obtain ⟨pe, g1, hend, d1, hx, d2⟩ := rep_layout hlen hmn (fun m h => (hmx m h).2.2) e1 l1 hat
    obtain ⟨A, ha⟩ := iha (p + 1) hx
    have has := ha.start
    obtain ⟨ha1, ha2, ha3⟩ := ha
    refine ⟨fun s => s = p ∨ A s ∨ s = p + 1 + x.length, ?_, .inl (.inl rfl), ?_⟩
    · rw [← hend]
      rintro s (rfl | h | rfl)
      · omega
      · have := ha1 s h; omega
      · omega
    · rw [← hend]
      rintro s (rfl | h | rfl)
      · refine ⟨_, d1, Nat.lt_succ_self _, ?_⟩
        simp only [Instr.succs, List.mem_cons, List.not_mem_nil, or_false]
        rintro n rfl
        rcases has with h | h
        · exact .inl (.inr (.inl h))
        · exact .inl (.inr (.inr h))
      · obtain ⟨i, hi, hs, hn⟩ := ha3 s h
        refine ⟨i, hi, hs, fun n hn' => ?_⟩
        rcases hn n hn' with h | h
        · exact .inl (.inr (.inl h))
        · exact .inl (.inr (.inr h))
      · refine ⟨_, d2, trivial, ?_⟩
        simp only [Instr.succs, List.mem_cons, List.not_mem_nil, or_false]
        rintro n (rfl | rfl)
        · rcases has with h | h
          · exact .inl (.inr (.inl h))
          · exact .inl (.inr (.inr h))
        · exact .inr rfl

/-- A set of stations which threads do not leave, with harmless instructions -/
def SafeK (P : Prog) (R : Nat → Prop) : Prop :=
  ∀ s, R s → ∃ i, P.decode s = .ok i ∧ OkK P s i ∧ ∀ n ∈ i.succs, R n

/-- The result has captures and counters -/
def Sound (r : RVal) : Prop := ∃ b, Rep r b

theorem Sound.set {r : RVal} (h : Sound r) (k : Int) (hk : k ≤ 1) (v : Nat) : ∃ r', r.captureSet k v = .ok r' ∧ Sound r' := by
  obtain ⟨b, hb⟩ := h
  obtain ⟨h1, h2, c, hc, hH⟩ := hb
  unfold RVal.captureSet
  rw [if_pos hk]
  by_cases h0 : k = 0
  · rw [if_pos h0]
    exact ⟨_, rfl, { b with first := v }, rfl, h2, c, hc, ⟨hH.1, hH.2, hH.3, hH.4, hH.5, hH.6, hH.7.imp id fun h => ⟨h.1, h.2, h.3⟩⟩⟩
  · rw [if_neg h0]
    exact ⟨_, rfl, { b with last := some v }, h1, rfl, c, hc, ⟨hH.1, hH.2, hH.3, hH.4, hH.5, hH.6, hH.7.imp id fun h => ⟨h.1, h.2, h.3⟩⟩⟩

theorem Sound.push {r : RVal} (h : Sound r) (o : Nat) : r.pushZero o = .error .assertion ∨ ∃ r', r.pushZero o = .ok r' ∧ Sound r' := by
  obtain ⟨b, hb⟩ := h
  have h := hb.call (.push o)
  have he : r.call (.push o) = (r.pushZero o >>= fun r => .ok (0, r)) := rfl
  rw [he] at h
  cases hp : r.pushZero o with
  | error e =>
    rw [hp] at h
    left
    cases hc : b.call (.push o) with
    | none => rw [hc] at h; cases h; rfl
    | some x => rw [hc] at h; obtain ⟨_, h, _⟩ := h; cases h
  | ok r' =>
    rw [hp] at h
    cases hc : b.call (.push o) with
    | none => rw [hc] at h; cases h
    | some x => obtain ⟨n, b2⟩ := x; rw [hc] at h; obtain ⟨r2, h, h2⟩ := h; cases h; exact .inr ⟨_, rfl, _, h2⟩

theorem Sound.pop {r : RVal} (h : Sound r) : r.pop = .error .assertion ∨ ∃ r', r.pop = .ok r' ∧ Sound r' := by
  obtain ⟨b, hb⟩ := h
  have h := hb.call .pop
  have he : r.call .pop = (r.pop >>= fun r => .ok (0, r)) := rfl
  rw [he] at h
  cases hp : r.pop with
  | error e =>
    rw [hp] at h
    left
    cases hc : b.call .pop with
    | none => rw [hc] at h; cases h; rfl
    | some x => rw [hc] at h; obtain ⟨_, h, _⟩ := h; cases h
  | ok r' =>
    rw [hp] at h
    cases hc : b.call .pop with
    | none => rw [hc] at h; cases h
    | some x => obtain ⟨n, b2⟩ := x; rw [hc] at h; obtain ⟨r2, h, h2⟩ := h; cases h; exact .inr ⟨_, rfl, _, h2⟩

theorem Sound.incr {r : RVal} (h : Sound r) (o : Nat) : r.incr o = .error .assertion ∨ ∃ r', r.incr o = .ok r' ∧ Sound r'.2 := by
  obtain ⟨b, hb⟩ := h
  have h := hb.call (.incr o)
  have he : r.call (.incr o) = r.incr o := rfl
  rw [he] at h
  cases hc : b.call (.incr o) with
  | none => rw [hc] at h; exact .inl h
  | some x => rw [hc] at h; obtain ⟨r2, h, h2⟩ := h; exact .inr ⟨_, h, _, h2⟩

theorem Sound.top {r : RVal} (h : Sound r) : r.top = .error .assertion ∨ ∃ x, r.top = .ok x := by
  obtain ⟨b, hb⟩ := h
  have h := hb.shows.top
  cases hs : b.stack with
  | nil => rw [hs] at h; exact .inl h
  | cons x K => rw [hs] at h; exact .inr ⟨x, h⟩

theorem isDuplicate_sound {th : Thr} (ht : Sound th.res) (d : Nat) : ∀ (ns : List Thr) (k : Nat), (∀ x ∈ ns, Sound x.res) →
    ∃ b, isDuplicate th d ns k = .ok b := by
  intro ns
  induction ns with
  | nil => intro k _; exact ⟨_, rfl⟩
  | cons n ns ih =>
    intro k hns
    rw [isDuplicate]
    obtain ⟨b, hb⟩ := ht
    obtain ⟨b2, hb2⟩ := hns n (by simp)
    have hsame := C63_countersSame hb.shows hb2.shows
    split
    · have hrest : ∀ same : Bool, ∃ b, (if same = true then .ok true else if k + 1 > d then .ok true else isDuplicate th d ns (k + 1) : Res Bool) = .ok b := by
        intro same
        split
        · exact ⟨_, rfl⟩
        · split
          · exact ⟨_, rfl⟩
          · exact ih _ fun x hx => hns x (by simp [hx])
      dsimp only
      split
      · rw [hsame, res_bind_ok]; exact hrest _
      · rw [res_bind_ok]; exact hrest _
    · exact ih _ fun x hx => hns x (by simp [hx])

def AddOkK (P : Prog) (R : Nat → Prop) (x : Res (List Thr)) : Prop :=
  x = .error .assertion ∨ ∃ out, x = .ok out ∧ ∀ y ∈ out, R y.station ∧ Station P y.station ∧ Sound y.res

theorem addthread_safeK {P : Prog} {t : List UCS4} {junk : Nat} {R : Nat → Prop} (hR : SafeK P R) (off : Nat) :
    ∀ (fuel : Nat) (entry : Bool) (th : Thr) (shunts : List Nat) (d : Nat) (ns : List Thr), R th.station → Sound th.res →
      (∀ y ∈ ns, R y.station ∧ Station P y.station ∧ Sound y.res) → shunts.length ≤ 12 →
      need P entry shunts.length th.station ≤ fuel → AddOkK P R (addthread P t junk fuel entry th off shunts d ns) := by
  intro fuel
  induction fuel with
  | zero => intro entry th shunts d ns _ _ _ _ h; unfold need at h; omega
  | succ fuel ih =>
    intro entry th shunts d ns hr hso hns hsh hf
    have hrank := rank_le P th.station
    cases entry with
    | true =>
      rw [addthread]
      split
      · exact .inr ⟨ns, rfl, hns⟩
      · by_cases hl : shunts.length < 12
        · obtain ⟨dup, hdup⟩ := isDuplicate_sound hso d ns 0 fun x hx => (hns x hx).2.2
          rw [show decide (shunts.length < maxNesting) = true from decide_eq_true hl, assert_true, res_bind_ok, hdup, res_bind_ok]
          split
          · exact .inr ⟨ns, rfl, hns⟩
          · refine ih false th _ d ns hr hso hns (by simp; omega) ?_
            unfold need at *
            simp only [List.length_append, List.length_cons, List.length_nil, Nat.zero_add, if_true, Bool.false_eq_true, if_false] at *
            have h1 : 12 - shunts.length = (12 - (shunts.length + 1)) + 1 := by omega
            rw [h1, Nat.add_mul] at hf
            omega
        · rw [show decide (shunts.length < maxNesting) = false from decide_eq_false hl]
          exact .inl rfl
    | false =>
      rw [addthread]
      obtain ⟨i, hi, hok, hsu⟩ := hR _ hr
      have hlt := decode_lt hi
      rw [hi, res_bind_ok]
      unfold need at hf
      simp only [Bool.false_eq_true, if_false] at hf
      -- going on at a station after this one
      have fwd : ∀ s' res, th.station < s' → R s' → Sound res → (∀ a n, i ≠ .split a n) → (∀ a n, i = .jump a n → ¬ a ≤ th.station) →
          AddOkK P R (addthread P t junk fuel false ⟨s', res⟩ off shunts d ns) := by
        intro s' res hgt hr' hso' h1 h2
        refine ih false ⟨s', res⟩ shunts d ns hr' hso' hns hsh ?_
        have hk := rank_lt hgt hlt
        have hrk : rank P th.station = P.nfa.length - th.station + 3 := by
          unfold rank
          rw [hi]
          split
          · rename_i heq; cases heq; exact (h1 _ _ rfl).elim
          · rename_i heq; cases heq; rw [if_neg (h2 _ _ rfl)]
          · rfl
        unfold need
        simp only [Bool.false_eq_true, if_false]
        omega
      have again : ∀ s' res d' ns', R s' → Sound res → (∀ y ∈ ns', R y.station ∧ Station P y.station ∧ Sound y.res) →
          AddOkK P R (addthread P t junk fuel true ⟨s', res⟩ off shunts d' ns') := fun s' res d' ns' h1 h2 h3 =>
        ih true ⟨s', res⟩ shunts d' ns' h1 h2 h3 hsh (by unfold need; simp only [if_true]; omega)
      have wait : i.isStation = true → AddOkK P R (assert (decide (ns.length < P.maxStation)) >>= fun _ => .ok (ns ++ [th])) := by
        intro hst
        by_cases hm : ns.length < P.maxStation
        · rw [decide_eq_true hm, assert_true, res_bind_ok]
          refine .inr ⟨_, rfl, fun y hy => ?_⟩
          rcases List.mem_append.1 hy with h | h
          · exact hns y h
          · cases List.mem_singleton.1 h
            exact ⟨hr, ⟨i, hi, hst⟩, hso⟩
        · rw [decide_eq_false hm]
          exact .inl rfl
      cases i with
      | bol n =>
        dsimp only
        split
        · exact fwd n _ hok (hsu n (by simp [Instr.succs])) hso (by simp) (by simp)
        · exact .inr ⟨ns, rfl, hns⟩
      | eol n =>
        dsimp only
        split
        · exact fwd n _ hok (hsu n (by simp [Instr.succs])) hso (by simp) (by simp)
        · exact .inr ⟨ns, rfl, hns⟩
      | jump a n =>
        dsimp only
        have hra := hsu a (by simp [Instr.succs])
        by_cases hle : a ≤ th.station
        · obtain ⟨x, y, hxy⟩ := (Or.resolve_left hok (by omega) : ∃ x y, P.decode a = .ok (.split x y))
          refine ih false ⟨a, th.res⟩ shunts d ns hra hso hns hsh ?_
          have h1 : rank P th.station = 2 := by unfold rank; rw [hi]; exact if_pos hle
          have h2 : rank P a = 1 := rank_split hxy
          unfold need
          simp only [Bool.false_eq_true, if_false]
          omega
        · exact fwd a _ (by omega) hra hso (by simp) (by rintro a' n' h; cases h; exact hle)
      | split a n =>
        dsimp only
        rcases again a th.res 0 ns (hsu a (by simp [Instr.succs])) hso hns with h1 | ⟨o1, h1, h2⟩
        · rw [h1]; exact .inl rfl
        · rw [h1, res_bind_ok]
          exact again n th.res 0 o1 (hsu n (by simp [Instr.succs])) hso h2
      | capStart k n =>
        obtain ⟨rfl, hgt⟩ := (hok : k = 0 ∧ th.station < n)
        dsimp only
        obtain ⟨r', hc, hso'⟩ := hso.set (0 * 2) (by omega) off
        rw [hc, res_bind_ok]
        exact fwd n _ hgt (hsu n (by simp [Instr.succs])) hso' (by simp) (by simp)
      | zero n =>
        dsimp only
        rcases hso.push off with h | ⟨r', h, hso'⟩
        · rw [h]; exact .inl rfl
        · rw [h, res_bind_ok]
          exact fwd n _ hok (hsu n (by simp [Instr.succs])) hso' (by simp) (by simp)
      | count mn mx a n =>
        dsimp only
        rcases hso.top with h | ⟨prev, h⟩
        · rw [h]; exact .inl rfl
        rw [h, res_bind_ok]
        rcases hso.incr off with h | ⟨inc, h, hso'⟩
        · rw [h]; exact .inl rfl
        rw [h, res_bind_ok]
        have fin : ∀ n1 : List Thr, (∀ y ∈ n1, R y.station ∧ Station P y.station ∧ Sound y.res) → AddOkK P R
            (if ((decide (toShort inc.1 ≥ mn) || prev.1 == off) && (mx == 0 || decide (toShort inc.1 ≤ mx))) = true then
              inc.2.pop >>= fun cont => addthread P t junk fuel true ⟨n, cont⟩ off shunts mn n1 else .ok n1) := by
          intro n1 hn1
          split
          · rcases hso'.pop with h | ⟨r', h, hso2⟩
            · rw [h]; exact .inl rfl
            · rw [h, res_bind_ok]
              exact again n _ _ _ (hsu n (by simp [Instr.succs])) hso2 hn1
          · exact .inr ⟨n1, rfl, hn1⟩
        split
        · rcases again a inc.2 mn ns (hsu a (by simp [Instr.succs])) hso' hns with h1 | ⟨o1, h1, h2⟩
          · rw [h1]; exact .inl rfl
          · rw [h1, res_bind_ok]; exact fin o1 h2
        · rw [res_bind_ok]; exact fin ns hns
      | capEnd k n => exact (hok : False).elim
      | char c n => exact wait rfl
      | prop x n => exact wait rfl
      | cls b x n => exact wait rfl
      | any n => exact wait rfl
      | accept n => exact wait rfl
      | start | negLook | null | token => exact (hok : False).elim

theorem okI_of {P : Prog} {s : Nat} {i : Instr} (h : OkK P s i) (hs : i.isStation = true) : OkI P s i := by
  cases i <;> first | exact h | cases hs

theorem cycle_safeK {P : Prog} {t : List UCS4} {junk fuel : Nat} {R : Nat → Prop} (hR : SafeK P R) (off : Nat)
    (hf : 14 * (P.nfa.length + 5) ≤ fuel) :
    ∀ (L ns : List Thr) (r : RVal), (∀ x ∈ L, R x.station ∧ Station P x.station ∧ Sound x.res) → (∀ x ∈ ns, R x.station ∧ Station P x.station ∧ Sound x.res) →
      cycle P t (fun th off ns => addthread P t junk fuel true th off [] 0 ns) off L ns r = .error .assertion ∨
      ∃ o, cycle P t (fun th off ns => addthread P t junk fuel true th off [] 0 ns) off L ns r = .ok o ∧
        ∀ x ∈ o.1, R x.station ∧ Station P x.station ∧ Sound x.res := by
  intro L
  induction L with
  | nil => intro ns r _ hns; exact .inr ⟨_, rfl, hns⟩
  | cons th L ih =>
    intro ns r hL hns
    rw [cycle]
    obtain ⟨hr, ⟨i0, hi0, hst⟩, hso⟩ := hL th (by simp)
    obtain ⟨i, hi, hok, hsu⟩ := hR _ hr
    rw [hi0] at hi; cases hi
    obtain ⟨st, hc⟩ := consume_total (okI_of hok hst) hst (chAt t off)
    have hL' : ∀ x ∈ L, R x.station ∧ Station P x.station ∧ Sound x.res := fun x hx => hL x (List.mem_cons_of_mem _ hx)
    unfold stepThread
    rw [hi0, res_bind_ok, hc, res_bind_ok]
    cases st with
    | stops => exact ih ns r hL' hns
    | accepts =>
      dsimp only
      split
      · obtain ⟨r', hcap, -⟩ := hso.set 1 (by omega) off
        rw [hcap]
        exact ih ns _ hL' hns
      · exact ih ns r hL' hns
    | goesOn n =>
      dsimp only
      have hn := hsu n (consume_succ hc)
      rcases addthread_safeK (t := t) (junk := junk) hR (off + 1) fuel true ⟨n, th.res⟩ [] 0 ns hn hso hns (by simp)
        (by unfold need; simp only [List.length_nil, if_true]; omega) with h | ⟨out, h, h2⟩
      · rw [h]; exact .inl rfl
      · rw [h]
        exact ih out r hL' h2

theorem matchLoop_safeK {P : Prog} {t : List UCS4} {junk fuel : Nat} {R : Nat → Prop} (hR : SafeK P R)
    (hf : 14 * (P.nfa.length + 5) ≤ fuel) :
    ∀ (n off : Nat) (L : List Thr) (r : RVal), (∀ x ∈ L, R x.station ∧ Station P x.station ∧ Sound x.res) →
      matchLoop P t (fun th off ns => addthread P t junk fuel true th off [] 0 ns) n off L r = .error .assertion ∨
      ∃ o, matchLoop P t (fun th off ns => addthread P t junk fuel true th off [] 0 ns) n off L r = .ok o := by
  intro n
  induction n with
  | zero => intro off L r _; exact .inr ⟨_, rfl⟩
  | succ n ih =>
    intro off L r hL
    rw [matchLoop]
    split
    · exact .inr ⟨_, rfl⟩
    · rcases cycle_safeK (t := t) (junk := junk) hR off hf L [] r hL (by simp) with h | ⟨o, h, h2⟩
      · rw [h]; exact .inl rfl
      · rw [h]; exact ih _ _ _ h2

theorem matchRun_safeK {P : Prog} {t : List UCS4} {junk fuel : Nat} {R : Nat → Prop} (hR : SafeK P R) (h1 : P.maxCounter ≤ 127) (h2 : 1 ≤ P.maxCapture)
    (hf : 14 * (P.nfa.length + 5) ≤ fuel) (s off : Nat) (hs : R s) :
    matchRun P t junk fuel s off = .error .assertion ∨ ∃ o, matchRun P t junk fuel s off = .ok o := by
  unfold matchRun matchFrom
  rcases addthread_safeK (t := t) (junk := junk) hR off fuel true ⟨s, RVal.new P.maxCounter P.maxCapture⟩ [] 0 [] hs ⟨_, rep_new _ _ h1 h2⟩ (by simp) (by simp)
    (by unfold need; simp only [List.length_nil, if_true]; omega) with h | ⟨out, h, h2⟩
  · simp only [h]; exact .inl rfl
  · simp only [h, res_bind_ok]
    exact matchLoop_safeK hR hf _ _ _ _ h2

/-- The stations of a compiled expression are safe -/
theorem Compiled.safeK {r : Re} {P : Prog} (h : Compiled r P) : ∃ R, SafeK P R ∧ R P.startStation ∧ R P.searchStation := by
  obtain ⟨bs, a, j, n, hc, hat, hS, d1, d2, d3, ga, gj⟩ := h.parts
  have hst := decode_capStart hat.left.left
  have hb : At P (P.startStation + 2) bs := hat.left.right
  have hacc : At P (P.startStation + 2 + bs.length) [opAccept] := by
    have := hat.right
    rwa [List.length_append, ← Nat.add_assoc] at this
  obtain ⟨S, hI⟩ := code_okK h.len hc _ hb
  have hs := hI.start
  obtain ⟨hI1, hI2, hI3⟩ := hI
  have hd := decode_accept hacc
  refine ⟨fun s => S s ∨ s = P.startStation + 2 + bs.length ∨ s = P.searchStation ∨ s = a ∨ s = j ∨ s = P.startStation, ?_,
    .inr (.inr (.inr (.inr (.inr rfl)))), .inr (.inr (.inl rfl))⟩
  rintro s (h | rfl | rfl | rfl | rfl | rfl)
  · obtain ⟨i, h1, h2, h3⟩ := hI3 s h
    refine ⟨i, h1, h2, fun m hm => ?_⟩
    rcases h3 m hm with h | h
    · exact .inl h
    · exact .inr (.inl h)
  · exact ⟨_, hd, trivial, by simp [Instr.succs]⟩
  · refine ⟨_, d1, trivial, ?_⟩
    simp only [Instr.succs, List.mem_cons, List.not_mem_nil, or_false]
    rintro m (rfl | rfl)
    · exact .inr (.inr (.inr (.inr (.inr rfl))))
    · exact .inr (.inr (.inr (.inl rfl)))
  · refine ⟨_, d2, trivial, ?_⟩
    simp only [Instr.succs, List.mem_cons, List.not_mem_nil, or_false]
    rintro m rfl
    exact .inr (.inr (.inr (.inr (.inl rfl))))
  · refine ⟨_, d3, .inr ⟨_, _, d1⟩, ?_⟩
    simp only [Instr.succs, List.mem_cons, List.not_mem_nil, or_false]
    rintro m rfl
    exact .inr (.inr (.inl rfl))
  · refine ⟨_, hst, ⟨rfl, by omega⟩, ?_⟩
    simp only [Instr.succs, List.mem_cons, List.not_mem_nil, or_false]
    rintro m rfl
    rcases hs with h | h
    · exact .inl h
    · exact .inr (.inl h)

/-- `matchAt` ends, with a result or a failed assertion -/
theorem Compiled.matchAt_safeK {r : Re} {P : Prog} (h : Compiled r P) (t : List UCS4) (junk fuel off : Nat)
    (hf : 14 * (P.nfa.length + 5) ≤ fuel) :
    P.matchAt junk fuel t off = .error .assertion ∨ ∃ res, P.matchAt junk fuel t off = .ok res := by
  obtain ⟨R, hR, h1, -⟩ := h.safeK
  unfold Prog.matchAt
  rcases matchRun_safeK (t := t) (junk := junk) hR (by have := h.counters; omega) (by rw [h.captures]; omega) hf P.startStation off h1 with h | ⟨o, h⟩
  · rw [h]; exact .inl rfl
  · rw [h]; exact .inr ⟨_, rfl⟩

theorem Compiled.matchAfter_safeK {r : Re} {P : Prog} (h : Compiled r P) (t : List UCS4) (junk fuel off : Nat)
    (hf : 14 * (P.nfa.length + 5) ≤ fuel) :
    P.matchAfter junk fuel t off = .error .assertion ∨ ∃ res, P.matchAfter junk fuel t off = .ok res := by
  obtain ⟨R, hR, -, h1⟩ := h.safeK
  unfold Prog.matchAfter
  rcases matchRun_safeK (t := t) (junk := junk) hR (by have := h.counters; omega) (by rw [h.captures]; omega) hf P.searchStation off h1 with h | ⟨o, h⟩
  · rw [h]; exact .inl rfl
  · rw [h]; exact .inr ⟨_, rfl⟩

end Strpp.Rx
