import Verif.Proof.StrOwn
import Verif.Spec.StrVal
namespace Strpp.SV

open Spec Arr

/-- The closure `x` does on characters what `f` says, as long as its state satisfies `I`. -/
def Behaves {S : Type} (I : S → Prop) (x : XForm S) (f : S → List UCS4 → S × List UCS4 × Nat) : Prop :=
  ∀ st b cs k, I st → BDen b cs → k < cs.length → ∃ repl pre post,
    x st b.arr.mem (bpos cs k) (encodeAll cs).length = .ok ((f st (cs.drop k)).1, repl, bpos cs (k + (f st (cs.drop k)).2.2)) ∧
    k + (f st (cs.drop k)).2.2 ≤ cs.length ∧ Den repl pre (f st (cs.drop k)).2.1 post ∧ I (f st (cs.drop k)).1

/-- The same for one text and the body that holds it. -/
def BehavesAt {S : Type} (I : S → Prop) (x : XForm S) (f : S → List UCS4 → S × List UCS4 × Nat) (b : SBody) (cs : List UCS4) : Prop :=
  ∀ st k, I st → k < cs.length → ∃ repl pre post,
    x st b.arr.mem (bpos cs k) (encodeAll cs).length = .ok ((f st (cs.drop k)).1, repl, bpos cs (k + (f st (cs.drop k)).2.2)) ∧
    k + (f st (cs.drop k)).2.2 ≤ cs.length ∧ Den repl pre (f st (cs.drop k)).2.1 post ∧ I (f st (cs.drop k)).1

theorem Behaves.at {S : Type} {I : S → Prop} {x : XForm S} {f : S → List UCS4 → S × List UCS4 × Nat} (h : Behaves I x f) {b : SBody}
    {cs : List UCS4} (hb : BDen b cs) : BehavesAt I x f b cs := fun st k hI hk => h st b cs k hI hb hk

section
variable {S : Type} {b : SBody} {cs : List UCS4}

theorem skipTo_spec (h : BDen b cs) : ∀ (n k fuel p : Nat), k + n ≤ cs.length → n < fuel →
    skipTo b.arr.mem (bpos cs (k + n)) fuel (bpos cs k) p = .ok (bpos cs (k + n), p + n) := by
  intro n
  induction n with
  | zero =>
    intro k fuel p hk hf
    obtain ⟨f, rfl⟩ : ∃ f, fuel = f + 1 := ⟨fuel - 1, by omega⟩
    rw [skipTo, Nat.add_zero, if_neg (by omega)]; rfl
  | succ n ih =>
    intro k fuel p hk hf
    obtain ⟨f, rfl⟩ : ∃ f, fuel = f + 1 := ⟨fuel - 1, by omega⟩
    have h1 := bpos_strict cs (show k < k + (n + 1) by omega) hk
    have h2 := bpos_strict cs (show k < k + 1 by omega) (by omega)
    rw [skipTo, if_pos h1, h.lenAt k (by omega), res_bind_ok]
    have e : bpos cs k + (bpos cs (k + 1) - bpos cs k) = bpos cs (k + 1) := by omega
    have e2 : k + (n + 1) = k + 1 + n := by omega
    rw [e, e2, ih (k + 1) f (p + 1) (by omega) (by omega)]
    congr 2; omega

/-- output written so far -/
structure Out (b : SBody) (o : List UCS4) : Prop where
  wf : b.arr.WF
  st : b.arr.static = false
  txt : b.arr.elems = encodeAll o
  nc : b.nc = o.length

theorem Out.num {b : SBody} {o : List UCS4} (h : Out b o) : b.arr.num = (encodeAll o).length := by
  rw [← h.wf.length, h.txt]

theorem room_spec (a : Arr.Body Byte) (h : a.WF) (hs : a.static = false) (hc : a.num + 7 ≤ 2147483647) :
    ∃ a', room a = .ok a' ∧ a'.WF ∧ a'.static = false ∧ a'.num = a.num ∧ a'.elems = a.elems ∧ a.num + 7 ≤ a'.mem.length := by
  unfold room
  split
  · exact resize_spec a h hs (a.num + 7) (by omega) hc
  · exact ⟨a, rfl, h, hs, rfl, rfl, by rw [h.alloc hs]; omega⟩

theorem append_mem (a : Arr.Body Byte) (h : a.WF) (hs : a.static = false) (es : List Byte) (hr : a.num + es.length ≤ a.mem.length)
    (hc : a.num + es.length ≤ 2147483647) :
    ∃ mem, copyIn a.mem a.num es = .ok mem ∧ ({ a with mem := mem, num := a.num + es.length } : Arr.Body Byte).WF ∧
      ({ a with mem := mem, num := a.num + es.length } : Arr.Body Byte).elems = a.elems ++ es := by
  have hle := h.le
  refine ⟨_, copyIn_spec es a.mem a.num hr, ⟨?_, ?_, ?_, hc⟩, ?_⟩
  · simp; omega
  · intro _
    have := h.alloc hs
    simp only [List.length_append, List.length_take, List.length_drop]
    omega
  · intro h'; simp only at h'; rw [hs] at h'; cases h'
  · simp only [Body.elems]
    have e1 : (a.mem.take a.num).length = a.num := by simp; omega
    rw [List.take_append_of_le_length (by simp; omega), List.take_of_length_le (by simp; omega)]

theorem copyStep_spec (h : BDen b cs) (k : Nat) (hk : k < cs.length) (t : TState S) (o : List UCS4) (ho : Out t.out o)
    (hup : t.up = bpos cs k) (hsz : (encodeAll (o ++ [cs[k]])).length < 1073741824) :
    ∃ out, copyStep b.arr.mem t = .ok { t with out := out, up := bpos cs (k + 1), processed := t.processed + 1 } ∧
      Out out (o ++ [cs[k]]) := by
  have hn := ho.num
  simp only [encodeAll_append, encodeAll_cons, encodeAll_nil, List.append_nil, List.length_append] at hsz
  have hput : (utf8Put cs[k]).length ≤ 6 := by rw [(C02_utf8_len cs[k]).1]; exact (C02_utf8_len cs[k]).2.2
  obtain ⟨a, a1, a2, a3, a4, a5, a6⟩ := room_spec t.out.arr ho.wf ho.st (by omega)
  obtain ⟨mem, m1, m2, m3⟩ := append_mem a a2 a3 (utf8Put cs[k]) (by omega) (by omega)
  unfold copyStep
  rw [hup, h.get k hk, res_bind_ok, a1, res_bind_ok]
  simp only
  rw [m1, res_bind_ok]
  exact ⟨_, rfl, m2, a3, by rw [m3, a5, ho.txt]; simp, by simp [ho.nc]⟩

theorem copyLoop_spec (x : XForm S) (rc : Nat) (h : BDen b cs) (after : Int) : ∀ (d k fuel : Nat) (t : TState S) (o : List UCS4),
    k + d = cs.length → d < fuel → Out t.out o → t.up = bpos cs k → t.stopped = true →
    (encodeAll (o ++ cs.drop k)).length < 1073741824 →
    ∃ t', transLoop x rc b.arr.mem (encodeAll cs).length after fuel t = .ok t' ∧ Out t'.out (o ++ cs.drop k) ∧ t'.st = t.st := by
  intro d
  induction d with
  | zero =>
    intro k fuel t o hk hf ho hup hst hsz
    obtain ⟨f, rfl⟩ : ∃ f, fuel = f + 1 := ⟨fuel - 1, by omega⟩
    rw [transLoop, if_neg (by rw [hup, bpos_end cs k (by omega)]; omega)]
    exact ⟨t, rfl, by rw [List.drop_eq_nil_of_le (by omega), List.append_nil]; exact ho, rfl⟩
  | succ d ih =>
    intro k fuel t o hk hf ho hup hst hsz
    obtain ⟨f, rfl⟩ : ∃ f, fuel = f + 1 := ⟨fuel - 1, by omega⟩
    have hlt : k < cs.length := by omega
    have hb : bpos cs k < (encodeAll cs).length := by
      rw [← bpos_end cs cs.length (Nat.le_refl _)]; exact bpos_strict cs hlt (Nat.le_refl _)
    have hd : cs.drop k = cs[k] :: cs.drop (k + 1) := List.drop_eq_getElem_cons hlt
    have happ : o ++ cs.drop k = (o ++ [cs[k]]) ++ cs.drop (k + 1) := by rw [hd]; simp
    rw [happ] at hsz ⊢
    obtain ⟨out, c1, c2⟩ := copyStep_spec h k hlt t o ho hup
      (by rw [encodeAll_append, List.length_append] at hsz; omega)
    have hts : transStep x rc b.arr.mem (encodeAll cs).length after t = copyStep b.arr.mem t := by
      unfold transStep; rw [if_neg (by simp [hst])]
    rw [transLoop, if_pos (by rw [hup]; exact hb), hts, c1, res_bind_ok]
    exact ih (k + 1) f _ (o ++ [cs[k]]) (by omega) (by omega) c2 rfl hst hsz

theorem xformStep_spec (I : S → Prop) (x : XForm S) (f : S → List UCS4 → S × List UCS4 × Nat) (hx : BehavesAt I x f b cs) (rc : Nat)
    (hrc : rc ≤ 1) (h : BDen b cs) (k : Nat) (hk : k < cs.length) (t : TState S) (o : List UCS4) (ho : Out t.out o)
    (hup : t.up = bpos cs k) (hpr : t.processed = k) (hI : I t.st)
    (hsz : (encodeAll (o ++ (f t.st (cs.drop k)).2.1)).length < 1073741824) :
    ∃ t', xformStep x rc b.arr.mem (encodeAll cs).length t = .ok t' ∧ Out t'.out (o ++ (f t.st (cs.drop k)).2.1) ∧
      t'.up = bpos cs (k + (f t.st (cs.drop k)).2.2) ∧ t'.processed = k + (f t.st (cs.drop k)).2.2 ∧
      t'.st = (f t.st (cs.drop k)).1 ∧ t'.stopped = (t.stopped || decide ((f t.st (cs.drop k)).2.2 = 0)) ∧ I t'.st ∧
      k + (f t.st (cs.drop k)).2.2 ≤ cs.length := by
  have hb : bpos cs k < (encodeAll cs).length := by
    rw [← bpos_end cs cs.length (Nat.le_refl _)]; exact bpos_strict cs hk (Nat.le_refl _)
  obtain ⟨repl, pre, post, x1, x2, x3, x4⟩ := hx t.st k hI hk
  generalize f t.st (cs.drop k) = r at *
  have hml : cs.length < b.arr.mem.length + 1 := by
    have := h.num; have := h.wf.le; have := encodeAll_length_ge cs; omega
  have hn := ho.num
  simp only [encodeAll_append, List.length_append] at hsz
  obtain ⟨arr, i1, i2, i3, i4, i5⟩ := insert_spec t.out.arr ho.wf ho.st rc hrc t.out.arr.num (Nat.le_refl _) (encodeAll r.2.1) (by omega)
  unfold xformStep
  rw [hup, decide_eq_true hb, assert_true, res_bind_ok, x1, res_bind_ok]
  simp only
  rw [skipTo_spec h r.2.2 k _ t.processed x2 (by omega), res_bind_ok, x3.bytes, res_bind_ok, i1, res_bind_ok]
  refine ⟨_, rfl, ⟨i2, i3, ?_, ?_⟩, rfl, by simp only; omega, rfl, ?_, x4, x2⟩
  · simp only [i5]
    have hl := ho.wf.length
    rw [List.take_of_length_le (by omega), List.drop_eq_nil_of_le (by omega), ho.txt]; simp
  · simp only; rw [ho.nc, x3.num]; simp
  · simp only
    congr 1
    rw [Bool.eq_iff_iff]
    simp only [beq_iff_eq, decide_eq_true_eq]
    constructor
    · intro he
      rcases Nat.eq_zero_or_pos r.2.2 with h0 | h0
      · exact h0
      · have := bpos_strict cs (show k < k + r.2.2 by omega) x2; omega
    · intro he; rw [he]; rfl

theorem xformLoop_spec (I : S → Prop) (x : XForm S) (f : S → List UCS4 → S × List UCS4 × Nat) (hx : BehavesAt I x f b cs) (rc : Nat)
    (hrc : rc ≤ 1) (h : BDen b cs) (after : Int) : ∀ (d k fuel : Nat) (t : TState S) (o : List UCS4),
    k + d = cs.length → 2 * d + 1 < fuel → Out t.out o → t.up = bpos cs k → t.stopped = false → t.processed = k →
    wrap (after + 1) ≤ k → I t.st →
    (encodeAll (o ++ (transformed f t.st (cs.drop k)).2)).length < 1073741824 →
    ∃ t', transLoop x rc b.arr.mem (encodeAll cs).length after fuel t = .ok t' ∧
      Out t'.out (o ++ (transformed f t.st (cs.drop k)).2) ∧ t'.st = (transformed f t.st (cs.drop k)).1 := by
  intro d
  induction d using Nat.strongRecOn with
  | _ d ih =>
    intro k fuel t o hk hf ho hup hst hpr haf hI hsz
    obtain ⟨fu, rfl⟩ : ∃ f, fuel = f + 1 := ⟨fuel - 1, by omega⟩
    rcases Nat.eq_zero_or_pos d with h0 | hpos
    · rw [transLoop, if_neg (by rw [hup, bpos_end cs k (by omega)]; omega)]
      rw [List.drop_eq_nil_of_le (by omega), transformed, if_pos rfl]
      exact ⟨t, rfl, by simpa using ho, rfl⟩
    · have hlt : k < cs.length := by omega
      have hb : bpos cs k < (encodeAll cs).length := by
        rw [← bpos_end cs cs.length (Nat.le_refl _)]; exact bpos_strict cs hlt (Nat.le_refl _)
      have hne : cs.drop k ≠ [] := by simp; omega
      have hunf := transformed.eq_1 f t.st (cs.drop k)
      rw [if_neg hne] at hunf
      have hsz1 : (encodeAll (o ++ (f t.st (cs.drop k)).2.1)).length < 1073741824 := by
        rw [hunf] at hsz
        split at hsz <;> simp only [encodeAll_append, List.length_append] at hsz ⊢ <;> omega
      obtain ⟨t', s1, s2, s3, s4, s5, s6, s7, s8⟩ := xformStep_spec I x f hx rc hrc h k hlt t o ho hup hpr hI hsz1
      have hts : transStep x rc b.arr.mem (encodeAll cs).length after t = xformStep x rc b.arr.mem (encodeAll cs).length t := by
        unfold transStep; rw [if_pos (by simp [hst]; omega)]
      rw [transLoop, if_pos (by rw [hup]; exact hb), hts, s1, res_bind_ok]
      by_cases hz : (f t.st (cs.drop k)).2.2 = 0
      · rw [hunf, if_pos hz] at hsz ⊢
        rw [hz, Nat.add_zero] at s3
        simp only [← List.append_assoc] at hsz ⊢
        obtain ⟨t'', c1, c2, c3⟩ := copyLoop_spec x rc h after d k fu t' _ hk (by omega) s2 s3 (by rw [s6, hz]; simp) hsz
        exact ⟨t'', c1, c2, by rw [c3, s5]⟩
      · rw [hunf, if_neg hz] at hsz ⊢
        simp only [← List.append_assoc, List.drop_drop] at hsz ⊢
        rw [← s5] at hsz ⊢
        exact ih (d - (f t.st (cs.drop k)).2.2) (by omega) (k + (f t.st (cs.drop k)).2.2) fu t' _ (by omega) (by omega) s2 s3
          (by rw [s6, hst]; simp [hz]) s4 (by omega) s7 hsz

theorem preLoop_spec (I : S → Prop) (x : XForm S) (f : S → List UCS4 → S × List UCS4 × Nat) (hx : BehavesAt I x f b cs) (rc : Nat)
    (hrc : rc ≤ 1) (h : BDen b cs) (after : Int) (keep : Nat) (hkeep : wrap (after + 1) = keep) :
    ∀ (e d k fuel : Nat) (t : TState S) (o : List UCS4), e = keep - k →
    k + d = cs.length → 2 * d + 1 < fuel → Out t.out o → t.up = bpos cs k → t.stopped = false → t.processed = k → I t.st →
    (encodeAll (o ++ transformAfter f t.st (keep - k) (cs.drop k))).length < 1073741824 →
    ∃ t', transLoop x rc b.arr.mem (encodeAll cs).length after fuel t = .ok t' ∧
      Out t'.out (o ++ transformAfter f t.st (keep - k) (cs.drop k)) ∧
      t'.st = (transformed f t.st ((cs.drop k).drop (keep - k))).1 := by
  intro e
  induction e with
  | zero =>
    intro d k fuel t o he hk hf ho hup hst hpr hI hsz
    unfold transformAfter at hsz ⊢
    rw [← he] at hsz ⊢
    simp only [List.take_zero, List.nil_append, List.drop_zero] at hsz ⊢
    exact xformLoop_spec I x f hx rc hrc h after d k fuel t o hk hf ho hup hst hpr (by omega) hI hsz
  | succ e ih =>
    intro d k fuel t o he hk hf ho hup hst hpr hI hsz
    rcases Nat.eq_zero_or_pos d with h0 | hpos
    · obtain ⟨fu, rfl⟩ : ∃ f, fuel = f + 1 := ⟨fuel - 1, by omega⟩
      rw [transLoop, if_neg (by rw [hup, bpos_end cs k (by omega)]; omega)]
      have hd : cs.drop k = [] := List.drop_eq_nil_of_le (by omega)
      unfold transformAfter
      rw [hd]
      simp only [List.take_nil, List.drop_nil]
      rw [transformed, if_pos rfl]
      exact ⟨t, rfl, by simpa using ho, rfl⟩
    · obtain ⟨fu, rfl⟩ : ∃ f, fuel = f + 1 := ⟨fuel - 1, by omega⟩
      have hlt : k < cs.length := by omega
      have hb : bpos cs k < (encodeAll cs).length := by
        rw [← bpos_end cs cs.length (Nat.le_refl _)]; exact bpos_strict cs hlt (Nat.le_refl _)
      have hd : cs.drop k = cs[k] :: cs.drop (k + 1) := List.drop_eq_getElem_cons hlt
      have htr : transformAfter f t.st (keep - k) (cs.drop k) = cs[k] :: transformAfter f t.st (keep - (k + 1)) (cs.drop (k + 1)) := by
        unfold transformAfter
        rw [hd, show keep - k = (keep - (k + 1)) + 1 by omega, List.take_succ_cons, List.drop_succ_cons]; rfl
      have htr2 : (cs.drop k).drop (keep - k) = (cs.drop (k + 1)).drop (keep - (k + 1)) := by
        rw [List.drop_drop, List.drop_drop]; congr 1; omega
      rw [htr] at hsz
      rw [htr, htr2]
      have happ : o ++ cs[k] :: transformAfter f t.st (keep - (k + 1)) (cs.drop (k + 1)) =
        (o ++ [cs[k]]) ++ transformAfter f t.st (keep - (k + 1)) (cs.drop (k + 1)) := by simp
      rw [happ] at hsz ⊢
      obtain ⟨out, c1, c2⟩ := copyStep_spec h k hlt t o ho hup
        (by rw [encodeAll_append, List.length_append] at hsz; omega)
      have hts : transStep x rc b.arr.mem (encodeAll cs).length after t = copyStep b.arr.mem t := by
        unfold transStep; rw [if_neg (by simp; omega)]
      rw [transLoop, if_pos (by rw [hup]; exact hb), hts, c1, res_bind_ok]
      exact ih (d - 1) (k + 1) fu _ (o ++ [cs[k]]) (by omega) (by omega) (by omega) c2 rfl hst (by simp; omega) hI hsz

theorem transform_spec (I : S → Prop) (x : XForm S) (f : S → List UCS4 → S × List UCS4 × Nat) (hx : BehavesAt I x f b cs) (st : S)
    (hI : I st) (rc : Nat) (hrc : rc ≤ 1) (h : BDen b cs) (hs : b.arr.static = false) (after : Int) (keep : Nat)
    (hkeep : wrap (after + 1) = keep) (hgood : ∀ c ∈ transformAfter f st keep cs, ¬ Reserved c)
    (hsz : (encodeAll (transformAfter f st keep cs)).length < 1073741824) :
    ∃ b', b.transform x st rc after = .ok ((transformed f st (cs.drop keep)).1, b') ∧ BDen b' (transformAfter f st keep cs) ∧
      b'.nc = (transformAfter f st keep cs).length ∧ b'.arr.static = false := by
  have hn := h.num
  have hsm := h.small
  have hemp : (Body.empty : Body Byte).WF := ⟨by simp [Body.empty], fun _ => rfl, nofun, by simp [Body.empty]⟩
  obtain ⟨arr, r1, r2, r3, r4, r5, r6⟩ := resize_spec (Body.empty : Body Byte) hemp rfl (b.arr.num + 6) (by simp [Body.empty]) (by omega)
  obtain ⟨t, t1, t2, t3⟩ := preLoop_spec I x f hx rc hrc h after keep hkeep keep cs.length 0 (2 * b.arr.num + 2)
    ⟨st, ⟨arr, 0⟩, 0, 0, false⟩ [] (by omega) (by omega)
    (by have := encodeAll_length_ge cs; omega) ⟨r2, r3, by rw [r5]; rfl, rfl⟩ rfl rfl rfl hI (by simpa using hsz)
  simp only [Nat.sub_zero, List.drop_zero, List.nil_append] at t2 t3
  have tn := t2.num
  obtain ⟨arr', i1, i2, i3, i4, i5⟩ := insert_spec t.out.arr t2.wf t2.st rc hrc t.out.arr.num (Nat.le_refl _) [0#8] (by simp; omega)
  unfold SBody.transform
  rw [decide_eq_true hrc, assert_true, res_bind_ok, r1, res_bind_ok]
  rw [hn, Nat.add_sub_cancel, ← hn, t1, res_bind_ok, i1, res_bind_ok, if_neg (by rw [hs]; decide), t3]
  refine ⟨_, rfl, ⟨i2, ?_, hgood, ?_, Or.inr t2.nc⟩, t2.nc, i3⟩
  · simp only [i5]
    have hl := t2.wf.length
    rw [List.take_of_length_le (by omega), List.drop_eq_nil_of_le (by omega), t2.txt]; simp
  · simp only [i4, List.length_cons, List.length_nil]; omega

end

end Strpp.SV
