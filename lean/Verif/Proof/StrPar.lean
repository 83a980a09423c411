import Verif.Proof.StrVal
import Verif.Spec.StrPar
/-! Threads reading one string: every step, and every schedule. -/
set_option linter.unusedSimpArgs false
set_option linter.unusedVariables false
namespace Strpp.SP

open Arr (wrap readN)
open SV

/-- where character `k` of the slice is -/
def ptr (cs : List UCS4) (off num k : Nat) : Option Nat := if k ≤ num then some (bpos cs (off + k)) else none

/-- a lookup in the middle of its call -/
def Mid (cs : List UCS4) (th : Thread) (ks : List Nat) (got : List (Option Nat)) : Prop :=
  ∃ c rest ks0, th.todo = c :: rest ∧ c.ks th.num = ks0 ++ ks ∧ got = ks0.map (ptr cs th.off th.num)

def PInv (cs : List UCS4) (nc : Nat) (th : Thread) : Prop :=
  match th.at_ with
  | .idle => nc = 0 ∨ nc = cs.length
  | .look ks got => (nc = 0 ∨ nc = cs.length) ∧ Mid cs th ks got
  | .test k ks got => (nc = 0 ∨ nc = cs.length) ∧ cs ≠ [] ∧ k ≤ th.num ∧ Mid cs th (k :: ks) got
  | .scan cp k ks got => nc ≤ cs.length ∧ cp = bpos cs nc ∧ k ≤ th.num ∧ Mid cs th (k :: ks) got
  | .load cp k ks got => nc < cs.length ∧ cp = bpos cs (nc + 1) ∧ k ≤ th.num ∧ Mid cs th (k :: ks) got
  | .store n cp k ks got => nc < cs.length ∧ n = nc + 1 ∧ cp = bpos cs (nc + 1) ∧ k ≤ th.num ∧ Mid cs th (k :: ks) got
  | .found k ks got => nc = cs.length ∧ k ≤ th.num ∧ Mid cs th (k :: ks) got

/-- a thread made `calls0`: those done gave what they should -/
structure TInv (arr : Arr.Body Byte) (nc : Nat) (pre t post : List UCS4) (calls0 : List Call) (th : Thread) : Prop where
  alive : th.dead = none
  body : BDen ⟨arr, 0⟩ (pre ++ t ++ post)
  off : th.off = pre.length
  num : th.num = t.length
  mark : MarkOk (pre ++ t ++ post) th.mark
  calls : ∃ done, calls0 = done ++ th.todo ∧ th.out = done.map (expected t)
  ints : ∀ c ∈ calls0, c.Int32
  pos : PInv (pre ++ t ++ post) nc th

/-- how many more steps a thread takes at most -/
def lookups (L : Nat) (n : Nat) : Nat := n * (3 * L + 4) + 1
def perCall (L : Nat) : Nat := 2 * (3 * L + 4) + 2
def posLeft (L nc : Nat) : Pos → Nat
  | .idle => perCall L
  | .look ks _ => lookups L ks.length
  | .test _ ks _ => lookups L ks.length + (3 * L + 3)
  | .scan _ _ ks _ => lookups L ks.length + (3 * (L - nc) + 2)
  | .load _ _ ks _ => lookups L ks.length + (3 * (L - nc) + 1)
  | .store _ _ _ ks _ => lookups L ks.length + 3 * (L - nc)
  | .found _ ks _ => lookups L ks.length + 1
def left (L nc : Nat) (th : Thread) : Nat :=
  if th.todo = [] then 0 else (th.todo.length - 1) * perCall L + posLeft L nc th.at_

theorem ks_len (c : Call) (n : Nat) : (c.ks n).length ≤ 2 := by
  cases c <;> simp [Call.ks]
  split <;> simp

section
variable {arr : Arr.Body Byte} {nc : Nat} {pre t post : List UCS4} {calls0 : List Call} {th : Thread}

theorem den_of (h : TInv arr nc pre t post calls0 th) : BDen ⟨arr, 0⟩ (pre ++ t ++ post) := h.body

theorem body_at {arr : Arr.Body Byte} {cs : List UCS4} (h : BDen ⟨arr, 0⟩ cs) {nc : Nat} (hn : nc = 0 ∨ nc = cs.length) :
    BDen ⟨arr, nc⟩ cs := ⟨h.wf, h.txt, h.good, h.small, hn⟩

/-- the end of a call -/
theorem final_ok (h : TInv arr nc pre t post calls0 th) (c : Call) (hc : c.Int32) :
    c.final arr ((c.ks th.num).map (ptr (pre ++ t ++ post) th.off th.num)) = .ok (expected t c) := by
  have hb := h.body
  have hn := hb.num
  have hsm := hb.small
  have hlen := encodeAll_length_ge (pre ++ t ++ post)
  simp only [List.length_append] at hlen
  simp only at hn hsm
  obtain ⟨slack, hm⟩ := hb.mem
  simp only at hm
  have e0 : bpos (pre ++ t ++ post) (pre.length + 0) = (encodeAll pre).length := by
    rw [bpos_mid _ _ _ _ (by omega), bpos_zero]; omega
  have e1 : bpos (pre ++ t ++ post) (pre.length + t.length) = (encodeAll pre).length + (encodeAll t).length := by
    rw [bpos_mid _ _ _ _ (Nat.le_refl _), bpos_end t _ (Nat.le_refl _)]
  cases c with
  | get i =>
    simp only [Call.Int32] at hc
    rw [h.num, h.off]
    simp only [Call.ks, expected]
    by_cases h1 : wrap i = t.length
    · have : i = t.length := by unfold wrap at h1; omega
      rw [if_pos (by simpa using h1), if_pos this]; rfl
    · rw [if_neg (by simpa using h1)]
      have hne : i ≠ t.length := by intro h2; apply h1; unfold wrap; omega
      rw [if_neg hne]
      simp only [List.map_cons, List.map_nil]
      rcases Nat.lt_or_ge (wrap i) t.length with hlt | hge
      · have hw : wrap i = i.toNat ∧ 0 ≤ i := by
          unfold wrap at hlt ⊢
          omega
        rw [ptr, if_pos (by omega), if_neg (by omega)]
        have hl : pre.length + wrap i < (pre ++ t ++ post).length := by simp; omega
        have hg := hb.get _ hl
        simp only at hg
        simp only [Call.final, hg, res_bind_ok]
        have e : (pre ++ t ++ post)[pre.length + wrap i] = t[wrap i] := by
          simp [List.getElem_append_left hlt]
        rw [e, ← hw.1, List.getElem?_eq_getElem hlt]; rfl
      · rw [ptr, if_neg (by omega)]
        simp only [Call.final]
        by_cases h0 : i < 0
        · rw [if_pos h0]
        · rw [if_neg h0, List.getElem?_eq_none (by unfold wrap at hge; omega)]; rfl
  | numBytes =>
    rw [h.num, h.off]
    simp only [Call.ks, List.map_cons, List.map_nil, ptr, Nat.zero_le, Nat.le_refl, if_true, Call.final, e0, e1]
    simp only [Option.isSome_some, assert_true, res_bind_ok, deref, expected]
    rw [Nat.add_sub_cancel_left]; rfl
  | bytes =>
    rw [h.num, h.off]
    simp only [Call.ks, List.map_cons, List.map_nil, ptr, Nat.zero_le, Nat.le_refl, if_true, Call.final, e0, e1]
    simp only [res_bind_ok, deref, expected]
    rw [Nat.add_sub_cancel_left, Arr.readN_spec _ _ _ (by rw [hm]; simp), hm, res_bind_ok]
    simp [encodeAll]

theorem step_idle (h : TInv arr nc pre t post calls0 th) (ha : th.at_ = .idle) :
    TInv arr (th.step arr nc).1 pre t post calls0 (th.step arr nc).2 ∧ (th.step arr nc).1 = nc ∧
    (th.todo ≠ [] → left (pre ++ t ++ post).length nc (th.step arr nc).2 < left (pre ++ t ++ post).length nc th) := by
  have hp := h.pos
  rw [PInv, ha] at hp
  simp only at hp
  unfold Thread.step
  rw [ha]
  simp only
  split
  · rename_i htd
    exact ⟨h, rfl, fun hc => absurd htd hc⟩
  · rename_i c cs htd
    refine ⟨⟨h.alive, h.body, h.off, h.num, h.mark, h.calls, h.ints, ?_⟩, rfl, fun _ => ?_⟩
    · exact ⟨hp, c, cs, [], htd, rfl, rfl⟩
    · have := ks_len c th.num
      simp only [left, htd, ha, posLeft]
      rw [if_neg (by simp), if_neg (by simp)]
      have h2 : (c.ks th.num).length * (3 * (pre ++ t ++ post).length + 4) ≤ 2 * (3 * (pre ++ t ++ post).length + 4) :=
        Nat.mul_le_mul_right _ this
      unfold lookups perCall
      omega

theorem step_end (h : TInv arr nc pre t post calls0 th) (got) (ha : th.at_ = .look [] got) :
    TInv arr (th.step arr nc).1 pre t post calls0 (th.step arr nc).2 ∧ (th.step arr nc).1 = nc ∧
    (th.todo ≠ [] → left (pre ++ t ++ post).length nc (th.step arr nc).2 < left (pre ++ t ++ post).length nc th) := by
  have hp := h.pos
  rw [PInv, ha] at hp
  simp only at hp
  obtain ⟨hnc, c, rest, ks0, htd, hks, hgot⟩ := hp
  obtain ⟨done, hd1, hd2⟩ := h.calls
  have hin : c.Int32 := h.ints c (by rw [hd1, htd]; simp)
  have hf := final_ok h c hin
  rw [hks, List.append_nil, ← hgot] at hf
  have e : th.step arr nc = (nc, { th with todo := rest, at_ := .idle, out := th.out ++ [expected t c] }) := by
    unfold Thread.step
    rw [ha]
    simp only [Thread.finish, htd, hf]
  rw [e]
  refine ⟨⟨h.alive, h.body, h.off, h.num, h.mark, ⟨done ++ [c], ?_, ?_⟩, h.ints, hnc⟩, rfl, fun _ => ?_⟩
  · rw [hd1, htd]; simp
  · rw [hd2]; simp
  · simp only [left, htd, ha, posLeft]
    by_cases hr : rest = []
    · simp [hr, lookups]
    · rw [if_neg hr, if_neg (by simp)]
      have : 0 < rest.length := List.length_pos_iff.mpr hr
      obtain ⟨m, hm⟩ : ∃ m, rest.length = m + 1 := ⟨rest.length - 1, by omega⟩
      simp only [List.length_cons, hm, Nat.add_sub_cancel, Nat.add_mul, lookups]
      omega

theorem Mid.next {cs : List UCS4} {th : Thread} {k : Nat} {ks : List Nat} {got : List (Option Nat)} (h : Mid cs th (k :: ks) got)
    {p : Option Nat} (hp : p = ptr cs th.off th.num k) : Mid cs th ks (got ++ [p]) := by
  obtain ⟨c, rest, ks0, e1, e2, e3⟩ := h
  exact ⟨c, rest, ks0 ++ [k], e1, by rw [e2]; simp, by rw [e3, hp]; simp⟩

theorem left_pos {L nc : Nat} {th th' : Thread} (hn : th.todo ≠ []) (ht : th'.todo = th.todo) (n' : Nat)
    (hlt : posLeft L n' th'.at_ < posLeft L nc th.at_) : left L n' th' < left L nc th := by
  unfold left
  rw [ht, if_neg hn, if_neg hn]
  omega

theorem step_look (h : TInv arr nc pre t post calls0 th) (k ks got) (ha : th.at_ = .look (k :: ks) got) :
    TInv arr (th.step arr nc).1 pre t post calls0 (th.step arr nc).2 ∧ (th.step arr nc).1 = nc ∧
    (th.todo ≠ [] → left (pre ++ t ++ post).length nc (th.step arr nc).2 < left (pre ++ t ++ post).length nc th) := by
  have hp := h.pos
  rw [PInv, ha] at hp
  simp only at hp
  obtain ⟨hnc, hmid⟩ := hp
  have hb := h.body
  have hn := hb.num
  simp only at hn
  have hcl := encodeAll_length_ge (pre ++ t ++ post)
  have hll : lookups (pre ++ t ++ post).length ks.length + (3 * (pre ++ t ++ post).length + 3) < lookups (pre ++ t ++ post).length (ks.length + 1) := by
    unfold lookups
    rw [Nat.add_mul]; omega
  unfold Thread.step
  rw [ha]
  simp only
  split
  · rename_i hk
    refine ⟨⟨h.alive, h.body, h.off, h.num, h.mark, h.calls, h.ints, hnc, hmid.next ?_⟩, rfl, fun hn => left_pos hn (by rfl) nc ?_⟩
    · rw [ptr, if_neg (by omega)]
    · rw [ha]; simp only [posLeft, List.length_cons]; omega
  · rename_i hk
    split
    · rename_i hs
      refine ⟨⟨h.alive, h.body, h.off, h.num, h.mark, h.calls, h.ints, hnc, hmid.next ?_⟩, rfl, fun hn => left_pos hn (by rfl) nc ?_⟩
      · rw [ptr, if_pos (by omega)]
        congr 1
        by_cases h0 : th.off + k = 0
        · rw [h0, bpos_zero]
        · have ha : nc = arr.num - 1 := by
            rw [Bool.or_eq_true, beq_iff_eq, beq_iff_eq] at hs
            exact hs.resolve_left h0
          have hlen : (pre ++ t ++ post).length = (encodeAll (pre ++ t ++ post)).length := by
            rcases hnc with h | h <;> omega
          rw [bpos_ascii _ hlen _ (by have := h.off; have := h.num; simp; omega)]
      · rw [ha]; simp only [posLeft, List.length_cons]; omega
    · rename_i hs
      refine ⟨⟨h.alive, h.body, h.off, h.num, h.mark, h.calls, h.ints, hnc, ?_, Nat.le_of_not_lt hk, hmid⟩, rfl, fun hn => left_pos hn (by rfl) nc ?_⟩
      · intro hc
        have : pre.length = 0 ∧ t.length = 0 := by simp at hc; simp [hc]
        have h1 := h.off
        have h2 := h.num
        apply hs
        have : th.off + k = 0 := by omega
        simp [this]
      · rw [ha]; simp only [posLeft, List.length_cons]; omega

theorem step_test (h : TInv arr nc pre t post calls0 th) (k ks got) (ha : th.at_ = .test k ks got) :
    TInv arr (th.step arr nc).1 pre t post calls0 (th.step arr nc).2 ∧ (th.step arr nc).1 = nc ∧
    (th.todo ≠ [] → left (pre ++ t ++ post).length nc (th.step arr nc).2 < left (pre ++ t ++ post).length nc th) := by
  have hp := h.pos
  rw [PInv, ha] at hp
  simp only at hp
  obtain ⟨hnc, hne, hk, hmid⟩ := hp
  have hn := h.body.num
  simp only at hn
  unfold Thread.step
  rw [ha]
  simp only
  split
  · rename_i hs
    have h0 : nc = 0 := by simp at hs; exact hs.1
    refine ⟨⟨h.alive, h.body, h.off, h.num, h.mark, h.calls, h.ints, ?_⟩, rfl, fun hn => left_pos hn (by rfl) nc ?_⟩
    · exact ⟨by omega, by rw [h0, bpos_zero], hk, hmid⟩
    · rw [ha]; simp only [posLeft]; omega
  · rename_i hs
    refine ⟨⟨h.alive, h.body, h.off, h.num, h.mark, h.calls, h.ints, ?_⟩, rfl, fun hn => left_pos hn (by rfl) nc ?_⟩
    · refine ⟨?_, hk, hmid⟩
      rcases hnc with h | h
      · exfalso; apply hs; simp [h]; omega
      · exact h
    · rw [ha]; simp only [posLeft]; omega

theorem step_scan (h : TInv arr nc pre t post calls0 th) (cp k ks got) (ha : th.at_ = .scan cp k ks got) :
    TInv arr (th.step arr nc).1 pre t post calls0 (th.step arr nc).2 ∧ (th.step arr nc).1 = nc ∧
    (th.todo ≠ [] → left (pre ++ t ++ post).length nc (th.step arr nc).2 < left (pre ++ t ++ post).length nc th) := by
  have hp := h.pos
  rw [PInv, ha] at hp
  simp only at hp
  obtain ⟨hle, hcp, hk, hmid⟩ := hp
  have hb := h.body
  have hn := hb.num
  simp only at hn
  have hend := bpos_end (pre ++ t ++ post) _ (Nat.le_refl _)
  rcases Nat.lt_or_ge nc (pre ++ t ++ post).length with hlt | hge
  · have h1 := bpos_strict (pre ++ t ++ post) hlt (Nat.le_refl _)
    have h2 := bpos_le_end (pre ++ t ++ post) (nc + 1)
    have hg := hb.get nc hlt
    simp only at hg
    have h3 : ((pre ++ t ++ post)[nc] == 0xFFFFFFFF#32) = false := by
      rw [beq_eq_false_iff_ne]
      intro he
      exact hb.good_at nc hlt (Or.inr he)
    have e : th.step arr nc = (nc, { th with at_ := .load (bpos (pre ++ t ++ post) (nc + 1)) k ks got }) := by
      unfold Thread.step
      rw [ha]
      simp only
      rw [if_pos (by omega), hcp, hg]
      simp only [h3, Bool.false_or]
      rw [if_neg (by rw [decide_eq_true_eq]; omega)]
    rw [e]
    refine ⟨⟨h.alive, h.body, h.off, h.num, h.mark, h.calls, h.ints, ?_⟩, rfl, fun hn => left_pos hn (by rfl) nc ?_⟩
    · exact ⟨hlt, rfl, hk, hmid⟩
    · rw [ha]; simp only [posLeft]; omega
  · have hq : nc = (pre ++ t ++ post).length := by omega
    have e : th.step arr nc = (nc, { th with at_ := .found k ks got }) := by
      unfold Thread.step
      rw [ha]
      simp only
      rw [if_neg (by rw [hcp, hq, hend]; omega)]
    rw [e]
    refine ⟨⟨h.alive, h.body, h.off, h.num, h.mark, h.calls, h.ints, ?_⟩, rfl, fun hn => left_pos hn (by rfl) nc ?_⟩
    · exact ⟨hq, hk, hmid⟩
    · rw [ha]; simp only [posLeft]; omega

theorem step_found (h : TInv arr nc pre t post calls0 th) (k ks got) (ha : th.at_ = .found k ks got) :
    TInv arr (th.step arr nc).1 pre t post calls0 (th.step arr nc).2 ∧ (th.step arr nc).1 = nc ∧
    (th.todo ≠ [] → left (pre ++ t ++ post).length nc (th.step arr nc).2 < left (pre ++ t ++ post).length nc th) := by
  have hp := h.pos
  rw [PInv, ha] at hp
  simp only at hp
  obtain ⟨hnc, hk, hmid⟩ := hp
  have h1 := h.off
  have h2 := h.num
  have hle : th.off + k ≤ (pre ++ t ++ post).length := by simp; omega
  have hs := search_spec (body_at h.body (Or.inr hnc)) hnc (th.off + k) hle th.mark h.mark
  have e : th.step arr nc = (nc, { th with at_ := .look ks (got ++ [some (bpos (pre ++ t ++ post) (th.off + k))]) }) := by
    unfold Thread.step
    rw [ha]
    simp only
    rw [if_neg (by omega), hs]
  rw [e]
  refine ⟨⟨h.alive, h.body, h.off, h.num, h.mark, h.calls, h.ints, ?_⟩, rfl, fun hn => left_pos hn (by rfl) nc ?_⟩
  · exact ⟨Or.inr hnc, hmid.next (by rw [ptr, if_pos hk])⟩
  · rw [ha]; simp only [posLeft]; omega

theorem step_ok (h : TInv arr nc pre t post calls0 th) :
    TInv arr (th.step arr nc).1 pre t post calls0 (th.step arr nc).2 ∧
    (nc = (pre ++ t ++ post).length → (th.step arr nc).1 = nc) ∧
    (th.todo ≠ [] → left (pre ++ t ++ post).length (th.step arr nc).1 (th.step arr nc).2 < left (pre ++ t ++ post).length nc th) := by
  have same : (TInv arr (th.step arr nc).1 pre t post calls0 (th.step arr nc).2 ∧ (th.step arr nc).1 = nc ∧
    (th.todo ≠ [] → left (pre ++ t ++ post).length nc (th.step arr nc).2 < left (pre ++ t ++ post).length nc th)) →
    TInv arr (th.step arr nc).1 pre t post calls0 (th.step arr nc).2 ∧
    (nc = (pre ++ t ++ post).length → (th.step arr nc).1 = nc) ∧
    (th.todo ≠ [] → left (pre ++ t ++ post).length (th.step arr nc).1 (th.step arr nc).2 < left (pre ++ t ++ post).length nc th) := by
    rintro ⟨a, b, c⟩
    exact ⟨a, fun _ => b, by rw [b]; exact c⟩
  cases ha : th.at_ with
  | idle => exact same (step_idle h ha)
  | look ks got =>
    cases ks with
    | nil => exact same (step_end h got ha)
    | cons k ks => exact same (step_look h k ks got ha)
  | test k ks got => exact same (step_test h k ks got ha)
  | scan cp k ks got => exact same (step_scan h cp k ks got ha)
  | found k ks got => exact same (step_found h k ks got ha)
  | load cp k ks got =>
    have hp := h.pos
    rw [PInv, ha] at hp
    simp only at hp
    obtain ⟨hlt, hcp, hk, hmid⟩ := hp
    have e : th.step arr nc = (nc, { th with at_ := .store (nc + 1) cp k ks got }) := by
      unfold Thread.step; rw [ha]
    rw [e]
    refine ⟨⟨h.alive, h.body, h.off, h.num, h.mark, h.calls, h.ints, ?_⟩, fun _ => rfl, fun hn => left_pos hn (by rfl) nc ?_⟩
    · exact ⟨hlt, rfl, hcp, hk, hmid⟩
    · rw [ha]; simp only [posLeft]; omega
  | store n cp k ks got =>
    have hp := h.pos
    rw [PInv, ha] at hp
    simp only at hp
    obtain ⟨hlt, hn, hcp, hk, hmid⟩ := hp
    have e : th.step arr nc = (n, { th with at_ := .scan cp k ks got }) := by
      unfold Thread.step; rw [ha]
    rw [e]
    refine ⟨⟨h.alive, h.body, h.off, h.num, h.mark, h.calls, h.ints, ?_⟩, fun hc => by omega, fun hn => left_pos hn (by rfl) n ?_⟩
    · exact ⟨by omega, by rw [hn]; exact hcp, hk, hmid⟩
    · rw [ha]; simp only [posLeft]; omega

end

/-- all of the threads, on a body whose characters are counted -/
structure SInv (b : SBody) (l : List (Str × List Call)) (txt : Nat → List UCS4) (s : State) : Prop where
  arr : s.arr = b.arr
  nc : s.nc = b.nc
  len : s.ts.length = l.length
  each : ∀ (i : Nat) (x : Str × List Call) (th : Thread), l[i]? = some x → s.ts[i]? = some th →
    ∃ pre post, s.nc = (pre ++ txt i ++ post).length ∧ TInv s.arr s.nc pre (txt i) post x.2 th

theorem tick_inv {b : SBody} {l : List (Str × List Call)} {txt : Nat → List UCS4} {s : State} (h : SInv b l txt s) (i : Nat) :
    SInv b l txt (s.tick i) := by
  unfold State.tick
  cases hi : s.ts[i]? with
  | none => exact h
  | some th =>
    simp only
    have hlt : i < s.ts.length := by
      rcases Nat.lt_or_ge i s.ts.length with h | h
      · exact h
      · rw [List.getElem?_eq_none h] at hi; cases hi
    have hll : i < l.length := by have := h.len; omega
    obtain ⟨pre, post, hn, ht⟩ := h.each i l[i] th (List.getElem?_eq_getElem hll) hi
    rw [if_neg (by rw [ht.alive]; simp)]
    obtain ⟨a1, a2, -⟩ := step_ok ht
    have e := a2 hn
    refine ⟨h.arr, by show (th.step s.arr s.nc).1 = _; rw [e]; exact h.nc, by simp [h.len], ?_⟩
    intro j x th' hx hj
    show ∃ pre post, (th.step s.arr s.nc).1 = _ ∧ TInv s.arr (th.step s.arr s.nc).1 _ _ _ _ _
    simp only [List.getElem?_set] at hj
    split at hj
    · rename_i hij
      subst hij
      cases hj
      rw [List.getElem?_eq_getElem hll] at hx
      cases hx
      exact ⟨pre, post, by rw [e]; exact hn, a1⟩
    · rw [e]
      exact h.each j x th' hx hj

theorem run_inv {b : SBody} {l : List (Str × List Call)} {txt : Nat → List UCS4} : ∀ (sched : List Nat) {s : State}, SInv b l txt s →
    SInv b l txt (s.run sched) := by
  intro sched
  induction sched with
  | nil => intro s h; exact h
  | cons i sched ih => intro s h; exact ih (tick_inv h i)

/-- the steps thread `i` still takes -/
def leftOf (s : State) (L i : Nat) : Nat := match s.ts[i]? with
  | none => 0
  | some th => left L s.nc th

theorem tick_left {b : SBody} {l : List (Str × List Call)} {txt : Nat → List UCS4} {s : State} (h : SInv b l txt s) (i j : Nat) :
    leftOf (s.tick j) s.nc i ≤ leftOf s s.nc i ∧ (i = j → leftOf (s.tick j) s.nc i ≤ leftOf s s.nc i - 1) := by
  unfold State.tick
  cases hj : s.ts[j]? with
  | none =>
    refine ⟨Nat.le_refl _, ?_⟩
    rintro rfl
    simp [leftOf, hj]
  | some th =>
    simp only
    have hlt : j < s.ts.length := by
      rcases Nat.lt_or_ge j s.ts.length with h | h
      · exact h
      · rw [List.getElem?_eq_none h] at hj; cases hj
    have hll : j < l.length := by have := h.len; omega
    obtain ⟨pre, post, hn, ht⟩ := h.each j l[j] th (List.getElem?_eq_getElem hll) hj
    rw [if_neg (by rw [ht.alive]; simp)]
    obtain ⟨a1, a2, a3⟩ := step_ok ht
    have e := a2 hn
    rw [← hn, e] at a3
    have key : left s.nc s.nc (th.step s.arr s.nc).2 ≤ left s.nc s.nc th - 1 := by
      by_cases htd : th.todo = []
      · have : th.step s.arr s.nc = (s.nc, th) := by
          have hp := ht.pos
          unfold PInv at hp
          unfold Thread.step
          split at hp <;> rename_i hat <;> simp_all [Mid]
        rw [this]
        simp [left, htd]
      · have := a3 htd; omega
    by_cases hij : i = j
    · subst hij
      refine ⟨?_, fun _ => ?_⟩ <;> simp only [leftOf, List.getElem?_set, hlt, hj, e] <;> simp <;> omega
    · refine ⟨?_, fun h => absurd h hij⟩
      simp only [leftOf, List.getElem?_set, if_neg (Ne.symm hij), e]
      exact Nat.le_refl _

theorem run_left {b : SBody} {l : List (Str × List Call)} {txt : Nat → List UCS4} (i : Nat) : ∀ (sched : List Nat) {s : State},
    SInv b l txt s → leftOf (s.run sched) s.nc i ≤ leftOf s s.nc i - sched.count i := by
  intro sched
  induction sched with
  | nil => intro s h; exact Nat.le_refl _
  | cons j sched ih =>
    intro s h
    obtain ⟨k1, k2⟩ := tick_left h i j
    have hi := tick_inv h j
    have hn : (s.tick j).nc = s.nc := by rw [hi.nc, h.nc]
    have := ih hi
    rw [hn] at this
    show leftOf ((s.tick j).run sched) s.nc i ≤ _
    rw [List.count_cons]
    by_cases hij : i = j
    · have h2 := k2 hij
      have : (j == i) = true := by simp [hij]
      rw [this]
      simp
      omega
    · have : (j == i) = false := by simp [Ne.symm hij]
      rw [this]
      simp
      omega

end Strpp.SP
