import Verif.Proof.RxLang
import Verif.Proof.RxSearch
/-! A program that consists of the code of an expression, with the code around it, finds the leftmost longest match. -/
namespace Strpp.Rx
open Spec

/-- The parts of a compiled expression, rx/rxcompile.cpp:899-942 -/
structure Compiled (r : Re) (P : Prog) : Prop where
  len : P.nfa.length < 2 ^ 30
  counters : P.maxCounter ≤ 12
  captures : P.maxCapture = 1
  names : P.names = []
  stations : 2 * (r.chars + (if r.plain then 0 else 1) + 1) ≤ P.maxStation
  parts : ∃ (bs : List Byte) (a j n : Nat), Code true r bs ∧ At P P.startStation ([opCapStart, 1#8] ++ bs ++ [opAccept]) ∧
    P.searchStation = P.startStation + 2 + bs.length + 1 ∧ P.decode P.searchStation = .ok (.split P.startStation a) ∧
    P.decode a = .ok (.any j) ∧ P.decode j = .ok (.jump P.searchStation n) ∧ P.searchStation ≤ a ∧ P.searchStation ≤ j
  last : ∀ a j n, P.decode P.searchStation = .ok (.split P.startStation a) → P.decode a = .ok (.any j) →
    P.decode j = .ok (.jump P.searchStation n) → n + 1 = P.nfa.length ∧ rd P.nfa n = .ok opNull

theorem decode_capStart {P p} (h : At P p [opCapStart, 1#8]) : P.decode p = .ok (.capStart 0 (p + 2)) := by
  unfold Prog.decode
  rw [h.head]
  show (rd P.nfa (p + 1) >>= fun n => (.ok (.capStart ((n.toNat : Int) - 1) (p + 1 + 1)) : Res Instr)) = _
  rw [h.tail.head]; rfl

theorem Acc.atAccept {P t i s n e} (h : Acc P t i s e) (hd : P.decode s = .ok (.accept n)) : e = i ∧ i ≤ t.length := by
  cases h with
  | acc i s n h hi => exact ⟨rfl, hi⟩
  | eps i s s' e h _ =>
    obtain ⟨ins, hi, hm⟩ := h
    rw [hd] at hi; cases hi; cases hm
  | step i s n e ins h hc hi _ => rw [hd] at h; cases h; cases hc

theorem Compiled.shape {r : Re} {P : Prog} (h : Compiled r P) (hr : r.counted = false) :
    ∃ R a j b, Shape P R P.searchStation a j P.startStation b ∧
      ∀ t c e, Acc P t c b e ↔ Matches t r c e ∧ e ≤ t.length := by
  obtain ⟨bs, a, j, n, hc, hat, hS, d1, d2, d3, ga, gj⟩ := h.parts
  replace hc := hc.uncounted hr
  have hst := decode_capStart hat.left.left
  have hb : At P (P.startStation + 2) bs := hat.left.right
  have hacc : At P (P.startStation + 2 + bs.length) [opAccept] := by
    have := hat.right
    rwa [List.length_append, ← Nat.add_assoc] at this
  obtain ⟨S, hI⟩ := code_inner h.len hc _ hb
  have hs := hI.start
  obtain ⟨hI1, hI2, hI3⟩ := hI
  have hd := decode_accept hacc
  refine ⟨fun s => S s ∨ s = P.startStation + 2 + bs.length, a, j, P.startStation + 2, ⟨?_, d1, d2, ⟨n, d3⟩, hst, hs, ?_, ?_, ?_⟩, ?_⟩
  · rintro s (h | rfl)
    · obtain ⟨i, h1, h2, h3⟩ := hI3 s h
      exact ⟨i, h1, fine_false.1 h2, h3⟩
    · exact ⟨_, hd, rfl, by simp [Instr.succs]⟩
  · rintro (h | h)
    · have := hI1 _ h; omega
    · omega
  · rintro (h | h)
    · have := hI1 _ h; omega
    · omega
  · rintro (h | h)
    · have := hI1 _ h; omega
    · omega
  · intro t c e
    constructor
    · intro ha
      obtain ⟨n, ha⟩ := ha.count
      obtain ⟨k, m, -, hm, ha⟩ := code_sound h.len hc n _ c e hb ha
      obtain ⟨rfl, hk⟩ := ha.acc'.atAccept hd
      exact ⟨hm, hk⟩
    · rintro ⟨hm, hk⟩
      exact code_complete h.len hm bs _ e hc hb (.acc _ _ _ hd hk)

theorem Compiled.matchAt {r : Re} {P : Prog} (h : Compiled r P) (hr : r.counted = false) {t : List UCS4} {junk fuel off : Nat} {res : RVal}
    (hm : P.matchAt junk fuel t off = .ok res) :
    BestLL res (fun c j => c = off ∧ Matches t r off j ∧ j ≤ t.length) := by
  obtain ⟨R, a, j, b, hs, ha⟩ := h.shape hr
  refine (matchAt_spec hs.closed hs.hst hs.hb off res hm).congr fun c j => ?_
  rw [ha]

theorem Compiled.matchAfter {r : Re} {P : Prog} (h : Compiled r P) (hr : r.counted = false) {t : List UCS4} {junk fuel off : Nat} {res : RVal}
    (hm : P.matchAfter junk fuel t off = .ok res) :
    BestLL res (fun c j => off ≤ c ∧ NoNul t off c ∧ Matches t r c j ∧ j ≤ t.length) := by
  obtain ⟨R, a, j, b, hs, ha⟩ := h.shape hr
  refine (matchAfter_spec hs off res hm).congr fun c j => ?_
  rw [ha]

end Strpp.Rx
