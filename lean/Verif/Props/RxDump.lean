import Verif.Proof.RxListing
import Verif.Props.RxCount
/-! C95: the disassembly of a compiled regular expression. -/
namespace Strpp.Rx
open Spec

/-- Every line shows the instruction which the matcher decodes at that offset, with the operands the matcher uses; if the
matcher has no such instruction (it would abort), the line says that the opcode is illegal, and is the last. For every
program, whether compiled or not. -/
theorem C95_line (m : List Byte) (P : Prog) (ls : List (Nat × Line)) (hP : Prog.load m = .ok P) (h : dump m = .ok ls)
    (k s : Nat) (l : Line) (hk : ls[k]? = some (s, l)) :
    (∃ i, P.decode s = .ok i ∧ ShowsInstr P s l i) ∨
    (∃ op, l = .illegal op ∧ m[s]? = some op ∧ P.decode s = .error .assertion ∧ k + 1 = ls.length) := by
  obtain ⟨n, c, h1, h2, -⟩ := (dumpFrom_lines _ _ _ h).2 k (s, l) hk
  rcases dump_shows hP h1 with ⟨i, hp⟩ | ⟨op, rfl, ho, hc, hd⟩
  · exact .inl ⟨i, hp.dec, hp.shows_⟩
  · exact .inr ⟨op, rfl, ho, hd, h2 hc⟩

/-- The listing starts at the beginning, and every line is followed by the one for the instruction that follows in the
program (behind the operands the matcher reads), unless it is one of the instructions which should not be there -/
theorem C95_order (m : List Byte) (P : Prog) (ls : List (Nat × Line)) (hP : Prog.load m = .ok P) (h : dump m = .ok ls) :
    (∃ l, ls[0]? = some (0, l)) ∧
    ∀ (k s s' : Nat) (l l' : Line), ls[k]? = some (s, l) → ls[k + 1]? = some (s', l') →
      s < s' ∧ ∃ i, P.decode s = .ok i ∧ (i ≠ .token → (k = 0 ∨ ∀ a b, i ≠ .start a b) → following i = some s') := by
  obtain ⟨f1, f2⟩ := dumpFrom_lines _ _ _ h
  have hpos : 0 < m.length := by
    obtain ⟨_, _, _, _, _, _, _, h0, -⟩ := load_parts hP
    exact rd_pos h0
  have hne : ∃ x, ls[0]? = some x := by
    unfold dump dumpFrom at h
    rw [if_pos hpos] at h
    obtain ⟨r, -, h⟩ := hbind h
    split at h
    · obtain ⟨_, -, h⟩ := hbind h; cases h; exact ⟨_, rfl⟩
    · cases h; exact ⟨_, rfl⟩
  obtain ⟨x, hx⟩ := hne
  have hx0 := f1 x hx
  refine ⟨⟨x.2, by rw [hx, ← hx0]⟩, ?_⟩
  intro k s s' l l' hk hk'
  obtain ⟨n, c, h1, h2, h3⟩ := f2 k (s, l) hk
  obtain ⟨rfl, rfl⟩ := h3 (s', l') hk'
  refine ⟨(dump_step h1).1, ?_⟩
  rcases dump_shows hP h1 with ⟨i, hp⟩ | ⟨op, rfl, ho, hc, hd⟩
  · refine ⟨i, hp.dec, fun ht hs => hp.next rfl (hs.imp (fun hz => ?_) id) ht⟩
    subst hz
    rw [hx] at hk; cases hk; exact hx0
  · cases hc

/-- Disassembling ends, whatever the bytes -/
theorem C95_ends (m : List Byte) : dump m ≠ .error .fuel := dumpFrom_ends m _ _ (by omega)

/-- The disassembly of a compiled expression succeeds and is complete: it goes from the first byte to the terminating
NUL, which is the last line; there is no illegal instruction and none that should not be there; every place named by an
instruction (so every place a match can reach from the two entries) is the offset of a line, and every place shown is.
For expressions without lookahead and named groups, of weight at most 992. -/
theorem C95_complete (r : Re) (hw : r.wf true) (hs : r.weight ≤ 992) (nfa : List Byte) (hc : compile .default r.write = .ok (some nfa)) :
    ∃ P ls, Prog.load nfa = .ok P ∧ dump nfa = .ok ls ∧
      (∃ search start st nest cap, ls.head? = some (0, .start search start st nest cap [])) ∧
      ls.getLast? = some (nfa.length - 1, .null) ∧ 0 < nfa.length ∧
      (∀ x ∈ ls, ∀ op, x.2 ≠ .illegal op ∧ x.2 ≠ .error op) ∧
      (∀ (k s : Nat), ls[k]? = some (s, .null) → k + 1 = ls.length) ∧
      (∀ x ∈ ls, ∀ i, P.decode x.1 = .ok i → ∀ n ∈ mentions i, ∃ l, (n, l) ∈ ls) ∧
      (∀ x ∈ ls, ∀ t ∈ targets x.2, ∃ (n : Nat) (l : Line), t = n ∧ (n, l) ∈ ls) := by
  have hn : r.nesting ≤ 11 := by
    by_cases hd : r.nesting ≤ 11
    · exact hd
    · rw [C61_deep_refused r hw (by omega)] at hc; cases hc
  have hcc := compile_cases r hw hs hn
  rw [hc] at hcc
  obtain ⟨_, P, e, hP, hC⟩ := hcc
  cases e
  have hnfa := load_nfa hP
  have hP' : Prog.load P.nfa = .ok P := by rw [hnfa]; exact hP
  obtain ⟨ks, d1, d2, d3, ⟨l0, ks', d4⟩, d5, d6⟩ := hC.listing hP'
  rw [hnfa] at d1 d2 d6
  have hclose : ∀ x ∈ ks ++ [(nfa.length - 1, Line.null)], ∀ i, P.decode x.1 = .ok i → ∀ n ∈ mentions i,
      ∃ l, (n, l) ∈ ks ++ [(nfa.length - 1, Line.null)] := by
    intro x hx i hi n hn
    rcases List.mem_append.1 hx with hx | hx
    · rcases d6 x hx i hi n hn with h | rfl
      · obtain ⟨y, hy, rfl⟩ := List.mem_map.1 h
        exact ⟨y.2, List.mem_append.2 (.inl hy)⟩
      · exact ⟨_, List.mem_append.2 (.inr List.mem_cons_self)⟩
    · have hx' : x = (nfa.length - 1, Line.null) := by simpa using hx
      subst hx'
      obtain ⟨k, hk⟩ := List.getElem?_of_mem (List.mem_append.2 (.inr (by simp)) : (nfa.length - 1, Line.null) ∈ ks ++ [(nfa.length - 1, Line.null)])
      rcases C95_line nfa P _ hP d1 k _ _ hk with ⟨i', hi', hs'⟩ | ⟨op, h, -⟩
      · rw [hi] at hi'; cases hi'
        cases i <;> first | exact (show False from hs').elim | exact absurd hn (by simp [mentions])
      · cases h
  refine ⟨P, ks ++ [(nfa.length - 1, .null)], hP, d1, ?_, by simp, d2, ?_, ?_, hclose, ?_⟩
  · obtain ⟨k, hk⟩ : ∃ k, (ks ++ [(nfa.length - 1, Line.null)])[k]? = some (0, l0) ∧ k = 0 := ⟨0, by rw [d4]; rfl, rfl⟩
    rcases C95_line nfa P _ hP d1 k _ _ hk.1 with ⟨i, hi, hs'⟩ | ⟨op, rfl, -⟩
    · have hi0 : P.decode 0 = .ok (.start P.startStation P.searchStation) := by
        obtain ⟨_, _, _, _, _, _, _, h0, -⟩ := load_parts hP
        unfold Prog.decode; rw [hnfa, h0]; rfl
      rw [hi0] at hi; cases hi
      cases l0 with
      | start a b c d e f =>
        have hf : f = [] := by
          have := (hs' rfl).2.2.2.2.2
          rw [this, hC.names]
        subst hf
        exact ⟨a, b, c, d, e, by rw [d4]; rfl⟩
      | _ => cases hs'
    · exact absurd rfl ((d5 (0, .illegal op) (by rw [d4]; exact List.mem_cons_self)).2.1 op).2
  · intro x hx op
    rcases List.mem_append.1 hx with hx | hx
    · exact ⟨((d5 x hx).2.1 op).2, ((d5 x hx).2.1 op).1⟩
    · have hx' : x = (nfa.length - 1, Line.null) := by simpa using hx
      subst hx'
      exact ⟨nofun, nofun⟩
  · intro k s hk
    rw [List.length_append, List.length_singleton]
    rcases Nat.lt_or_ge k ks.length with h | h
    · rw [List.getElem?_append_left h] at hk
      exact absurd rfl (d5 _ (List.mem_of_getElem? hk)).1
    · have := (List.getElem?_eq_some_iff.1 hk).1
      rw [List.length_append, List.length_singleton] at this
      omega
  · intro x hx t ht
    obtain ⟨k, hk⟩ := List.getElem?_of_mem hx
    have hlen := hC.len
    rw [hnfa] at hlen
    obtain ⟨n, c, h1, -⟩ := (dumpFrom_lines _ _ _ d1).2 k x hk
    have hb := (dump_step h1).2 t ht
    have hoff : ∀ y ∈ ks ++ [(nfa.length - 1, Line.null)], y.1 < nfa.length := by
      intro y hy
      obtain ⟨k, hk⟩ := List.getElem?_of_mem hy
      obtain ⟨n, c, h1, -⟩ := (dumpFrom_lines _ _ _ d1).2 k y hk
      unfold dumpInstruction at h1
      obtain ⟨op, hop, -⟩ := hbind h1
      exact rd_pos hop
    have same : ∀ a : Nat, Same32 t a → (∃ l, (a, l) ∈ ks ++ [(nfa.length - 1, Line.null)]) →
        ∃ (n : Nat) (l : Line), t = n ∧ (n, l) ∈ ks ++ [(nfa.length - 1, Line.null)] := by
      rintro a h ⟨l, hl⟩
      have := hoff _ hl
      unfold Same32 at h
      exact ⟨a, l, by simp only at this; omega, hl⟩
    rcases C95_line nfa P _ hP d1 k x.1 x.2 hk with ⟨i, hi, hs'⟩ | ⟨op, h, -⟩
    · have hcl := hclose x hx i hi
      generalize hX : x.2 = lx at *
      cases lx <;> simp only [targets, List.mem_cons, List.not_mem_nil, or_false] at ht <;> cases i <;> first | exact (show False from hs').elim | exact (show False from ht).elim | skip
      case start.start se stt st nest cap names nx al =>
        have hz : x.1 = 0 := by
          rcases List.mem_append.1 hx with h | h
          · exact (d5 x h).2.2 _ _ _ _ _ _ hX
          · have hx' : x = (nfa.length - 1, Line.null) := by simpa using h
            rw [hx'] at hX; cases hX
        obtain ⟨g1, g2, -⟩ := hs' hz
        rcases ht with rfl | rfl
        · exact same _ g1 (hcl _ (by simp [mentions]))
        · exact same _ g2 (hcl _ (by simp [mentions]))
      all_goals
        subst ht
        exact same _ (by first | exact hs'.2 | exact hs'.2.2.2) (hcl _ (by simp [mentions]))
    · rw [h] at ht; cases ht

/-- The hexadecimal part shows every byte: read back it is the program -/
theorem C95_hex (m : List Byte) : readHex (dumpHex m) = some m := readHex_from m 0

example : readHex (dumpHex [0x53#8, 0x28#8, 0x0A#8, 0xFF#8, 0x00#8, 0x7E#8]) = some [0x53#8, 0x28#8, 0x0A#8, 0xFF#8, 0x00#8, 0x7E#8] ∧
    dumpHex [0x53#8, 0x28#8, 0x0A#8, 0xFF#8, 0x00#8, 0x7E#8] = "53 28 0A FF 00   7E \n".toUTF8.toList.map UInt8.toBitVec := by decide +kernel

/-- `[0-9]{2,4}x` compiles, and its listing -/
def exampleCountNfa : List Byte := [0x53#8, 0x28#8, 0x0A#8, 0x0A#8, 0x01#8, 0x01#8, 0x01#8, 0x28#8, 0x01#8, 0x5A#8, 0x4C#8, 0x02#8, 0x30#8,
  0x39#8, 0x52#8, 0x03#8, 0x05#8, 0x0F#8, 0x43#8, 0x78#8, 0x23#8, 0x41#8, 0x1F#8, 0x2E#8, 0x4A#8, 0x09#8, 0x00#8]

theorem exampleCount_compiled : compile .default exampleCount.write = .ok (some exampleCountNfa) := by decide +kernel

example : dump exampleCountNfa = .ok [(0, .start 21 7 10 1 1 []), (7, .capStart [] 0), (9, .zero), (10, .cls false [0x30#8, 0x39#8]),
    (14, .count 2 4 (-7) 10), (18, .char 0x78#32 [0x78#8]), (20, .accept), (21, .split (-15) 7), (23, .any), (24, .jump (-4) 21),
    (26, .null)] := by decide +kernel

example : ∃ P ls, Prog.load exampleCountNfa = .ok P ∧ dump exampleCountNfa = .ok ls :=
  have ⟨P, ls, h1, h2, _⟩ := C95_complete exampleCount exampleCount_wf (by decide) _ exampleCount_compiled
  ⟨P, ls, h1, h2⟩

/-- a program with a named group and lookahead, `(?<ab>x)(?!y)` -/
def exampleNamedNfa : List Byte := [0x53#8, 0x2E#8, 0x10#8, 0x08#8, 0x02#8, 0x02#8, 0x02#8, 0x02#8, 0x61#8, 0x62#8, 0x28#8, 0x01#8, 0x28#8, 0x02#8,
  0x43#8, 0x78#8, 0x29#8, 0x02#8, 0x21#8, 0x08#8, 0x43#8, 0x79#8, 0x23#8, 0x23#8, 0x41#8, 0x1F#8, 0x2E#8, 0x4A#8, 0x09#8, 0x00#8]

example : compile .default [0x28#32, 0x3F#32, 0x3C#32, 0x61#32, 0x62#32, 0x3E#32, 0x78#32, 0x29#32, 0x28#32, 0x3F#32, 0x21#32, 0x79#32, 0x29#32] =
    .ok (some exampleNamedNfa) := by decide +kernel

example : dump exampleNamedNfa = .ok [(0, .start 24 10 8 2 2 [[0x61#8, 0x62#8]]), (10, .capStart [] 0), (12, .capStart [0x61#8, 0x62#8] 1),
    (14, .char 0x78#32 [0x78#8]), (16, .capEnd [0x61#8, 0x62#8] 1), (18, .negLook 4 23), (20, .char 0x79#32 [0x79#8]), (22, .accept),
    (23, .accept), (24, .split (-15) 10), (26, .any), (27, .jump (-4) 24), (29, .null)] := by decide +kernel

example : (Prog.load exampleNamedNfa).isOk = true := by decide +kernel

/-- a damaged program: the listing stops at the illegal opcode -/
example : dump (exampleNamedNfa.set 14 0x7A#8) = .ok [(0, .start 24 10 8 2 2 [[0x61#8, 0x62#8]]), (10, .capStart [] 0),
    (12, .capStart [0x61#8, 0x62#8] 1), (14, .illegal 0x7A#8)] := by decide +kernel

end Strpp.Rx
