import Verif.Proof.RxSize
import Verif.Proof.RxCountTerm
import Verif.Model.RxUse
/-! Properties of the regular expressions, rx/. -/
set_option linter.unusedSimpArgs false
namespace Strpp.Rx
open Spec

/-! ### C47: what the compiler writes the matcher reads -/

/-- An offset in the code is read back as it was written -/
theorem C47_offset (pre rest : List Byte) (i : Int) (h : i.natAbs < 2 ^ 30) :
    getOffset (pre ++ offsetBytes i ++ rest) pre.length = .ok (i, pre.length + (offsetBytes i).length) :=
  getOffset_put pre i rest h

example : getOffset ([0x41#8] ++ offsetBytes (-70) ++ [0x2E#8]) 1 = .ok (-70, 3) := by decide

/-- A character in the code is read back as it was written, and the matcher goes on after it -/
theorem C47_char (P : Prog) (pre rest : List Byte) (c : UCS4) (h : ¬ Reserved c) (hP : P.nfa = pre ++ (opChar :: utf8Put c) ++ rest) :
    P.decode pre.length = .ok (.char c (pre.length + 1 + (utf8Put c).length)) := by
  have h1 : rd P.nfa pre.length = .ok opChar := by
    rw [hP, List.append_assoc]; exact rd_app _ _ _ _ rfl
  have h2 : P.nfa = (pre ++ [opChar]) ++ utf8Put c ++ rest := by rw [hP]; simp
  have h3 : utf8Get P.nfa (pre.length + 1) = .ok (c, pre.length + 1 + (utf8Put c).length) := by
    have := get_put (pre ++ [opChar]) c rest (not_reserved c h)
    rw [← h2, List.length_append] at this
    exact this
  unfold Prog.decode
  rw [h1]
  show (utf8Get P.nfa (pre.length + 1) >>= fun r => (.ok (.char r.1 r.2) : Res Instr)) = _
  rw [h3]; rfl

/-- A name or the characters of a class are read back as they were written -/
theorem C47_text (pre rest : List Byte) (s : List UCS4) (h : (s.flatMap utf8Put).length < 2 ^ 31) :
    getText (pre ++ stringBytes s ++ rest) pre.length = .ok (s.flatMap utf8Put, pre.length + (stringBytes s).length) := by
  have := getText_put pre (s.flatMap utf8Put) rest h
  unfold stringBytes
  rw [show numBytes s = (s.flatMap utf8Put).length from rfl, this, List.length_append, Nat.add_assoc]

/-- The limits of a repetition, which are at most 254, are read back as they were written -/
theorem C47_count (n : Nat) (h : n ≤ 254) : byteMinus1 (BitVec.ofNat 8 (n + 1)) = n := by
  unfold byteMinus1
  have : (BitVec.ofNat 8 (n + 1)).toNat = n + 1 := by rw [BitVec.toNat_ofNat, Nat.mod_eq_of_lt (by omega)]
  rw [this, if_neg (by omega)]; omega

/-- The number of threads is not read back as it was written: it doubles -/
theorem C47_stations_doubled (pre rest : List Byte) (n : Nat) (h : n < 2 ^ 30) :
    utf8Get (pre ++ offsetBytes n ++ rest) pre.length = .ok (BitVec.ofNat 32 (2 * n), pre.length + (offsetBytes n).length) := by
  unfold offsetBytes
  rw [get_put pre _ rest (zigzag_legal n (by omega))]
  congr 2

/-! ### C59: compiling -/

/-- `compile` returns a program for the expression, or aborts: it stays in its buffer and terminates, and the
program is the one of the expression -/
theorem compile_cases (r : Re) (hw : r.wf true) (hs : r.weight ≤ 992) (hd : r.nesting ≤ 11) :
    Runs (r.excess ≤ 30 ∧ (r.weight ≤ 32 ∨ 107 ≤ r.codeSize + 2 * r.offsets)) (compile .default r.write)
      (fun o => ∃ nfa P, o = some nfa ∧ Prog.load nfa = .ok P ∧ Compiled r P) := by
  have h := sizes_eq r true hw hs
  have := (compile_spec r hw (by omega)).2 (by rw [depth_eq]; exact hd)
  rwa [h.1, h.2, ocost_eq] at this

/-- Small expressions, and those whose compiled form does not have between 64 and 128 bytes, compile; `RxProgram` accepts
the result. Missing: larger ones, and larger counts (`C59_refuted_seventy`), lookahead, named groups. -/
theorem C59_compiles_partial (r : Re) (hw : r.wf true) (hn : r.nesting ≤ 11) (hx : r.excess ≤ 30)
    (hs : r.weight ≤ 32 ∨ (r.weight ≤ 992 ∧ 107 ≤ r.codeSize + 2 * r.offsets)) :
    ∃ nfa P, compile .default r.write = .ok (some nfa) ∧ Prog.load nfa = .ok P := by
  have h := compile_cases r hw (by omega) hn
  cases hc : compile .default r.write with
  | error e => rw [hc] at h; exact absurd ⟨hx, hs.imp id And.right⟩ h
  | ok o =>
    rw [hc] at h
    obtain ⟨nfa, P, rfl, hP, -⟩ := h
    exact ⟨nfa, P, rfl, hP⟩

/-- the expression `a` 30 times aborts the program -/
theorem C59_refuted_thirty : compile .default (List.replicate 30 0x61#32) = .error .assertion := by decide +kernel

/-- so does `[0-9]{70}` -/
theorem C59_refuted_seventy :
    compile .default [0x5B#32, 0x30#32, 0x2D#32, 0x39#32, 0x5D#32, 0x7B#32, 0x37#32, 0x30#32, 0x7D#32] = .error .assertion := by decide +kernel

/-- `[aaaaaaaaaaaaaaaaaaaaaaaaaaaaaa]*` (30 times a) writes past the end of the buffer -/
theorem C59_refuted_overflow :
    compile .default ([0x5B#32] ++ List.replicate 30 0x61#32 ++ [0x5D#32, 0x2A#32]) = .error .ub := by decide +kernel

/-! ### C61: nesting -/

/-- Parentheses nested more than 11 deep are refused -/
theorem C61_deep_refused (r : Re) (hw : r.wf true) (hd : 11 < r.nesting) : compile .default r.write = .ok none := by
  obtain ⟨s', hs'⟩ := (first_all r hw).2 (by rw [depth_eq]; omega)
  unfold compile
  rw [show scan .default r.write = .ok (allToks r) from scan_spec r hw, res_bind_ok, hs', res_bind_ok]
  rfl

/-- and others never are: for them `compile` does not return false -/
theorem C61_others_not (r : Re) (hw : r.wf true) (hd : r.nesting ≤ 11) : compile .default r.write ≠ .ok none := by
  obtain ⟨p, hp, hC⟩ := (first_all r hw).1 (by rw [depth_eq]; exact hd)
  intro h
  unfold compile at h
  rw [show scan .default r.write = .ok (allToks r) from scan_spec r hw, res_bind_ok, hp, res_bind_ok] at h
  have hcond : (!(p, true).2 || decide (p.stack.length > 0)) = false := by rw [hC.stack]; rfl
  rw [if_neg (by rw [hcond]; simp)] at h
  simp only at h
  rw [runPass_gen _ _ _ (allToks_noerr r)] at h
  obtain ⟨x, hx, h⟩ := hbind h
  obtain ⟨y, hy, hx⟩ := hbind hx
  cases hx
  rw [if_pos rfl] at h
  obtain ⟨z, hz, h⟩ := hbind h
  cases h

/-! ### C48, C49: matching -/

/-- What `search` and `matchHere` do, by cases of the compiler -/
theorem search_ok {r : Re} (hw : r.wf true) (hs : r.weight ≤ 992) {junk fuel : Nat} {t : List UCS4} {off : Nat} {o : Option RVal}
    (h : search r.write junk fuel t off = .ok o) :
    (o = none ∧ 11 < r.nesting) ∨ ∃ P res, o = some res ∧ Compiled r P ∧ P.matchAfter junk fuel t off = .ok res := by
  unfold search at h
  obtain ⟨nfa, h1, h⟩ := hbind h
  by_cases hd : r.nesting ≤ 11
  · have hc := compile_cases r hw hs hd
    rw [h1] at hc
    obtain ⟨nfa, P, rfl, hP, hc⟩ := hc
    simp only [hP, res_bind_ok] at h
    obtain ⟨res, hm, h⟩ := hbind h
    cases h
    exact .inr ⟨P, res, rfl, hc, hm⟩
  · rw [C61_deep_refused r hw (by omega)] at h1
    cases h1; cases h
    exact .inl ⟨rfl, by omega⟩

theorem matchHere_ok {r : Re} (hw : r.wf true) (hs : r.weight ≤ 992) {junk fuel : Nat} {t : List UCS4} {off : Nat} {o : Option RVal}
    (h : matchHere r.write junk fuel t off = .ok o) :
    (o = none ∧ 11 < r.nesting) ∨ ∃ P res, o = some res ∧ Compiled r P ∧ P.matchAt junk fuel t off = .ok res := by
  unfold matchHere at h
  obtain ⟨nfa, h1, h⟩ := hbind h
  by_cases hd : r.nesting ≤ 11
  · have hc := compile_cases r hw hs hd
    rw [h1] at hc
    obtain ⟨nfa, P, rfl, hP, hc⟩ := hc
    simp only [hP, res_bind_ok] at h
    obtain ⟨res, hm, h⟩ := hbind h
    cases h
    exact .inr ⟨P, res, rfl, hc, hm⟩
  · rw [C61_deep_refused r hw (by omega)] at h1
    cases h1; cases h
    exact .inl ⟨rfl, by omega⟩

/-- When searching an expression of weight at most 992 in a text returns a result, it reports a match exactly if there
is one, and then the leftmost longest. Missing: larger expressions (for which it is false, `C49_refuted_large`), counted
repetition (false, `C49_refuted_counted`; but see C68), lookahead (false, `C49_refuted_lookahead`), named groups (false, `C49_refuted_named`). -/
theorem C49_search_partial (r : Re) (hw : r.wf true) (hr : r.counted = false) (hs : r.weight ≤ 992) (junk fuel : Nat) (t : List UCS4) (off : Nat) (res : RVal)
    (h : search r.write junk fuel t off = .ok (some res)) :
    (res.succeeded = true ↔ ∃ c j, MatchFrom t r off c j) ∧
    (res.succeeded = true → LeftmostLongest (MatchFrom t r off) res.offset (res.offset + res.length)) := by
  rcases search_ok hw hs h with ⟨h, -⟩ | ⟨P, res, h, hc, hm⟩
  · cases h
  · cases h; exact hc.matchAfter_observed hr hm

/-- The same for matching at a given place -/
theorem C49_at_partial (r : Re) (hw : r.wf true) (hr : r.counted = false) (hs : r.weight ≤ 992) (junk fuel : Nat) (t : List UCS4) (off : Nat) (res : RVal)
    (h : matchHere r.write junk fuel t off = .ok (some res)) :
    (res.succeeded = true ↔ ∃ j, off ≤ t.length ∧ Matches t r off j) ∧
    (res.succeeded = true → res.offset = off ∧ Matches t r off (off + res.length) ∧
      ∀ j, Matches t r off j → j ≤ off + res.length) := by
  rcases matchHere_ok hw hs h with ⟨h, -⟩ | ⟨P, res, h, hc, hm⟩
  · cases h
  · cases h; exact hc.matchAt_observed hr hm

/-- Expressions written with at most 66 characters are small enough -/
theorem C49_short_partial (r : Re) (hw : r.wf true) (hr : r.counted = false) (hs : r.write.length ≤ 66) (junk fuel : Nat) (t : List UCS4) (off : Nat) (res : RVal)
    (h : search r.write junk fuel t off = .ok (some res)) :
    (res.succeeded = true ↔ ∃ c j, MatchFrom t r off c j) ∧
    (res.succeeded = true → LeftmostLongest (MatchFrom t r off) res.offset (res.offset + res.length)) :=
  C49_search_partial r hw hr (by have := weight_len r _ hw; omega) junk fuel t off res h

/-- `b` is not found after a NUL -/
theorem C49_refuted_nul : ∃ res, search [0x62#32] 0 100 [0#32, 0x62#32] 0 = .ok (some res) ∧ res.succeeded = false :=
  ⟨.fail, by decide +kernel, rfl⟩

/-- `(?<x>a)b` does not match `ab`, nor does any other expression with a named group match anything -/
theorem C49_refuted_named : ∃ res, search [0x28#32, 0x3F#32, 0x3C#32, 0x78#32, 0x3E#32, 0x61#32, 0x29#32, 0x62#32] 0 100
    [0x61#32, 0x62#32] 0 = .ok (some res) ∧ res.succeeded = false :=
  ⟨.fail, by decide +kernel, rfl⟩

/-- `a{65536}` matches `aaa` -/
theorem C49_refuted_count : ∃ res, search [0x61#32, 0x7B#32, 0x36#32, 0x35#32, 0x35#32, 0x33#32, 0x36#32, 0x7D#32] 0 100
    [0x61#32, 0x61#32, 0x61#32] 0 = .ok (some res) ∧ res.succeeded = true ∧ res.length = 3 :=
  ⟨⟨0, some 3, some ⟨1, 1, 0, []⟩⟩, by decide +kernel, rfl, rfl⟩

/-- `a{0,2}b` in `aaab` is found at 2, not at 1: the thread that started at 1 was taken for a duplicate -/
theorem C49_refuted_counted : ∃ res, search [0x61#32, 0x7B#32, 0x30#32, 0x2C#32, 0x32#32, 0x7D#32, 0x62#32] 0 1000
    [0x61#32, 0x61#32, 0x61#32, 0x62#32] 0 = .ok (some res) ∧ res.succeeded = true ∧ res.offset = 2 ∧ res.length = 2 :=
  ⟨⟨2, some 4, some ⟨1, 1, 0, [3, 1]⟩⟩, by decide +kernel, rfl, rfl, rfl⟩

/-- `a(?!b)$` matches `a` in `ac` (and not `a` alone): the lookahead moves the place where `$` is tested -/
theorem C49_refuted_lookahead : ∃ res, search [0x61#32, 0x28#32, 0x3F#32, 0x21#32, 0x62#32, 0x29#32, 0x24#32] 0 1000
    [0x61#32, 0x63#32] 0 = .ok (some res) ∧ res.succeeded = true ∧ res.length = 1 :=
  ⟨⟨0, some 1, some ⟨1, 2, 0, []⟩⟩, by decide +kernel, rfl, rfl⟩

set_option maxRecDepth 100000 in
/-- `(a….)?b…` with 30 times a and 480 times b: the jump over the group goes astray, and matching aborts -/
theorem C49_refuted_large : matchHere ([0x28#32] ++ List.replicate 30 0x61#32 ++ [0x2E#32, 0x29#32, 0x3F#32] ++ List.replicate 480 0x62#32)
    0 100 (List.replicate 480 0x62#32) 0 = .error .assertion := by decide +kernel

/-- `(ab|c)*d` in `xxabcd` -/
def exampleRe : Re :=
  .seq (.star (.grp false (.alt (.seq (.chr .plain 0x61#32) (.chr .plain 0x62#32)) (.chr .plain 0x63#32)))) (.chr .plain 0x64#32)

example : exampleRe.wf true ∧ exampleRe.counted = false ∧ exampleRe.weight ≤ 992 ∧ exampleRe.nesting ≤ 11 ∧
    exampleRe.write = [0x28#32, 0x61#32, 0x62#32, 0x7C#32, 0x63#32, 0x29#32, 0x2A#32, 0x64#32] := by
  refine ⟨?_, rfl, by decide, by decide, by decide⟩
  simp only [exampleRe, Re.wf, Re.isAtom, Spelling.ok, Writable]
  decide

example : search exampleRe.write 0 1000 [0x78#32, 0x78#32, 0x61#32, 0x62#32, 0x63#32, 0x64#32] 0
    = .ok (some ⟨2, some 6, some ⟨1, 2, 0, []⟩⟩) := by decide +kernel

/-- Searching terminates and stays in the program: with enough steps (as many for every text), the outcome is a result, or
an abort; also with counted repetition. Missing: that it does not abort (it can, see below). -/
theorem C48_search_terminates_partial (r : Re) (hw : r.wf true) (hs : r.weight ≤ 992) (nfa : List Byte)
    (hc : compile .default r.write = .ok (some nfa)) :
    ∃ P N, Prog.load nfa = .ok P ∧ ∀ junk fuel t off, N ≤ fuel →
      (P.matchAfter junk fuel t off = .error .assertion ∨ ∃ res, P.matchAfter junk fuel t off = .ok res) ∧
      (P.matchAt junk fuel t off = .error .assertion ∨ ∃ res, P.matchAt junk fuel t off = .ok res) := by
  have hd : r.nesting ≤ 11 := by
    apply Decidable.byContradiction
    intro hd
    rw [C61_deep_refused r hw (by omega)] at hc
    cases hc
  have h := compile_cases r hw hs hd
  rw [hc] at h
  obtain ⟨_, P, hn, hP, h⟩ := h
  cases hn
  exact ⟨P, _, hP, fun junk fuel t off hf => ⟨h.matchAfter_safeK t junk fuel off hf, h.matchAt_safeK t junk fuel off hf⟩⟩

/-- 14 alternatives abort -/
theorem C48_refuted_alternatives : search [0x61#32, 0x7C#32, 0x62#32, 0x7C#32, 0x63#32, 0x7C#32, 0x64#32, 0x7C#32, 0x65#32, 0x7C#32, 0x66#32,
    0x7C#32, 0x67#32, 0x7C#32, 0x68#32, 0x7C#32, 0x69#32, 0x7C#32, 0x6A#32, 0x7C#32, 0x6B#32, 0x7C#32, 0x6C#32, 0x7C#32, 0x6D#32, 0x7C#32,
    0x6E#32] 0 1000 [0x61#32] 0 = .error .assertion := by decide +kernel

/-- `(^\n|^\n)*` aborts on a text of newlines: more threads than were counted -/
theorem C48_refuted_threads : search [0x28#32, 0x5E#32, 0x5C#32, 0x6E#32, 0x7C#32, 0x5E#32, 0x5C#32, 0x6E#32, 0x29#32, 0x2A#32] 0 1000
    (List.replicate 9 0x0A#32) 0 = .error .assertion := by decide +kernel

/-! ### C60: the part without faults -/

/-- An expression that passes the check of Spec/RxSteady.lean and compiles: searching any
text without NUL from any offset returns the leftmost longest match, if there is one -/
theorem C60_search_compiled (r : Re) (hw : r.wf true) (hs : r.weight ≤ 992) (hp : r.steady = true)
    (hok : ∃ nfa, compile .default r.write = .ok (some nfa)) :
    ∃ N, ∀ (junk fuel : Nat) (t : List UCS4) (off : Nat), N ≤ fuel → 0#32 ∉ t →
      ∃ res, search r.write junk fuel t off = .ok (some res) ∧
        (res.succeeded = true ↔ ∃ c j, off ≤ c ∧ c ≤ t.length ∧ Matches t r c j) ∧
        (res.succeeded = true → LeftmostLongest (fun c j => off ≤ c ∧ c ≤ t.length ∧ Matches t r c j) res.offset (res.offset + res.length)) := by
  obtain ⟨nfa, hok⟩ := hok
  have hn : r.nesting ≤ 11 := by
    by_cases hd : r.nesting ≤ 11
    · exact hd
    · rw [C61_deep_refused r hw (by omega)] at hok; cases hok
  have h := compile_cases r hw hs hn
  cases hc : compile .default r.write with
  | error e => rw [hc] at hok; cases hok
  | ok o =>
    rw [hc] at h
    obtain ⟨nfa, P, rfl, hP, h⟩ := h
    refine ⟨14 * (P.nfa.length + 5), fun junk fuel t off hf ht => ?_⟩
    obtain ⟨res, hm⟩ := h.matchAfter_steady hp t junk fuel off hf
    have hiff : ∀ c j, MatchFrom t r off c j ↔ off ≤ c ∧ c ≤ t.length ∧ Matches t r c j := fun c j =>
      ⟨fun h => ⟨h.1, h.2, h.4⟩, fun h => ⟨h.1, h.2.1, fun m _ _ hz => ht (List.mem_of_getElem? hz), h.2.2⟩⟩
    have hMF : MatchFrom t r off = fun c j => off ≤ c ∧ c ≤ t.length ∧ Matches t r c j := by
      funext c j; exact propext (hiff c j)
    have hobs := h.matchAfter_observed (steady_uncounted hp) hm
    rw [hMF] at hobs
    refine ⟨res, ?_, hobs⟩
    unfold search
    simp only [hc, res_bind_ok, hP, hm]

/-- The same for matching at a given place (NULs in the text do no harm here) -/
theorem C60_at_compiled (r : Re) (hw : r.wf true) (hs : r.weight ≤ 992) (hp : r.steady = true)
    (hok : ∃ nfa, compile .default r.write = .ok (some nfa)) :
    ∃ N, ∀ (junk fuel : Nat) (t : List UCS4) (off : Nat), N ≤ fuel →
      ∃ res, matchHere r.write junk fuel t off = .ok (some res) ∧
        (res.succeeded = true ↔ ∃ j, off ≤ t.length ∧ Matches t r off j) ∧
        (res.succeeded = true → res.offset = off ∧ Matches t r off (off + res.length) ∧
          ∀ j, Matches t r off j → j ≤ off + res.length) := by
  obtain ⟨nfa, hok⟩ := hok
  have hn : r.nesting ≤ 11 := by
    by_cases hd : r.nesting ≤ 11
    · exact hd
    · rw [C61_deep_refused r hw (by omega)] at hok; cases hok
  have h := compile_cases r hw hs hn
  cases hc : compile .default r.write with
  | error e => rw [hc] at hok; cases hok
  | ok o =>
    rw [hc] at h
    obtain ⟨nfa, P, rfl, hP, h⟩ := h
    refine ⟨14 * (P.nfa.length + 5), fun junk fuel t off hf => ?_⟩
    obtain ⟨res, hm⟩ := h.matchAt_steady hp t junk fuel off hf
    refine ⟨res, ?_, h.matchAt_observed (steady_uncounted hp) hm⟩
    unfold matchHere
    simp only [hc, res_bind_ok, hP, hm]

/-- An expression that passes the check of Spec/RxSteady.lean, of suitable size: it compiles, and searching any
text without NUL from any offset returns the leftmost longest match, if there is one -/
theorem C60_search (r : Re) (hw : r.wf true) (hn : r.nesting ≤ 11) (hp : r.steady = true)
    (hs : r.weight ≤ 32 ∨ (r.weight ≤ 992 ∧ 107 ≤ r.codeSize + 2 * r.offsets)) :
    ∃ N, ∀ (junk fuel : Nat) (t : List UCS4) (off : Nat), N ≤ fuel → 0#32 ∉ t →
      ∃ res, search r.write junk fuel t off = .ok (some res) ∧
        (res.succeeded = true ↔ ∃ c j, off ≤ c ∧ c ≤ t.length ∧ Matches t r c j) ∧
        (res.succeeded = true → LeftmostLongest (fun c j => off ≤ c ∧ c ≤ t.length ∧ Matches t r c j) res.offset (res.offset + res.length)) :=
  C60_search_compiled r hw (by omega) hp (by
    obtain ⟨nfa, -, h, -⟩ := C59_compiles_partial r hw hn (by rw [uncounted_excess r (steady_uncounted hp)]; omega) hs
    exact ⟨nfa, h⟩)

/-- The same for matching at a given place (NULs in the text do no harm here) -/
theorem C60_at (r : Re) (hw : r.wf true) (hn : r.nesting ≤ 11) (hp : r.steady = true)
    (hs : r.weight ≤ 32 ∨ (r.weight ≤ 992 ∧ 107 ≤ r.codeSize + 2 * r.offsets)) :
    ∃ N, ∀ (junk fuel : Nat) (t : List UCS4) (off : Nat), N ≤ fuel →
      ∃ res, matchHere r.write junk fuel t off = .ok (some res) ∧
        (res.succeeded = true ↔ ∃ j, off ≤ t.length ∧ Matches t r off j) ∧
        (res.succeeded = true → res.offset = off ∧ Matches t r off (off + res.length) ∧
          ∀ j, Matches t r off j → j ≤ off + res.length) :=
  C60_at_compiled r hw (by omega) hp (by
    obtain ⟨nfa, -, h, -⟩ := C59_compiles_partial r hw hn (by rw [uncounted_excess r (steady_uncounted hp)]; omega) hs
    exact ⟨nfa, h⟩)

/-- An expression without `|`, `^`, `$` and counts, with at most 4 repetitions (9 of characters), passes the check -/
theorem C60_plain (r : Re) (hp : r.plain = true) (hc : r.counted = false) (hr : r.branches ≤ 9) : r.steady = true := by
  unfold Re.steady
  split
  · cases hp
  · simp [(plain_tame r hp hc).2, hr]

/-- `cat|dog` -/
def exampleWords : Re :=
  let c := Re.chr .plain
  .alt (.seq (c 0x63#32) (.seq (c 0x61#32) (c 0x74#32))) (.seq (c 0x64#32) (.seq (c 0x6F#32) (c 0x67#32)))

example : exampleWords.wf true ∧ exampleWords.weight ≤ 992 ∧ exampleWords.steady = true ∧
    ∃ nfa, compile .default exampleWords.write = .ok (some nfa) := by
  refine ⟨?_, by decide, by decide, _, rfl⟩
  simp only [exampleWords, Re.wf, Spelling.ok, Writable, Re.exact, Bool.or_self, Bool.false_eq_true, false_implies, and_true]
  decide

/-- in `a dog` -/
example : search exampleWords.write 0 1000 [0x61#32, 0x20#32, 0x64#32, 0x6F#32, 0x67#32] 0 = .ok (some ⟨2, some 5, some ⟨1, 1, 0, []⟩⟩) := by decide +kernel

/-- `^([a-z]+|.\d*)$` -/
def exampleLine : Re :=
  .seq .bol (.seq (.grp false (.alt (.plus (.cls false [0x61#32, 0x2D#32, 0x7A#32] [(0x61#32, 0x7A#32)])) (.seq .any (.star (.prop false .digit))))) .eol)

example : exampleLine.wf true ∧ exampleLine.weight ≤ 992 ∧ exampleLine.steady = true ∧
    ∃ nfa, compile .default exampleLine.write = .ok (some nfa) := by
  have h : Brackets false [(0x61#32, 0x7A#32)] [0x61#32, 0x2D#32, 0x7A#32] :=
    .usual _ _ (by decide) (by decide) (by decide)
      (.range 0x61#32 0x7A#32 [0x61#32] [0x7A#32] [] [] (.bare _ (by decide) (by decide)) (by decide) (.bare _ (by decide) (by decide)) .nil)
  refine ⟨?_, by decide, by decide, _, rfl⟩
  simp only [exampleLine, Re.wf, Re.isAtom, Writable, h, true_and]
  decide

/-- The check is not idle: `(^\n|^\n)*`, which aborts (`C48_refuted_threads`), does not pass it -/
example : (Re.star (.grp false (.alt (.seq .bol (.chr .plain 0x0A#32)) (.seq .bol (.chr .plain 0x0A#32))))).steady = false := by decide

/-- `(ab)*[0-9]+.?` -/
def examplePlain : Re :=
  .seq (.star (.grp false (.seq (.chr .plain 0x61#32) (.chr .plain 0x62#32))))
    (.seq (.plus (.cls false [0x30#32, 0x2D#32, 0x39#32] [(0x30#32, 0x39#32)])) (.opt .any))

example : examplePlain.wf true ∧ examplePlain.nesting ≤ 11 ∧ examplePlain.steady = true ∧ examplePlain.weight ≤ 32 := by
  have h : Brackets false [(0x30#32, 0x39#32)] [0x30#32, 0x2D#32, 0x39#32] :=
    .usual _ _ (by decide) (by decide) (by decide)
      (.range 0x30#32 0x39#32 [0x30#32] [0x39#32] [] [] (.bare _ (by decide) (by decide)) (by decide) (.bare _ (by decide) (by decide)) .nil)
  refine ⟨?_, by decide, by decide, by decide⟩
  simp only [examplePlain, Re.wf, Re.isAtom, Spelling.ok, Writable, h, true_and]
  decide

/-- `[^]^a-c-]\x41\p{d}`: neither `]` nor `^` nor `a`, `b`, `c` nor `-`, then an A, then a digit -/
def exampleClass : Re :=
  .seq (.cls true [0x5D#32, 0x5E#32, 0x61#32, 0x2D#32, 0x63#32, 0x2D#32]
      [(0x5D#32, 0x5D#32), (0x5E#32, 0x5E#32), (0x61#32, 0x63#32), (0x2D#32, 0x2D#32)])
    (.seq (.chr (.code [0x78#32, 0x34#32, 0x31#32]) 0x41#32) (.prop true .digit))

example : exampleClass.wf true ∧ exampleClass.nesting ≤ 11 ∧ exampleClass.steady = true ∧ exampleClass.weight ≤ 32 := by
  have h : Brackets true [(0x5D#32, 0x5D#32), (0x5E#32, 0x5E#32), (0x61#32, 0x63#32), (0x2D#32, 0x2D#32)]
      [0x5D#32, 0x5E#32, 0x61#32, 0x2D#32, 0x63#32, 0x2D#32] :=
    .special _ _ _ (.inl rfl) (.one 0x5E#32 [0x5E#32] _ _ (.bare _ (by decide) (by decide)) (by decide)
      (.range 0x61#32 0x63#32 [0x61#32] [0x63#32] _ _ (.bare _ (by decide) (by decide)) (by decide) (.bare _ (by decide) (by decide)) .minus))
  have hc : CodeOf [0x78#32, 0x34#32, 0x31#32] 0x41#32 := by
    refine ⟨16, [0x78#32], [0x34#32, 0x31#32], [4, 1], rfl, ?_, ⟨⟨.inl ⟨(0x30, 0), by decide, by decide⟩, by decide⟩,
      ⟨.inl ⟨(0x30, 0), by decide, by decide⟩, by decide⟩, trivial⟩, .inr (.inl ⟨rfl, rfl, rfl⟩), rfl⟩
    intro d hd
    simp only [List.mem_cons, List.not_mem_nil, or_false] at hd
    rcases hd with rfl | rfl <;> decide
  refine ⟨?_, by decide, by decide, by decide⟩
  simp only [exampleClass, Re.wf, Re.isAtom, Spelling.ok, Writable, h, hc, true_and]
  decide


/-- in `x]A1-A2zA7` -/
example : search exampleClass.write 0 1000 [0x78#32, 0x5D#32, 0x41#32, 0x31#32, 0x2D#32, 0x41#32, 0x32#32, 0x7A#32, 0x41#32, 0x37#32] 0
    = .ok (some ⟨7, some 10, some ⟨1, 1, 0, []⟩⟩) := by decide +kernel

end Strpp.Rx
