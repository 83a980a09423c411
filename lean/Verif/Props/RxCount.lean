import Verif.Proof.RxCount
import Verif.Props.RxFeature
/-!
Property C68: what is reported as a match is one, also for expressions with counted repetition.
-/
namespace Strpp.Rx
open Strpp.Spec

theorem Compiled.found {r : Re} {P : Prog} (hc : Compiled r P) {junk fuel : Nat} {t : List UCS4} {off : Nat} {res : RVal}
    (h : P.matchAfter junk fuel t off = .ok res) (hs : res.succeeded = true) :
    MatchFrom t r off res.offset (res.offset + res.length) := by
  obtain ⟨e, he⟩ := Option.isSome_iff_exists.1 hs
  obtain ⟨h1, h2, h3, h4⟩ := hc.matchAfter_real h he
  have hb := Matches_bounds h3
  have hl : res.offset + res.length = e := by
    unfold RVal.offset RVal.length
    rw [he]
    dsimp only
    omega
  rw [hl]
  exact ⟨h1, show res.cap0 ≤ t.length by omega, (noNul_iff (by omega)).mp h2, h3⟩

/-- The stretch of text that searching reports is matched by the expression, counts and all, and begins at the offset
given or after it; no NUL is in between -/
theorem C68_search (r : Re) (hw : r.wf true) (hz : r.weight ≤ 992) (junk fuel : Nat) (t : List UCS4) (off : Nat) (res : RVal)
    (h : search r.write junk fuel t off = .ok (some res)) (hs : res.succeeded = true) :
    MatchFrom t r off res.offset (res.offset + res.length) := by
  rcases search_ok hw hz h with ⟨h, -⟩ | ⟨P, res, h, hc, hm⟩
  · cases h
  · cases h; exact hc.found hm hs

/-- The same for matching at a given place -/
theorem C68_at (r : Re) (hw : r.wf true) (hz : r.weight ≤ 992) (junk fuel : Nat) (t : List UCS4) (off : Nat) (res : RVal)
    (h : matchHere r.write junk fuel t off = .ok (some res)) (hs : res.succeeded = true) :
    res.offset = off ∧ Matches t r off (off + res.length) ∧ off + res.length ≤ t.length := by
  rcases matchHere_ok hw hz h with ⟨h, -⟩ | ⟨P, res, h, hc, hm⟩
  · cases h
  · cases h
    obtain ⟨e, he⟩ := Option.isSome_iff_exists.1 hs
    obtain ⟨h1, h2, h3⟩ := hc.matchAt_real hm he
    have hb := Matches_bounds h2
    have hl : off + res.length = e := by
      unfold RVal.length
      rw [he]
      dsimp only
      omega
    exact ⟨h1, by rw [hl]; exact h2, by omega⟩

/-- Expressions written with at most 66 characters are small enough -/
theorem C68_short (r : Re) (hw : r.wf true) (hl : r.write.length ≤ 66) (junk fuel : Nat) (t : List UCS4) (off : Nat) (res : RVal)
    (h : search r.write junk fuel t off = .ok (some res)) (hs : res.succeeded = true) :
    MatchFrom t r off res.offset (res.offset + res.length) :=
  C68_search r hw (by have := weight_len r _ hw; omega) junk fuel t off res h hs

/-- So a text that the expression does not match anywhere is never said to contain a match -/
theorem C68_none (r : Re) (hw : r.wf true) (hz : r.weight ≤ 992) (junk fuel : Nat) (t : List UCS4) (off : Nat) (res : RVal)
    (h : search r.write junk fuel t off = .ok (some res)) (hn : ∀ i j, i ≤ t.length → ¬ Matches t r i j) : res.succeeded = false := by
  cases hs : res.succeeded with
  | false => rfl
  | true =>
    obtain ⟨_, h2, _, h4⟩ := C68_search r hw hz junk fuel t off res h hs
    exact absurd h4 (hn _ _ h2)

/-- With any set of features, and blanks and comments where they allow them -/
theorem C68_features (cfg : Cfg) (r r' : Re) (u w : List UCS4) (h : Written cfg true r u) (hw : Trailer cfg w) (hs : Same r r')
    (hx : r.exact = true → 0x2C#32 ∉ w) (h' : r'.wf true) (hsz : r'.weight ≤ 992) (nfa : List Byte)
    (hc : compile cfg (u ++ w) = .ok (some nfa)) :
    ∃ P, Prog.load nfa = .ok P ∧ ∀ (junk fuel : Nat) (t : List UCS4) (off : Nat) (res : RVal), P.matchAfter junk fuel t off = .ok res →
      res.succeeded = true → MatchFrom t r off res.offset (res.offset + res.length) := by
  rw [C67_compile cfg r r' u w h hw hs hx h'] at hc
  have hn : r'.nesting ≤ 11 := by
    by_cases hd : r'.nesting ≤ 11
    · exact hd
    · rw [C61_deep_refused r' h' (by omega)] at hc; cases hc
  have hcc := compile_cases r' h' hsz hn
  rw [hc] at hcc
  obtain ⟨nfa', P, hnfa, hP, hcomp⟩ := hcc
  cases hnfa
  refine ⟨P, hP, fun junk fuel t off res hm hsucc => ?_⟩
  obtain ⟨h1, h2, h3, h4⟩ := hcomp.found hm hsucc
  exact ⟨h1, h2, h3, (C67_meaning t r r' hs _ _).mpr h4⟩

/-! ### The converse is false -/

/-- `a{0,2}` matches the empty text at the beginning of `b`, but it is not found there -/
theorem C68_missed_empty : (∃ res, search [0x61#32, 0x7B#32, 0x30#32, 0x2C#32, 0x32#32, 0x7D#32] 0 1000 [0x62#32] 0 = .ok (some res) ∧
    res.succeeded = false) ∧
    Matches [0x62#32] (.rep [0x30#32, 0x2C#32, 0x32#32] 0 (some 2) (.chr .plain 0x61#32)) 0 0 :=
  ⟨⟨.fail, by decide +kernel, rfl⟩, .rep 0 (fun _ => 0) _ _ _ _ (fun _ h => by omega) (Nat.le_refl _) (fun _ _ => Nat.zero_le _)⟩

/-! ### Examples -/

/-- `[0-9]{2,4}x` -/
def exampleCount : Re :=
  .seq (.rep [0x32#32, 0x2C#32, 0x34#32] 2 (some 4) (.cls false [0x30#32, 0x2D#32, 0x39#32] [(0x30#32, 0x39#32)])) (.chr .plain 0x78#32)

theorem exampleCount_wf : exampleCount.wf true := by
  refine ⟨⟨rfl, ⟨?_, ?_⟩, ?_, by decide⟩, ?_, by decide⟩
  · refine .usual _ _ (by simp) (by decide) (by decide) ?_
    exact .range 0x30#32 0x39#32 [0x30#32] [0x39#32] [] [] (.bare _ (by decide) (by decide)) (by decide) (.bare _ (by decide) (by decide)) .nil
  · intro r hr
    cases List.mem_singleton.1 hr
    constructor <;> (unfold Writable; decide)
  · refine .between [0x32#32] [0x34#32] 2 4 ?_ ?_ (by omega) (by omega)
    · refine ⟨by simp, by simp, ?_, ⟨[2], ⟨⟨.inl ⟨(0x30, 0), by simp [digitBlocks], by simp⟩, .inl (by omega)⟩, trivial⟩, rfl⟩, by omega⟩
      intro d hd
      cases List.mem_singleton.1 hd
      decide
    · refine ⟨by simp, by simp, ?_, ⟨[4], ⟨⟨.inl ⟨(0x30, 0), by simp [digitBlocks], by simp⟩, .inl (by omega)⟩, trivial⟩, rfl⟩, by omega⟩
      intro d hd
      cases List.mem_singleton.1 hd
      decide
  · simp only [Re.wf, Spelling.ok, Writable]
    decide

example : exampleCount.weight ≤ 992 ∧ exampleCount.nesting ≤ 11 ∧ exampleCount.counted = true ∧
    exampleCount.write = [0x5B#32, 0x30#32, 0x2D#32, 0x39#32, 0x5D#32, 0x7B#32, 0x32#32, 0x2C#32, 0x34#32, 0x7D#32, 0x78#32] := by decide

/-- in `a123x` it is found: `123x` -/
theorem exampleCount_found : search exampleCount.write 0 1000 [0x61#32, 0x31#32, 0x32#32, 0x33#32, 0x78#32] 0
    = .ok (some ⟨1, some 5, some ⟨1, 1, 0, [4, 3]⟩⟩) := by decide +kernel

example : Matches [0x61#32, 0x31#32, 0x32#32, 0x33#32, 0x78#32] exampleCount 1 5 :=
  (C68_search exampleCount exampleCount_wf (by decide) 0 1000 _ 0 _ exampleCount_found rfl).matches_

/-- `1x` and `xx` are not reported, whatever the fuel -/
example : search exampleCount.write 0 1000 [0x31#32, 0x78#32, 0x78#32] 0 = .ok (some .fail) := by decide +kernel

end Strpp.Rx
