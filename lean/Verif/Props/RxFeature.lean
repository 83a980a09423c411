import Verif.Proof.RxFeature
import Verif.Props.Rx
import Verif.Props.RxTotal
/-! C67: choosing the features of the language. -/
namespace Strpp.Rx
open Spec

/-- Whatever features are chosen, a text for an expression (by the rules of Spec/RxFeature.lean: special characters only
of features that are on, white space and comments if expressions are extended) compiles to the same program as any
text for the same tree in the language with all features -/
theorem C67_compile (cfg : Cfg) (r r' : Re) (u w : List UCS4) (h : Written cfg true r u) (hw : Trailer cfg w) (hs : Same r r')
    (hx : r.exact = true → 0x2C#32 ∉ w) (h' : r'.wf true) : compile cfg (u ++ w) = compile .default r'.write := by
  apply compile_same
  rw [scan_written h hw hx, scan_spec r' h', toks_same hs]

/-- and there is one -/
theorem C67_respell (cfg : Cfg) (top : Bool) (r : Re) (u : List UCS4) (h : Written cfg top r u) : ∃ r', Same r r' ∧ r'.wf top :=
  (respell h).imp fun _ h => ⟨h.1, h.2.1⟩

/-- The spelling does not change the meaning -/
theorem C67_meaning (t : List UCS4) (r r' : Re) (h : Same r r') (i j : Nat) : Matches t r i j ↔ Matches t r' i j :=
  ⟨fun hm => matches_same hm r' h, fun hm => matches_same hm r (same_symm h)⟩

/-- So the text means the tree: when the program compiled from it is searched for in a text, the result is a match
exactly if there is one, and the leftmost longest (as in C49, for expressions of weight at most 992) -/
theorem C67_search (cfg : Cfg) (r r' : Re) (u w : List UCS4) (h : Written cfg true r u) (hw : Trailer cfg w) (hs : Same r r')
    (h' : r'.wf true) (hr : r.counted = false) (hsz : r'.weight ≤ 992) (nfa : List Byte) (hc : compile cfg (u ++ w) = .ok (some nfa)) :
    ∃ P, Prog.load nfa = .ok P ∧ ∀ (junk fuel : Nat) (t : List UCS4) (off : Nat) (res : RVal), P.matchAfter junk fuel t off = .ok res →
      (res.succeeded = true ↔ ∃ c j, MatchFrom t r off c j) ∧
      (res.succeeded = true → LeftmostLongest (MatchFrom t r off) res.offset (res.offset + res.length)) := by
  rw [C67_compile cfg r r' u w h hw hs (fun e => by rw [uncounted_exact r hr] at e; cases e) h'] at hc
  have hn : r'.nesting ≤ 11 := by
    by_cases hd : r'.nesting ≤ 11
    · exact hd
    · rw [C61_deep_refused r' h' (by omega)] at hc; cases hc
  have hcc := compile_cases r' h' hsz hn
  rw [hc] at hcc
  obtain ⟨_, P, e, hP, hC⟩ := hcc
  cases e
  refine ⟨P, hP, fun junk fuel t off res hm => ?_⟩
  have hobs := hC.matchAfter_observed ((same_counted hs).trans hr) hm
  have e : MatchFrom t r off = MatchFrom t r' off := by
    funext c j
    exact propext ⟨fun h => ⟨h.1, h.2, h.3, matches_same h.4 r' hs⟩, fun h => ⟨h.1, h.2, h.3, matches_same h.4 r (same_symm hs)⟩⟩
  rw [e]
  exact hobs

/-- An expression followed by a special character of a rejected feature (`^ $ [ | (`), and then by anything, is refused -/
theorem C67_rejected (cfg : Cfg) (top : Bool) (r : Re) (u w post : List UCS4) (ch : UCS4) (f : Feature) (h : Written cfg top r u)
    (hw : Blank cfg w) (hc : (ch, f) ∈ rejectable) (hr : f ≠ .zeroOrMore ∧ f ≠ .oneOrMore ∧ f ≠ .countRepetition)
    (hf : cfg.rejected f = true) (hx : r.exact = true → 0x2C#32 ∉ w ++ ch :: post) (hfit : Fits (u ++ (w ++ ch :: post))) (hm : ¬ ∃ p, p <:+: post ∧ LongMin p) :
    compile cfg (u ++ (w ++ ch :: post)) = .ok none := by
  have hn : NR cfg (ch :: post) := by
    simp only [rejectable, List.mem_cons, List.not_mem_nil, or_false, Prod.mk.injEq] at hc
    rcases hc with ⟨rfl, rfl⟩ | ⟨rfl, rfl⟩ | ⟨rfl, rfl⟩ | ⟨rfl, rfl⟩ | ⟨rfl, rfl⟩ | ⟨rfl, rfl⟩ | ⟨rfl, rfl⟩ | ⟨rfl, rfl⟩
    · exact NR.cons rfl (by decide)
    · exact NR.cons rfl (by decide)
    · exact NR.cons rfl (by decide)
    · exact NR.cons rfl (by decide)
    · exact NR.cons rfl (by decide)
    · exact absurd rfl hr.1
    · exact absurd rfl hr.2.1
    · exact absurd rfl hr.2.2
  have hpf : Fits post := hfit.suffix ⟨u ++ w ++ [ch], [], by simp⟩
  obtain ⟨evs, h1, h2⟩ := rejected_scans hc hf post (toks r []).2 hpf hm
  have hs := (scan_write h).1 (w ++ ch :: post) [] evs (.inl (NR.blank hw _ hn)) hx (scan_blank hw _ _ _ hn h1)
  have he : ((toks r []).1 ++ evs).any Ev.isErr = true := by rw [List.any_append, h2, Bool.or_true]
  refine C62_refused cfg _ hfit _ (scan_of_scans hs) ?_
  rw [List.any_append, List.any_cons, he, Bool.or_true, Bool.true_or]

/-- and so is a repetition (`*`, `+`, `{`) of an atom -/
theorem C67_rejected_repetition (cfg : Cfg) (r a : Re) (u v post : List UCS4) (ch : UCS4) (f : Feature) (h : Written cfg false r u)
    (ha : Written cfg false a v) (hat : a.isAtom = true) (hc : (ch, f) ∈ rejectable)
    (hr : f = .zeroOrMore ∨ f = .oneOrMore ∨ f = .countRepetition)
    (hf : cfg.rejected f = true) (hx : r.exact = true → 0x2C#32 ∉ v ++ ch :: post) (hxa : a.exact = true → 0x2C#32 ∉ ch :: post)
    (hfit : Fits (u ++ (v ++ ch :: post))) (hm : ¬ ∃ p, p <:+: post ∧ LongMin p) :
    compile cfg (u ++ (v ++ ch :: post)) = .ok none := by
  have hn : isRepeat (peek (ch :: post) 0) = true := by
    rw [peek_cons]
    simp only [rejectable, List.mem_cons, List.not_mem_nil, or_false, Prod.mk.injEq] at hc
    rcases hc with ⟨rfl, rfl⟩ | ⟨rfl, rfl⟩ | ⟨rfl, rfl⟩ | ⟨rfl, rfl⟩ | ⟨rfl, rfl⟩ | ⟨rfl, rfl⟩ | ⟨rfl, rfl⟩ | ⟨rfl, rfl⟩ <;>
      first | rfl | (exfalso; revert hr; decide)
  have hpf : Fits post := hfit.suffix ⟨u ++ v ++ [ch], [], by simp⟩
  have hread : ∃ evs, Scans cfg (v ++ ch :: post) (toks r []).2 evs ∧ evs.any Ev.isErr = true := by
    cases a with
    | chr s c =>
      obtain ⟨evs, h1, h2⟩ := rejected_scans hc hf post [c] hpf hm
      exact ⟨_, (scan_write ha).2 s c rfl _ _ evs hn h1, by rw [List.any_append, h2, Bool.or_true]⟩
    | any | cls | prop | grp =>
      obtain ⟨evs, h1, h2⟩ := rejected_scans hc hf post [] hpf hm
      exact ⟨_, (scan_write ha).1 _ _ evs (.inr rfl) hxa h1, by rw [List.any_append, h2, Bool.or_true]⟩
    | _ => cases hat
  obtain ⟨evs, h1, h2⟩ := hread
  have hs := (scan_write h).1 (v ++ ch :: post) [] evs (.inl (NR_write ha _ (.inl hat))) hx h1
  have he : ((toks r []).1 ++ evs).any Ev.isErr = true := by rw [List.any_append, h2, Bool.or_true]
  refine C62_refused cfg _ hfit _ (scan_of_scans hs) ?_
  rw [List.any_append, List.any_cons, he, Bool.or_true, Bool.true_or]

/-- The feature ZeroOrOneQuest makes no difference, enabled, disabled or rejected -/
theorem C67_quest_ignored (cfg : Cfg) (b c : Bool) (re : List UCS4) : compile (cfg.setQuest b c) re = compile cfg re := by
  apply compile_same
  unfold scan
  rw [quest_loop]

/-! ### Examples -/

/-- No features but alternatives and extended expressions -/
def wordsCfg : Cfg := ⟨fun f => f == .alternates || f == .extendedRE, fun _ => false⟩

/-- In `a^( | \n # more⏎ z` only the bar is special: `a\^\(|nz` -/
def wordsText : List UCS4 := [0x61#32, 0x5E#32, 0x28#32, 0x20#32, 0x7C#32, 0x20#32, 0x5C#32, 0x6E#32, 0x20#32, 0x23#32, 0x6D#32, 0x6F#32, 0x72#32,
  0x65#32, 0x0A#32, 0x20#32, 0x7A#32]

def wordsRe : Re := .alt (.seq (.chr .plain 0x61#32) (.seq (.chr .plain 0x5E#32) (.chr .plain 0x28#32)))
  (.seq (.chr .quoted 0x6E#32) (.chr .plain 0x7A#32))

def wordsRe' : Re := .alt (.seq (.chr .plain 0x61#32) (.seq (.chr .quoted 0x5E#32) (.chr .quoted 0x28#32)))
  (.seq (.chr .plain 0x6E#32) (.chr .plain 0x7A#32))

theorem words_on (f : Feature) : On wordsCfg f ↔ f = .alternates ∨ f = .extendedRE := by unfold On; cases f <;> decide

example : Written wordsCfg true wordsRe wordsText ∧ Same wordsRe wordsRe' ∧ wordsRe'.wf true ∧
    wordsRe'.write = [0x61#32, 0x5C#32, 0x5E#32, 0x5C#32, 0x28#32, 0x7C#32, 0x6E#32, 0x7A#32] := by
  have pl : ∀ c : UCS4, c ∉ [0x3F#32, 0x2A#32, 0x2B#32, 0x7B#32, 0x5C#32, 0x7C#32, 0x2E#32, 0x23#32, 0x20#32, 0x09#32, 0x0A#32, 0x0D#32] →
      PlainIn wordsCfg c := by
    intro c hc
    simp only [List.mem_cons, List.not_mem_nil, or_false, not_or] at hc
    refine ⟨by simp [hc], fun f hf => ?_, fun e => absurd e (by simp [hc]), fun h => ?_⟩
    · simp only [specialIf, List.mem_cons, List.not_mem_nil, or_false, Prod.mk.injEq] at hf
      rcases hf with ⟨-, rfl⟩ | ⟨-, rfl⟩ | ⟨-, rfl⟩ | ⟨h, -⟩ | ⟨-, rfl⟩ | ⟨-, rfl⟩
      · exact ⟨rfl, rfl⟩
      · exact ⟨rfl, rfl⟩
      · exact ⟨rfl, rfl⟩
      · exact absurd h (by simp [hc])
      · exact ⟨rfl, rfl⟩
      · exact ⟨rfl, rfl⟩
    · simp [blanks, hc] at h
  have ch : ∀ c : UCS4, PlainIn wordsCfg c → Writable c → Written wordsCfg false (.chr .plain c) [c] := fun c h1 h2 => .chr false .plain c h1 h2
  have sp : Blank wordsCfg [0x20#32] := .white _ [] ((words_on _).mpr (.inr rfl)) (by decide) .nil
  have hcom : Blank wordsCfg [0x20#32, 0x23#32, 0x6D#32, 0x6F#32, 0x72#32, 0x65#32, 0x0A#32, 0x20#32] :=
    .comment 0x20#32 [0x6D#32, 0x6F#32, 0x72#32, 0x65#32] [0x20#32] ((words_on _).mpr (.inr rfl)) (by decide) (by decide) sp
  have hq : Written wordsCfg false (.chr .quoted 0x6E#32) [0x5C#32, 0x6E#32] := by
    refine .chr false .quoted 0x6E#32 (fun f hf hon => ?_) (by unfold Writable; decide)
    rw [words_on] at hon
    rcases hon with rfl | rfl <;> revert hf <;> decide
  refine ⟨?_, ?_, ?_, rfl⟩
  · refine .alt _ _ [0x61#32, 0x5E#32, 0x28#32] [0x20#32] (0x20#32 :: 0x5C#32 :: 0x6E#32 :: [0x20#32, 0x23#32, 0x6D#32, 0x6F#32, 0x72#32, 0x65#32, 0x0A#32, 0x20#32, 0x7A#32]) ((words_on _).mpr (.inl rfl)) ?_ sp ?_ nofun
    · exact .seq false _ _ [0x61#32] [0x5E#32, 0x28#32] (ch _ (pl _ (by decide)) (by unfold Writable; decide))
        (.seq false _ _ [0x5E#32] [0x28#32] (ch _ (pl _ (by decide)) (by unfold Writable; decide)) (ch _ (pl _ (by decide)) (by unfold Writable; decide)) nofun) nofun
    · refine .blank true _ [0x20#32] (0x5C#32 :: 0x6E#32 :: [0x20#32, 0x23#32, 0x6D#32, 0x6F#32, 0x72#32, 0x65#32, 0x0A#32, 0x20#32, 0x7A#32]) sp ?_
      exact .seq true _ _ [0x5C#32, 0x6E#32] _ hq (.blank false _ _ [0x7A#32] hcom (ch _ (pl _ (by decide)) (by unfold Writable; decide))) nofun
  · exact .alt _ _ _ _ (.seq _ _ _ _ (.chr _ _ _) (.seq _ _ _ _ (.chr _ _ _) (.chr _ _ _))) (.seq _ _ _ _ (.chr _ _ _) (.chr _ _ _))
  · simp only [wordsRe', Re.wf, Spelling.ok, Writable]
    decide

/-- they do compile to the same -/
example : compile wordsCfg wordsText = compile .default wordsRe'.write ∧ ∃ nfa, compile wordsCfg wordsText = .ok (some nfa) :=
  ⟨by decide +kernel, _, rfl⟩

/-- `*` rejected: `ab*c` is refused -/
example : compile { Cfg.default with rejected := (· == .zeroOrMore) } [0x61#32, 0x62#32, 0x2A#32, 0x63#32] = .ok none := by decide +kernel

/-- All features and extended expressions -/
def extendedCfg : Cfg := ⟨fun f => !(f == Feature.anyIsQuest || f == Feature.zeroOrMoreAny), fun _ => false⟩

/-- the length of the match at the beginning of `abab` -/
def abab (re : List UCS4) : Res Nat := do
  let nfa ← compile extendedCfg re
  let P ← Prog.load (nfa.getD [])
  let r ← P.matchAt 0 1000 [0x61#32, 0x62#32, 0x61#32, 0x62#32] 0
  .ok r.length

/-- Not covered, and not what a reader expects: in an extended expression a space in front of a repetition makes it repeat
the whole literal. `ab *` matches all of `abab`, as `(ab)*` does, and `ab*` does not. -/
theorem C67_space_before_star : abab [0x61#32, 0x62#32, 0x20#32, 0x2A#32] = .ok 4 ∧ abab [0x61#32, 0x62#32, 0x2A#32] = .ok 2 := by
  constructor <;> decide +kernel

/-- Rejecting named groups rejects `(?:a)` -/
theorem C67_rejected_capture : compile ⟨Cfg.default.features, fun f => f == .capture⟩ [0x28#32, 0x3F#32, 0x3A#32, 0x61#32, 0x29#32] = .ok none := by
  decide +kernel

end Strpp.Rx
