import Verif.Proof.RxTotal
import Verif.Proof.RxTop
/-! The choice of features: spelling and rejection. -/
set_option linter.unusedSimpArgs false
namespace Strpp.Rx
open Spec

/-- the tokens do not depend on the spelling -/
theorem toks_same {r r' : Re} (h : Same r r') : ∀ d, toks r d = toks r' d := by
  have hat : ∀ {a a' : Re}, Same a a' → (∀ d, toks a d = toks a' d) → ∀ d, atomToks a d (toks a d).1 = atomToks a' d (toks a' d).1 := by
    intro a a' h ih d
    cases h with
    | chr => rfl
    | _ => exact congrArg Prod.fst (ih d)
  induction h with
  | empty | chr | any | bol | eol | cls | prop => intro d; rfl
  | seq a a' b b' _ _ iha ihb => intro d; simp only [toks, iha, ihb]
  | alt a a' b b' _ _ iha ihb => intro d; simp only [toks, iha, ihb]
  | star a a' h ih | plus a a' h ih | opt a a' h ih | rep _ _ _ _ a a' h ih => intro d; simp only [toks]; rw [hat h ih]
  | grp nc nc' a a' h ih => intro d; simp only [toks, ih]

theorem same_symm {r r' : Re} (h : Same r r') : Same r' r := by
  induction h with
  | empty => exact .empty
  | chr s s' c => exact .chr s' s c
  | any => exact .any
  | bol => exact .bol
  | eol => exact .eol
  | cls neg t t' rs => exact .cls neg t' t rs
  | prop b b' p => exact .prop b' b p
  | seq a a' b b' _ _ iha ihb => exact .seq _ _ _ _ iha ihb
  | alt a a' b b' _ _ iha ihb => exact .alt _ _ _ _ iha ihb
  | star a a' h ih => exact .star _ _ ih
  | plus a a' h ih => exact .plus _ _ ih
  | opt a a' h ih => exact .opt _ _ ih
  | rep w w' mn mx a a' h ih => exact .rep _ _ _ _ _ _ ih
  | grp nc nc' a a' h ih => exact .grp _ _ _ _ ih

theorem same_isAtom {r r' : Re} (h : Same r r') : r'.isAtom = r.isAtom := by cases h <;> rfl

/-- nor does the meaning -/
theorem matches_same {t : List UCS4} {r : Re} {i j : Nat} (h : Matches t r i j) : ∀ r', Same r r' → Matches t r' i j := by
  induction h with
  | empty i => intro r' h; cases h; exact .empty i
  | chr i s c hc => intro r' h; cases h; exact .chr i _ c hc
  | any i c h1 h2 => intro r' h; cases h; exact .any i c h1 h2
  | bol i hi => intro r' h; cases h; exact .bol i hi
  | eol i hi => intro r' h; cases h; exact .eol i hi
  | cls i neg text rs c h1 h2 h3 => intro r' h; cases h; exact .cls i neg _ rs c h1 h2 h3
  | prop i b p c h1 h2 h3 => intro r' h; cases h; exact .prop i _ p c h1 h2 h3
  | seq i j k a b _ _ iha ihb => intro r' h; cases h with | seq _ a' _ b' h1 h2 => exact .seq i j k _ _ (iha _ h1) (ihb _ h2)
  | altL i j a b _ ih => intro r' h; cases h with | alt _ a' _ b' h1 h2 => exact .altL i j _ _ (ih _ h1)
  | altR i j a b _ ih => intro r' h; cases h with | alt _ a' _ b' h1 h2 => exact .altR i j _ _ (ih _ h2)
  | starNone i a => intro r' h; cases h; exact .starNone i _
  | starMore i j k a _ _ ih1 ih2 => intro r' h; cases h with | star _ a' h1 => exact .starMore i j k _ (ih1 _ h1) (ih2 _ (.star _ _ h1))
  | plusOne i j a _ ih => intro r' h; cases h with | plus _ a' h1 => exact .plusOne i j _ (ih _ h1)
  | plusMore i j k a _ _ ih1 ih2 => intro r' h; cases h with | plus _ a' h1 => exact .plusMore i j k _ (ih1 _ h1) (ih2 _ (.plus _ _ h1))
  | optNone i a => intro r' h; cases h; exact .optNone i _
  | optOne i j a _ ih => intro r' h; cases h with | opt _ a' h1 => exact .optOne i j _ (ih _ h1)
  | rep n f w mn mx a _ h1 h2 ih => intro r' h; cases h with | rep _ w' _ _ _ a' hs => exact .rep n f _ _ _ _ (fun m hm => ih m hm _ hs) h1 h2
  | grp i j nc a _ ih => intro r' h; cases h with | grp _ _ _ a' h1 => exact .grp i j _ _ (ih _ h1)

/-- every count can be written with a comma -/
theorem braces_comma {w : List UCS4} {mn : Nat} {mx : Option Nat} (h : Braces w mn mx) : ∃ w', Braces w' mn mx ∧ 0x2C#32 ∈ w' := by
  cases h with
  | exactly w _ h h0 => exact ⟨_, .between w w _ _ h h (Nat.le_refl _) h0, by simp⟩
  | atLeast v _ h => exact ⟨_, .atLeast v _ h, by simp⟩
  | atMost v m h h0 => exact ⟨_, .atMost v m h h0, by simp⟩
  | between v w _ m h h' hle h0 => exact ⟨_, .between v w _ _ h h' hle h0, by simp⟩
  | any => exact ⟨_, .any, by simp⟩

/-- Every expression written in some choice of features can be written with all of them -/
theorem respell {cfg : Cfg} {top : Bool} {r : Re} {u : List UCS4} (h : Written cfg top r u) : ∃ r', Same r r' ∧ r'.wf top ∧ r'.exact = false := by
  induction h with
  | blank top r w u _ _ ih => exact ih
  | empty top => exact ⟨.empty, .empty, trivial, rfl⟩
  | chr top s c hs hc =>
    by_cases hm : c ∈ metaChars
    · refine ⟨.chr .quoted c, .chr s _ c, ⟨?_, hc⟩, rfl⟩
      show c ∉ escapeLetters
      simp only [metaChars, List.mem_cons, List.not_mem_nil, or_false] at hm
      rcases hm with rfl | rfl | rfl | rfl | rfl | rfl | rfl | rfl | rfl | rfl | rfl | rfl <;> decide
    · exact ⟨.chr .plain c, .chr s _ c, ⟨hm, hc⟩, rfl⟩
  | any top _ => exact ⟨.any, .any, trivial, rfl⟩
  | bol top _ => exact ⟨.bol, .bol, trivial, rfl⟩
  | eol top _ => exact ⟨.eol, .eol, trivial, rfl⟩
  | cls top neg text rs _ hb hr => exact ⟨.cls neg text rs, .cls neg _ _ rs, ⟨hb, hr⟩, rfl⟩
  | prop top p _ => exact ⟨.prop false p, .prop _ _ p, trivial, rfl⟩
  | braces top p _ => exact ⟨.prop true p, .prop _ _ p, trivial, rfl⟩
  | seq top a b u v _ _ _ iha ihb =>
    obtain ⟨a', h1, h2, x1⟩ := iha
    obtain ⟨b', h3, h4, x2⟩ := ihb
    exact ⟨.seq a' b', .seq _ _ _ _ h1 h3, ⟨h2, h4, by rw [x1]; nofun⟩, by simp [Re.exact, x1, x2]⟩
  | alt a b u w v _ _ _ _ _ iha ihb =>
    obtain ⟨a', h1, h2, x1⟩ := iha
    obtain ⟨b', h3, h4, x2⟩ := ihb
    exact ⟨.alt a' b', .alt _ _ _ _ h1 h3, ⟨rfl, h2, h4, by rw [x1]; nofun⟩, by simp [Re.exact, x1, x2]⟩
  | star top a u _ _ hat _ ih =>
    obtain ⟨a', h1, h2, x1⟩ := ih
    exact ⟨.star a', .star _ _ h1, ⟨by rw [same_isAtom h1]; exact hat, h2⟩, x1⟩
  | plus top a u _ hat _ ih =>
    obtain ⟨a', h1, h2, x1⟩ := ih
    exact ⟨.plus a', .plus _ _ h1, ⟨by rw [same_isAtom h1]; exact hat, h2⟩, x1⟩
  | opt top a u _ hat _ ih =>
    obtain ⟨a', h1, h2, x1⟩ := ih
    exact ⟨.opt a', .opt _ _ h1, ⟨by rw [same_isAtom h1]; exact hat, h2⟩, x1⟩
  | rep top w mn mx a u _ hat _ hb _ ih =>
    obtain ⟨a', h1, h2, x1⟩ := ih
    obtain ⟨w', hb', hc⟩ := braces_comma hb
    exact ⟨.rep w' mn mx a', .rep _ _ _ _ _ _ h1, ⟨by rw [same_isAtom h1]; exact hat, h2, hb', by rw [x1]; nofun⟩, by
      simp [Re.exact, x1, hc]⟩
  | grp top a u w _ _ _ _ ih =>
    obtain ⟨a', h1, h2, x1⟩ := ih
    exact ⟨.grp false a', .grp _ _ _ _ h1, h2, x1⟩
  | group top a u w _ _ _ _ _ _ ih =>
    obtain ⟨a', h1, h2, x1⟩ := ih
    exact ⟨.grp true a', .grp _ _ _ _ h1, h2, x1⟩

/-- compiling depends on the text through its tokens only -/
theorem compile_same {cfg cfg' : Cfg} {re re' : List UCS4} (h : scan cfg re = scan cfg' re') : compile cfg re = compile cfg' re' := by
  unfold compile; rw [h]

/-! ### Rejection -/

/-- the rest of a text is read to its end -/
theorem scan_rest (cfg : Cfg) : ∀ (n : Nat) (s d : List UCS4), s.length ≤ n → Fits s → (¬ ∃ p, p <:+: s ∧ LongMin p) →
    ∃ evs, Scans cfg s d evs := by
  intro n
  induction n with
  | zero =>
    intro s d hl _ _
    cases s with
    | nil => exact ⟨_, .nil d⟩
    | cons => simp at hl
  | succ n ih =>
    intro s d hl hf hm
    cases s with
    | nil => exact ⟨_, .nil d⟩
    | cons c r =>
      have hsuf : r <:+ c :: r := List.suffix_cons c r
      have hr' : Fits r := hf.suffix hsuf.isInfix
      have h := scanStep_ok cfg c hr' d
      cases hs : scanStep cfg c r d with
      | error e =>
        rw [hs] at h
        obtain ⟨he, p, hp, h⟩ := h
        exact absurd ⟨p, hp.trans hsuf.isInfix, h⟩ hm
      | ok s =>
        rw [hs] at h
        obtain ⟨h, -⟩ : s.2.1 <:+ r ∧ s.1.all noAccept = true := h
        obtain ⟨evs, he⟩ := ih s.2.1 s.2.2 (by have := h.length_le; simp at hl; omega) (hr'.suffix h.isInfix)
          (fun ⟨p, hp, hq⟩ => hm ⟨p, hp.trans (h.trans hsuf).isInfix, hq⟩)
        exact ⟨_, .cons c r d s evs hs h.length_le he⟩

/-- a special character of a rejected feature is an error -/
theorem rejected_step {cfg : Cfg} {ch : UCS4} {f : Feature} (hc : (ch, f) ∈ rejectable) (hf : cfg.rejected f = true) (r d : List UCS4) :
    ∃ s : Step, scanStep cfg ch r d = .ok s ∧ s.1.any Ev.isErr = true ∧ s.2.1 = r := by
  have hs : ∀ st, special cfg f ch r d st = .ok (rejects cfg f ++ (literal ch r d).1, (literal ch r d).2) := fun st => by
    unfold special; rw [if_pos hf]
  refine ⟨(rejects cfg f ++ (literal ch r d).1, (literal ch r d).2), ?_, ?_, literal_rest ch r d⟩
  · simp only [rejectable, List.mem_cons, List.not_mem_nil, or_false, Prod.mk.injEq] at hc
    rcases hc with ⟨rfl, rfl⟩ | ⟨rfl, rfl⟩ | ⟨rfl, rfl⟩ | ⟨rfl, rfl⟩ | ⟨rfl, rfl⟩ | ⟨rfl, rfl⟩ | ⟨rfl, rfl⟩ | ⟨rfl, rfl⟩ <;> exact hs _
  · unfold rejects; rw [if_pos hf]; rfl

/-- so is whatever comes after it -/
theorem rejected_scans {cfg : Cfg} {ch : UCS4} {f : Feature} (hc : (ch, f) ∈ rejectable) (hf : cfg.rejected f = true) (post d : List UCS4)
    (hfit : Fits post) (hm : ¬ ∃ p, p <:+: post ∧ LongMin p) :
    ∃ evs, Scans cfg (ch :: post) d evs ∧ evs.any Ev.isErr = true := by
  obtain ⟨s, h1, h2, h3⟩ := rejected_step hc hf post d
  obtain ⟨evs, he⟩ := scan_rest cfg _ post s.2.2 (Nat.le_refl _) hfit hm
  refine ⟨s.1 ++ evs, .cons ch post d s evs h1 (by rw [h3]) (h3 ▸ he), ?_⟩
  rw [List.any_append, h2]; rfl

theorem scan_of_scans {cfg : Cfg} {re : List UCS4} {evs : List Ev} (h : Scans cfg re [] evs) :
    scan cfg re = .ok (.tok .start :: evs ++ if evs.any Ev.isErr then [] else [.tok .accept]) := by
  unfold scan
  rw [h.loop _ (Nat.le_refl _)]
  rfl

/-! ### A feature nobody asks about -/

/-- the choice with `ZeroOrOneQuest` set otherwise -/
def Cfg.setQuest (cfg : Cfg) (b c : Bool) : Cfg :=
  ⟨fun f => if f = .zeroOrOneQuest then b else cfg.features f, fun f => if f = .zeroOrOneQuest then c else cfg.rejected f⟩

theorem quest_step (cfg : Cfg) (b c : Bool) (ch : UCS4) (r d : List UCS4) : scanStep (cfg.setQuest b c) ch r d = scanStep cfg ch r d := rfl

theorem quest_loop (cfg : Cfg) (b c : Bool) : ∀ (fuel : Nat) (s d : List UCS4), scanLoop (cfg.setQuest b c) fuel s d = scanLoop cfg fuel s d := by
  intro fuel
  induction fuel with
  | zero => intro s d; cases s <;> rfl
  | succ fuel ih =>
    intro s d
    cases s with
    | nil => rfl
    | cons ch r => unfold scanLoop; rw [quest_step]; simp only [ih]

theorem same_counted {r r' : Re} (h : Same r r') : r'.counted = r.counted := by
  induction h with
  | seq _ _ _ _ _ _ iha ihb | alt _ _ _ _ _ _ iha ihb => simp only [Re.counted, iha, ihb]
  | star _ _ _ ih | plus _ _ _ ih | opt _ _ _ ih | grp _ _ _ _ _ ih => simp only [Re.counted, ih]
  | _ => rfl

theorem uncounted_exact : ∀ r : Re, r.counted = false → r.exact = false
  | .seq a b, h | .alt a b, h => by
    simp only [Re.counted, Bool.or_eq_false_iff] at h
    simp only [Re.exact, uncounted_exact a h.1, uncounted_exact b h.2, Bool.or_self]
  | .star a, h | .plus a, h | .opt a, h | .grp _ a, h => uncounted_exact a h
  | .rep .., h => by cases h
  | .empty, _ | .chr .., _ | .any, _ | .bol, _ | .eol, _ | .cls .., _ | .prop .., _ => rfl

end Strpp.Rx
