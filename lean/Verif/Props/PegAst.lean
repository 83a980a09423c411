import Verif.Props.Peg
/-!
Peg: the AST that parse returns (C66). What it should be is in Spec/PegCap.lean.
-/
namespace Strpp.Pex
open Spec
open Var (Variant)

/-! ### C66 -/

section
variable (g : Grammar) (hok : g.Ok) (rules : List Rule) (hs : Sorted g.rules rules) (htop : ∃ d ∈ g, d.name = topName)
  (hcaps : ∀ d ∈ g, ∀ cs, d.captures = some cs → ∀ c ∈ cs, 0#8 ∉ c ∧ 0x3A#8 ∉ c) (t : List Byte) (ht : 0#8 ∉ t)
  (hp : (∀ d ∈ g, d.expr.noProps = true) ∨ ∀ c ∈ decodeAll t, InCtype c)

include htop in
/-- A grammar says of every place of every text what parsing is to give there, and says one thing only. -/
theorem C66_one_meaning (k : Nat) (hk : k ≤ (decodeAll t).length) :
    ∃ r ast, g.MeansC (decodeAll t) topName k r ast ∧ ∀ r' ast', g.MeansC (decodeAll t) topName k r' ast' → r' = r ∧ ast' = ast := by
  obtain ⟨r, hr⟩ := meansL_total g t topName k hk
  have hrule : ∃ d, g.rule topName = some d := by
    obtain ⟨d, hd, hdn⟩ := htop
    cases hf : g.rule topName with
    | some d => exact ⟨d, rfl⟩
    | none =>
      have := List.find?_eq_none.mp hf d hd
      simp [hdn] at this
  obtain ⟨d, hd⟩ := hrule
  obtain ⟨ast, h⟩ := meansL_meansC g _ hd hr
  exact ⟨r, ast, h, fun r' ast' h' => meansC_det g _ h' h⟩

/-- How far it says that parsing goes is as in C54. -/
theorem C66_extent (k : Nat) (r : Option Nat) (ast : List (List UCS4 × Variant)) (h : g.MeansC (decodeAll t) topName k r ast) : g.MeansL (decodeAll t) topName k r := meansC_meansL g _ h

include hok hs htop hcaps ht hp

/-- Parsing succeeds from `k` to `k'` with a map as its result just when the grammar says that it does with that map. -/
theorem C66_ast (k : Nat) (hk : k ≤ (decodeAll t).length) (k' : Nat) (hk' : k' ≤ (decodeAll t).length) (ast : List (List UCS4 × Variant)) :
    g.MeansC (decodeAll t) topName k (some k') ast ↔ ∃ m, parse rules (t ++ [0#8]) (atChar t k) = .ok (m, atChar t k') ∧ m.var = .strVarMap ast := by
  obtain ⟨r0, ast0, hm0, hu⟩ := C66_one_meaning g htop t k hk
  obtain ⟨d, hd, hdn⟩ := htop
  rw [← srcAt_eq t k hk, ← srcAt_eq t k' hk']
  constructor
  · intro h
    obtain ⟨m, h1, -, h2⟩ := parse_eval ht hok hs hp hd hdn hk h
    exact ⟨m, h1, h2 hcaps⟩
  · rintro ⟨m, h1, h2⟩
    obtain ⟨m', g1, g2⟩ := parse_eval ht hok hs hp hd hdn hk hm0
    rw [g1] at h1
    injection h1 with h1
    injection h1 with e1 e2
    subst e1
    cases r0 with
    | none =>
      simp only [Option.isSome_none, Bool.false_eq_true, if_false] at g2
      rw [g2] at h2
      cases h2
    | some k1 =>
      obtain ⟨-, g2⟩ := g2
      rw [g2 hcaps] at h2
      injection h2 with h2
      subst h2
      obtain ⟨h, hc⟩ := meansC_meansL g _ hm0
      have hle := callL_le g t h [] topName k k1 hc hk
      simp only [Option.getD_some] at e2
      rw [← (srcAt_inj t ht hle.2 hk').mp (by rw [e2])]
      exact hm0

end

/-! ### Examples -/

/-- a value, as text: for comparing -/
def shown : Variant → List UCS4
  | .string s => s
  | .strVarMap m => 0x7B#32 :: (m.flatMap (fun e => e.1 ++ 0x3D#32 :: (match e.2 with | .string s => s | .varArray vs => 0x5B#32 :: (vs.flatMap (fun v => match v with | .string s => s ++ [0x2C#32] | .strVarMap _ => [0x4D#32] | _ => [0x3F#32])) | .strVarMap _ => [0x4D#32] | _ => [0x3F#32]) ++ [0x7D#32]))
  | _ => [0x3F#32]

/-- TOP = `<n>*(,<n>)`, which captures n; n = `+[0-9]` -/
def listGrammar : Grammar :=
  [⟨topName, .seq (.call [0x6E#8] none) (.seq (.star (.grp (.seq (.one (.lit (.plain 0x2C#8))) (.seq (.call [0x6E#8] none) .empty)))) .empty), some [[0x6E#8]]⟩,
   ⟨[0x6E#8], .seq (.plus (.one (.cls false [.range (.plain 0x30#8) (.plain 0x39#8)]))) .empty, none⟩]

theorem listGrammar_ok : listGrammar.Ok := by
  refine ⟨by decide, ?_, by decide⟩
  intro d hd
  simp only [listGrammar, List.mem_cons, List.not_mem_nil, or_false] at hd
  rcases hd with rfl | rfl
  · simp [Expr.wf, One.ok, Written.ok, plainOutside, pegSpecial, nameByte, Expr.single]
  · simp [Expr.wf, One.ok, Item.ok, Written.ok, plainInClass, startsRange, Expr.single]

theorem listGrammar_sorted : Sorted listGrammar.rules listGrammar.rules := by
  refine ⟨List.Perm.refl _, ?_⟩
  simp only [listGrammar, Grammar.rules, Def.rule, List.map_cons, List.map_nil, List.pairwise_cons, List.mem_cons, List.not_mem_nil, or_false, forall_eq, false_implies, implies_true, List.Pairwise.nil, and_true]
  exact ⟨-26, by decide, by decide⟩

/-- "12,3": n is the array of "12" and "3" -/
example : (parse listGrammar.rules ([0x31#8, 0x32#8, 0x2C#8, 0x33#8] ++ [0#8]) (atChar [0x31#8, 0x32#8, 0x2C#8, 0x33#8] 0)).map (fun r => (shown r.1.var, r.2.pos)) =
    .ok ([0x7B#32, 0x6E#32, 0x3D#32, 0x5B#32, 0x31#32, 0x32#32, 0x2C#32, 0x33#32, 0x2C#32, 0x7D#32], 4) := by decide +kernel

/-- So this is what the grammar says. -/
example : ∃ ast, listGrammar.MeansC (decodeAll [0x31#8, 0x32#8, 0x2C#8, 0x33#8]) topName 0 (some 4) ast ∧ shown (.strVarMap ast) = [0x7B#32, 0x6E#32, 0x3D#32, 0x5B#32, 0x31#32, 0x32#32, 0x2C#32, 0x33#32, 0x2C#32, 0x7D#32] := by
  have h := C66_ast listGrammar listGrammar_ok _ listGrammar_sorted ⟨_, List.mem_cons_self, rfl⟩ (by decide) [0x31#8, 0x32#8, 0x2C#8, 0x33#8] (by decide) (Or.inl (by decide)) 0 (by decide) 4 (by decide +kernel)
  have hp : ((parse listGrammar.rules ([0x31#8, 0x32#8, 0x2C#8, 0x33#8] ++ [0#8]) (atChar [0x31#8, 0x32#8, 0x2C#8, 0x33#8] 0)).map (fun r => ((match r.1.var with | .strVarMap m => shown (.strVarMap m) | _ => []), r.2))) =
    .ok ([0x7B#32, 0x6E#32, 0x3D#32, 0x5B#32, 0x31#32, 0x32#32, 0x2C#32, 0x33#32, 0x2C#32, 0x7D#32], atChar [0x31#8, 0x32#8, 0x2C#8, 0x33#8] 4) := by decide +kernel
  cases hq : parse listGrammar.rules ([0x31#8, 0x32#8, 0x2C#8, 0x33#8] ++ [0#8]) (atChar [0x31#8, 0x32#8, 0x2C#8, 0x33#8] 0) with
  | error e => rw [hq] at hp; cases hp
  | ok q =>
    obtain ⟨m, src⟩ := q
    rw [hq] at hp
    simp only [Except.map, Except.ok.injEq, Prod.mk.injEq] at hp
    cases hv : m.var with
    | strVarMap a =>
      rw [hv] at hp
      exact ⟨a, (h a).mpr ⟨m, by rw [hq, hp.2], hv⟩, hp.1⟩
    | _ => rw [hv] at hp; exact absurd hp.1 (by simp)

/-- A label in TOP does not capture the text it is put on, but a map of what was captured before it: of `a:x:` and "a", under x, an
empty map. The same goes for any rule that has captured something before. -/
theorem C66_label_in_top : ((parse [⟨topName, [0x61#8, 0x3A#8, 0x78#8, 0x3A#8], none⟩] [0x61#8, 0#8] (atChar [0x61#8] 0)).map (fun r => shown r.1.var)) =
    .ok [0x7B#32, 0x78#32, 0x3D#32, 0x4D#32, 0x7D#32] := by decide +kernel

end Strpp.Pex
