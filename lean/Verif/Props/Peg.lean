import Verif.Proof.PegWhole
import Verif.Proof.PegHistory
import Verif.Props.Pegexp
/-!
Peg (C42, C43, C44, C53 to C57). Rules, their names, patterns and captures are C strings: without NULs.
`rules` is what the constructor makes of the rules supplied: `Sorted supplied rules`.
-/
namespace Strpp.Pex
open Spec
open Var (Variant)

/-! ### C42 -/

/-- Looking up the name of a call, `name>`, finds a rule of that name if one was supplied, and otherwise nothing, in whatever
order they were supplied: provided that names which continue `name` do so with a byte that sorts after `>`. Digits do not. -/
theorem C42_lookup_partial (supplied rules : List Rule) (hs : Sorted supplied rules) (hnul : ∀ r ∈ supplied, 0#8 ∉ r.name) (name : List Byte) (hn : 0#8 ∉ name) (hg : 0x3E#8 ∉ name)
    (rest : List Byte) (hafter : ∀ r ∈ supplied, ∀ b more, r.name = name ++ b :: more → 0x3E < b.toNat) :
    (∃ i r, lookup rules (name ++ 0x3E#8 :: rest) = .ok (some i) ∧ rules[i]? = some r ∧ r.name = name) ∨
    (lookup rules (name ++ 0x3E#8 :: rest) = .ok none ∧ ∀ r ∈ supplied, r.name ≠ name) :=
  lookup_ok hs hnul name hn hg 0x3E#8 (Or.inl rfl) rest hafter

/-- TOP, which is looked up by itself, is found if it was supplied, whatever the names of the others. -/
theorem C42_top_partial (supplied rules : List Rule) (hs : Sorted supplied rules) (hnul : ∀ r ∈ supplied, 0#8 ∉ r.name) :
    (∃ i r, lookup rules (cstr topName) = .ok (some i) ∧ rules[i]? = some r ∧ r.name = topName) ∨
    (lookup rules (cstr topName) = .ok none ∧ ∀ r ∈ supplied, r.name ≠ topName) := by
  refine lookup_ok hs hnul topName (by decide) (by decide) 0#8 (Or.inr rfl) [] (fun r hr y more hy => ?_)
  have : y ≠ 0#8 := by
    rintro rfl
    exact hnul r hr (by rw [hy]; simp)
  rcases Nat.eq_zero_or_pos y.toNat with h | h
  · exact absurd (BitVec.eq_of_toNat_eq (by simpa using h)) this
  · simpa using h

/-- The rule looked up by itself is called TOP. -/
theorem C42_top_name_partial : topName = "TOP".toList.map (fun c => BitVec.ofNat 8 c.toNat) := by decide

/-- a rule without a pattern, for the names alone -/
def nameOnly (n : List Byte) : Rule := ⟨n, [], none⟩

/-- Rules TOP, ab, ab1 and ab2: looking up `ab>` does not find ab, because the digits sort before `>`. -/
theorem C42_refuted_digits :
    ∃ supplied rules, Sorted supplied rules ∧ nameOnly [0x61#8, 0x62#8] ∈ supplied ∧ lookup rules [0x61#8, 0x62#8, 0x3E#8, 0#8] = .ok none := by
  refine ⟨[nameOnly topName, nameOnly [0x61#8, 0x62#8], nameOnly [0x61#8, 0x62#8, 0x31#8], nameOnly [0x61#8, 0x62#8, 0x32#8]],
    [nameOnly topName, nameOnly [0x61#8, 0x62#8], nameOnly [0x61#8, 0x62#8, 0x31#8], nameOnly [0x61#8, 0x62#8, 0x32#8]], ⟨List.Perm.refl _, ?_⟩, by decide, by decide⟩
  have hc : ∀ a b : Rule, (match strcmp (cstr a.name) (cstr b.name) with | .ok c => decide (c ≤ 0) | .error _ => false) = true →
      ∃ c, strcmp (cstr a.name) (cstr b.name) = .ok c ∧ c ≤ 0 := by
    intro a b h
    cases hx : strcmp (cstr a.name) (cstr b.name) with
    | error e => rw [hx] at h; cases h
    | ok c => rw [hx] at h; exact ⟨c, rfl, by simpa using h⟩
  refine List.Pairwise.imp (fun h => hc _ _ h) ?_
  decide

/-- Supplied in the other order, sorted, and both found; `b` is not -/
example : (lookup [nameOnly topName, nameOnly [0x61#8]] [0x61#8, 0x3E#8, 0#8], lookup [nameOnly topName, nameOnly [0x61#8]] (cstr topName),
    lookup [nameOnly topName, nameOnly [0x61#8]] [0x62#8, 0x3E#8, 0#8]) = (.ok (some 1), .ok (some 0), .ok none) := by decide

/-! ### C53 -/

/-- When names consist of bytes that sort after `>`, as letters and underscores do, a call finds its rule if there is one; if
names are not repeated it is that very rule. -/
theorem C53_lookup (supplied rules : List Rule) (hs : Sorted supplied rules) (hletters : ∀ r ∈ supplied, ∀ b ∈ r.name, 0x3E < b.toNat) (name : List Byte) (hn : 0#8 ∉ name) (hg : 0x3E#8 ∉ name)
    (rest : List Byte) :
    (∀ r ∈ supplied, r.name = name → ∃ i r', lookup rules (name ++ 0x3E#8 :: rest) = .ok (some i) ∧ rules[i]? = some r' ∧ r'.name = name ∧ ((supplied.map Rule.name).Nodup → r' = r)) ∧
    ((∀ r ∈ supplied, r.name ≠ name) → lookup rules (name ++ 0x3E#8 :: rest) = .ok none) := by
  have hnul : ∀ r ∈ supplied, 0#8 ∉ r.name := fun r hr hm => by have := hletters r hr _ hm; simp at this
  have h := C42_lookup_partial supplied rules hs hnul name hn hg rest (fun r hr b more hb => hletters r hr b (by rw [hb]; simp))
  constructor
  · intro r hr hrn
    rcases h with ⟨i, r', h1, h2, h3⟩ | ⟨-, h2⟩
    · refine ⟨i, r', h1, h2, h3, fun hnd => ?_⟩
      have hr' : r' ∈ supplied := hs.1.mem_iff.mp (List.mem_of_getElem? h2)
      exact List.inj_on_of_nodup_map hnd hr' hr (h3.trans hrn.symm)
    · exact absurd hrn (h2 r hr)
  · intro hno
    rcases h with ⟨i, r', -, h2, h3⟩ | ⟨h1, -⟩
    · exact absurd h3 (hno r' (hs.1.mem_iff.mp (List.mem_of_getElem? h2)))
    · exact h1

/-! ### C43 -/

/-- Whatever the rules and the text, parsing ends: calls of rules nest no deeper than the number of rules times the number of bytes
of the text with its NUL, plus one (the bound in `parse`), and loops have the bounds of C36. Unless there is no TOP, no assertion
fails. -/
theorem C43_ends (rules : List Rule) (hnul : ∀ r ∈ rules, 0#8 ∉ r.name ∧ 0#8 ∉ r.pattern) (t : List Byte) (ht : 0#8 ∉ t) (k : Nat) (hk : k ≤ (decodeAll t).length) :
    parse rules (t ++ [0#8]) (atChar t k) ≠ .error .fuel ∧
    (lookup rules (cstr topName) ≠ .ok none → parse rules (t ++ [0#8]) (atChar t k) ≠ .error .assertion) := by
  rw [← srcAt_eq t k hk]
  have hall : ∀ F : Fault → Prop, F .ub → ∀ r ∈ rules, RuleSafe F true r := fun F hF r hr => ⟨(hnul r hr).2, (hnul r hr).1, Or.inr hF, Or.inr hF, Or.inr hF⟩
  constructor
  · intro h
    have := parse_ok (F := fun e => e ≠ .fuel) ht (hall _ (by decide)) (fun _ => Or.inr (by decide)) hk (fun _ => by decide)
    rw [h] at this
    exact this rfl
  · intro htop h
    have := parse_ok (F := fun e => e = .ub) ht (hall _ rfl) (fun _ => Or.inr rfl) hk (fun h => absurd h htop)
    rw [h] at this
    exact absurd (show Fault.assertion = Fault.ub from this) (by decide)

/-- A rule that is called again where it began, by itself or through others, fails there and is not run. `above` are the calls
since, all of which began no earlier. -/
theorem C43_left_recursion (rules : List Rule) (run : Nat → Src → Cx Ctx → Res (Out Ctx)) (sub : Nat) (r : Rule) (hr : rules[sub]? = some r) (hne : r.pattern ≠ []) (hnul : 0#8 ∉ r.pattern)
    (src : Src) (cx : Cx Ctx) (above below : List Frame) (f : Frame) (hp : cx.data.parents = above ++ f :: below) (hf : f.rule = sub) (hsame : f.origin.pos = src.pos)
    (habove : ∀ a ∈ above, src.pos ≤ a.origin.pos) : recurse rules run sub src cx = .ok (false, src, cx) := by
  have hl : ∀ above : List Frame, (∀ a ∈ above, src.pos ≤ a.origin.pos) → leftRecursive sub src (above ++ f :: below) = true := by
    intro above
    induction above with
    | nil => intro _; simp [leftRecursive, hsame, hf]
    | cons a above ih =>
      intro h
      have := h a (by simp)
      rw [List.cons_append, leftRecursive, if_neg (by omega)]
      split
      · rfl
      · exact ih (fun x hx => h x (by simp [hx]))
  unfold recurse patternOf
  rw [rd_eq_ok.mpr hr, res_bind_ok, res_bind_ok, hp, hl above habove, if_pos rfl, failed_eq hnul (List.length_pos_iff.mpr hne)]
  rfl

/-- A rule that is called anywhere else is run. -/
theorem C43_otherwise_run (rules : List Rule) (run : Nat → Src → Cx Ctx → Res (Out Ctx)) (sub : Nat) (r : Rule) (hr : rules[sub]? = some r) (src : Src) (cx : Cx Ctx)
    (hnew : ∀ f ∈ cx.data.parents, ¬ (f.rule = sub ∧ f.origin.pos = src.pos)) (hle : ∀ f ∈ cx.data.parents, f.origin.pos ≤ src.pos) (fin : St) (cx' : Cx Ctx)
    (hrun : run sub src cx = .ok (true, fin, cx')) : recurse rules run sub src cx = .ok (true, fin.src, cx') := by
  have hl : ∀ fs : List Frame, (∀ f ∈ fs, ¬ (f.rule = sub ∧ f.origin.pos = src.pos)) → (∀ f ∈ fs, f.origin.pos ≤ src.pos) → leftRecursive sub src fs = false := by
    intro fs
    induction fs with
    | nil => intro _ _; rfl
    | cons f fs ih =>
      intro h1 h2
      have a1 := h1 f (by simp)
      have a2 := h2 f (by simp)
      rw [leftRecursive]
      split
      · rfl
      · rw [if_neg (by intro hf; exact a1 ⟨by simpa using hf, by omega⟩)]
        exact ih (fun x hx => h1 x (by simp [hx])) (fun x hx => h2 x (by simp [hx]))
  unfold recurse patternOf
  rw [rd_eq_ok.mpr hr, res_bind_ok, res_bind_ok, hl _ hnew hle, if_neg (by simp), hrun]
  rfl

/-- TOP is `|<TOP>a|b` -/
def leftRule : Rule := ⟨topName, [0x7C#8, 0x3C#8, 0x54#8, 0x4F#8, 0x50#8, 0x3E#8, 0x61#8, 0x7C#8, 0x62#8], none⟩

/-- "ba": matches b only -/
example : (parse [leftRule] ([0x62#8, 0x61#8] ++ [0#8]) (atChar [0x62#8, 0x61#8] 0)).map (fun r => r.2.pos) = .ok 1 := by decide +kernel

/-! ### C54 -/

section
variable (g : Grammar) (hok : g.Ok) (rules : List Rule) (hs : Sorted g.rules rules) (htop : ∃ d ∈ g, d.name = topName) (t : List Byte) (ht : 0#8 ∉ t)
  (hp : (∀ d ∈ g, d.expr.noProps = true) ∨ ∀ c ∈ decodeAll t, InCtype c)

/-- Every grammar has, at each place, exactly one meaning: a rule that is called where it is active fails. -/
theorem C54_one_meaning (name : List Byte) (k : Nat) (hk : k ≤ (decodeAll t).length) : ∃ r, g.MeansL (decodeAll t) name k r ∧ ∀ r', g.MeansL (decodeAll t) name k r' → r' = r := by
  obtain ⟨r, hr⟩ := meansL_total g t name k hk
  exact ⟨r, hr, fun r' h => meansL_det g _ h hr⟩

/-- Where the standard meaning is defined, which takes no account of active rules, it is this. -/
theorem C54_standard_meaning (name : List Byte) (k : Nat) (r : Option Nat) (h : g.Means (decodeAll t) name k r) : g.MeansL (decodeAll t) name k r := means_meansL g _ h

include hok hs htop ht hp

/-- Parsing succeeds from `k` to `k'` just when the grammar says so. -/
theorem C54_parses (k : Nat) (hk : k ≤ (decodeAll t).length) (k' : Nat) (hk' : k' ≤ (decodeAll t).length) :
    g.MeansL (decodeAll t) topName k (some k') ↔ ∃ m ast, parse rules (t ++ [0#8]) (atChar t k) = .ok (m, atChar t k') ∧ m.var = .strVarMap ast := by
  obtain ⟨d, hd, hdn⟩ := htop
  rw [← srcAt_eq t k hk, ← srcAt_eq t k' hk']
  constructor
  · intro h
    obtain ⟨ast, hc⟩ := meansL_meansC g _ (hdn ▸ rule_of_mem hok.distinct hd) h
    obtain ⟨m, h1, ⟨ast, h2⟩, -⟩ := parse_eval ht hok hs hp hd hdn hk hc
    exact ⟨m, ast, h1, h2⟩
  · rintro ⟨m, ast, h1, h2⟩
    obtain ⟨r, hr⟩ := meansL_total g t topName k hk
    obtain ⟨ast0, hc0⟩ := meansL_meansC g _ (hdn ▸ rule_of_mem hok.distinct hd) hr
    obtain ⟨m', g1, g2⟩ := parse_eval ht hok hs hp hd hdn hk hc0
    rw [g1] at h1
    injection h1 with h1
    injection h1 with e1 e2
    subst e1
    cases r with
    | none =>
      simp only [Option.isSome_none, Bool.false_eq_true, if_false] at g2
      rw [g2] at h2
      cases h2
    | some k1 =>
      obtain ⟨h, hc⟩ := hr
      have hle := callL_le g t h [] topName k k1 hc hk
      simp only [Option.getD_some] at e2
      rw [← (srcAt_inj t ht hle.2 hk').mp (by rw [e2])]
      exact ⟨h, hc⟩

/-- It fails just when the grammar says so, and leaves the source where it was. -/
theorem C54_fails (k : Nat) (hk : k ≤ (decodeAll t).length) :
    g.MeansL (decodeAll t) topName k none ↔ ∃ m, parse rules (t ++ [0#8]) (atChar t k) = .ok (m, atChar t k) ∧ m.var = .none := by
  obtain ⟨d, hd, hdn⟩ := htop
  rw [← srcAt_eq t k hk]
  constructor
  · intro h
    obtain ⟨ast, hc⟩ := meansL_meansC g _ (hdn ▸ rule_of_mem hok.distinct hd) h
    obtain ⟨m, h1, h2⟩ := parse_eval ht hok hs hp hd hdn hk hc
    exact ⟨m, h1, h2⟩
  · rintro ⟨m, h1, h2⟩
    obtain ⟨r, hr⟩ := meansL_total g t topName k hk
    obtain ⟨ast0, hc0⟩ := meansL_meansC g _ (hdn ▸ rule_of_mem hok.distinct hd) hr
    obtain ⟨m', g1, g2⟩ := parse_eval ht hok hs hp hd hdn hk hc0
    rw [g1] at h1
    injection h1 with h1
    injection h1 with e1 e2
    subst e1
    cases r with
    | none => exact hr
    | some k1 =>
      obtain ⟨⟨ast, g2⟩, -⟩ := g2
      rw [g2] at h2
      cases h2

/-- A grammar that has the standard meaning is parsed as that says. -/
theorem C54_standard (k : Nat) (hk : k ≤ (decodeAll t).length) (r : Option Nat) (h : g.Means (decodeAll t) topName k r) :
    ∃ m, parse rules (t ++ [0#8]) (atChar t k) = .ok (m, atChar t (r.getD k)) ∧ (r = none ↔ m.var = .none) := by
  have hL := means_meansL g _ h
  cases r with
  | none =>
    obtain ⟨m, h1, h2⟩ := (C54_fails g hok rules hs htop t ht hp k hk).mp hL
    exact ⟨m, h1, by simp [h2]⟩
  | some k' =>
    have hle : k' ≤ (decodeAll t).length := by
      obtain ⟨h, hc⟩ := hL
      exact (callL_le g t h [] topName k k' hc hk).2
    obtain ⟨m, ast, h1, h2⟩ := (C54_parses g hok rules hs htop t ht hp k hk k' hle).mp hL
    exact ⟨m, h1, by simp [h2]⟩

end

/-- ab = `x`, TOP = `<ab><ab>y`: supplied in this order, sorted the other way round -/
def exGrammar : Grammar :=
  [⟨[0x61#8, 0x62#8], .seq (.one (.lit (.plain 0x78#8))) .empty, none⟩,
   ⟨topName, .seq (.call [0x61#8, 0x62#8] none) (.seq (.call [0x61#8, 0x62#8] (some [0x71#8])) (.seq (.one (.lit (.plain 0x79#8))) .empty)), none⟩]

theorem exGrammar_ok : exGrammar.Ok := by
  refine ⟨by decide, ?_, by decide⟩
  intro d hd
  simp only [exGrammar, List.mem_cons, List.not_mem_nil, or_false] at hd
  rcases hd with rfl | rfl
  · simp [Expr.wf, One.ok, Written.ok, plainOutside, pegSpecial]
  · simp [Expr.wf, One.ok, Written.ok, plainOutside, pegSpecial, nameByte]

theorem exGrammar_sorted : Sorted exGrammar.rules exGrammar.rules.reverse := by
  refine ⟨List.reverse_perm _, ?_⟩
  simp only [exGrammar, Grammar.rules, Def.rule, List.map_cons, List.map_nil, List.reverse_cons, List.reverse_nil, List.nil_append, List.cons_append, List.pairwise_cons, List.mem_cons,
    List.not_mem_nil, or_false, forall_eq, false_implies, implies_true, List.Pairwise.nil, and_true]
  exact ⟨-13, by decide, by decide⟩

/-- "xxyz" is matched up to 3 -/
example : (parse exGrammar.rules.reverse ([0x78#8, 0x78#8, 0x79#8, 0x7A#8] ++ [0#8]) (atChar [0x78#8, 0x78#8, 0x79#8, 0x7A#8] 0)).map (fun r => r.2.pos) = .ok 3 := by decide +kernel

/-! ### C55 -/

/-- Rules whose patterns are tidy (C40), have no backslash in the name of a call, and whose captures are names -/
structure TidyRule (props : Bool) (r : Rule) : Prop where
  nul : 0#8 ∉ r.pattern ∧ 0#8 ∉ r.name
  tidy : tidy props r.pattern = true
  calls : ∀ p q : Nat, r.pattern[p]? = some 0x3C#8 → p < q → (∀ j : Nat, p < j → j < q → r.pattern[j]? ≠ some 0x3E#8) → r.pattern[q]? ≠ some 0x5C#8
  captures : ∀ cs, r.captures = some cs → ∀ c ∈ cs, c ≠ [] ∧ ∀ b ∈ c, nameByte b = true

/-- Parsing with such rules reads nothing outside of patterns, names, captures and text, and ends either with a match, whose end
is at or after the start, or a failure that leaves the source as it was. -/
theorem C55_memory_safe (props : Bool) (rules : List Rule) (htidy : ∀ r ∈ rules, TidyRule props r) (htop : lookup rules (cstr topName) ≠ .ok none) (t : List Byte) (ht : 0#8 ∉ t)
    (hp : props = true → ∀ c ∈ decodeAll t, InCtype c) (k : Nat) (hk : k ≤ (decodeAll t).length) :
    ∃ m src, parse rules (t ++ [0#8]) (atChar t k) = .ok (m, src) ∧
      ((∃ ast j, m.var = .strVarMap ast ∧ k ≤ j ∧ j ≤ (decodeAll t).length ∧ src = atChar t j) ∨ (m.var = .none ∧ src = atChar t k)) := by
  have hall : ∀ r ∈ rules, RuleSafe (fun _ => False) props r := fun r hr =>
    ⟨(htidy r hr).nul.1, (htidy r hr).nul.2, Or.inl ⟨Nat.zero_le _, by rw [List.drop_zero]; exact (htidy r hr).tidy⟩,
      Or.inl (fun p hp q hq hj => (htidy r hr).calls p q hp (by omega) (fun j h1 h2 => hj j (by omega) h2)), Or.inl (htidy r hr).captures⟩
  have h := parse_ok ht hall (fun h => Or.inl (hp h)) hk (fun h => absurd h htop)
  rw [← srcAt_eq t k hk]
  revert h
  cases parse rules (t ++ [0#8]) (srcAt t k) with
  | error e => exact fun h => h.elim
  | ok q =>
    obtain ⟨m, src⟩ := q
    rintro (⟨⟨ast, h1⟩, -, j, h2, h3, h4⟩ | ⟨h1, -, -, h2⟩)
    · exact ⟨m, src, rfl, Or.inl ⟨ast, j, h1, h2, h3, by rw [h4, srcAt_eq t j h3]⟩⟩
    · exact ⟨m, src, rfl, Or.inr ⟨h1, h2⟩⟩

/-- `<a\>` is not tidy; `<ab>:x:` is -/
example : TidyRule true ⟨topName, [0x3C#8, 0x61#8, 0x62#8, 0x3E#8, 0x3A#8, 0x78#8, 0x3A#8], some [[0x78#8]]⟩ := by
  refine ⟨by decide, by decide, ?_, by decide⟩
  intro p q _ _ _ hq
  obtain ⟨h1, h2⟩ := List.getElem?_eq_some_iff.mp hq
  have : q < 7 := h1
  have : q = 0 ∨ q = 1 ∨ q = 2 ∨ q = 3 ∨ q = 4 ∨ q = 5 ∨ q = 6 := by omega
  rcases this with rfl | rfl | rfl | rfl | rfl | rfl | rfl <;> cases h2

/-! ### C44 -/

/-- Whatever failures are tried, in whatever order, by whatever contexts, the root has as its furthermost place the greatest of
those that count, or else where it began; and it has one record for each test that failed there, and no others. -/
theorem C44_furthermost_partial (es : List FailEvent) (hop : ∀ e ∈ es, e.op ≤ e.pat.length) (d : Ctx) (hd : d.failures = []) :
    ∃ d', recordAll es d = .ok d' ∧ d.far.pos ≤ d'.far.pos ∧ (∀ e ∈ es, e.counts → e.loc.pos ≤ d'.far.pos) ∧ (d'.far = d.far ∨ ∃ e ∈ es, e.counts ∧ d'.far = e.loc) ∧
      (∀ a, a ∈ d'.failures.map Failure.atom ↔ ∃ e ∈ es, e.counts ∧ e.loc.pos = d'.far.pos ∧ (e.rule, e.op) = a) ∧ (d'.failures.map Failure.atom).Nodup := by
  obtain ⟨d', h1, h2⟩ := recordAll_ok (start := d.far) es [] d ⟨Nat.le_refl _, fun e he => (List.not_mem_nil he).elim, Or.inl rfl, by simp [hd], by simp [hd]⟩ hop
  exact ⟨d', h1, h2.after, h2.most, h2.one, h2.atoms, h2.distinct⟩

/-- What a successful parse reports is in the text, at or after its start, and consists of literals or classes of the patterns,
none of them twice. -/
theorem C44_report_partial (rules : List Rule) (hnul : ∀ r ∈ rules, 0#8 ∉ r.name ∧ 0#8 ∉ r.pattern) (t : List Byte) (ht : 0#8 ∉ t) (k : Nat) (hk : k ≤ (decodeAll t).length) (m : PegMatch)
    (src : Src) (h : parse rules (t ++ [0#8]) (atChar t k) = .ok (m, src)) (far : Src) (hfar : m.far = some far) :
    (∃ j, k ≤ j ∧ j ≤ (decodeAll t).length ∧ far = atChar t j) ∧
    (∀ f ∈ m.failures, ∃ r b, rules[f.atom.1]? = some r ∧ r.pattern[f.atom.2]? = some b ∧ isPegexpOp b = false) ∧ (m.failures.map Failure.atom).Nodup := by
  have hall : ∀ r ∈ rules, RuleSafe (fun _ => True) true r := fun r hr => ⟨(hnul r hr).2, (hnul r hr).1, Or.inr trivial, Or.inr trivial, Or.inr trivial⟩
  have hok := parse_ok ht hall (fun _ => Or.inr trivial) hk (fun _ => trivial)
  rw [← srcAt_eq t k hk] at h
  rw [h] at hok
  rcases hok with ⟨-, ⟨far', h1, h2⟩, -⟩ | ⟨-, h1, -⟩
  · rw [hfar] at h1
    cases h1
    obtain ⟨⟨j, j1, j2, j3⟩, h3, h4⟩ := h2
    exact ⟨⟨j, j1, j2, by rw [j3, srcAt_eq t j j2]⟩, h3, h4⟩
  · rw [hfar] at h1
    cases h1

/-- The failures that are not recorded are those of the operators ~@#%_;<`)^$.\?*+(|&! and of the end of the pattern. -/
theorem C44_operators_partial (b : Byte) : isPegexpOp b = true ↔ b = 0#8 ∨ b ∈ "~@#%_;<`)^$.\\?*+(|&!".toList.map (fun c => BitVec.ofNat 8 c.toNat) := by
  revert b
  decide +kernel

/-- The characters left to the client of Pegexp (match_extended) are ~@#%_;<` and the control characters other than NUL. -/
theorem C44_extended_partial (b : Byte) : isExtended b = true ↔ (0 < b.toNat ∧ b.toNat < 0x20) ∨ b ∈ "~@#%_;<`".toList.map (fun c => BitVec.ofNat 8 c.toNat) := by
  revert b
  decide +kernel

/-- Values that are captured are never arrays. -/
theorem matchResult_notArray (text : List Byte) (b : Byte) (same : Bool) (frm fin : Src) (d : Ctx) : isArray (matchResult text b same frm fin d) = false := by
  unfold matchResult textMatch
  split
  · rfl
  · split
    · rfl
    · split <;> rfl

/-- Whatever is captured, in whatever order: under each name there is nothing if no value that is not empty was captured, the
value itself if there was one and it was not in a repetition, and otherwise the array of them all in order. -/
theorem C44_captures_partial (es : List CapEvent) (hv : ∀ e ∈ es, isArray e.value = false) (d : Ctx) (hd : d.ast = []) (hn : d.numCaptures = 0) :
    (∀ key, CM.mfind keyLt key (captureAll es d).ast = collected (under key es)) ∧
    (captureAll es d).numCaptures = (es.filter (fun e => !emptyText e.value)).length := by
  have h := captureAll_ok es [] d ⟨by rw [hd]; exact List.Pairwise.nil, fun key => by rw [hd]; rfl, by rw [hn]; rfl⟩ (by simpa using hv)
  rw [List.nil_append] at h
  exact ⟨h.found, h.count⟩

/-- Rolling back to no captures, or to at least as many as there are, does what it should: the count is as before and so is what
was captured, if it was nothing. -/
theorem C44_rollback_partial (count : Int) (hc : 0 ≤ count) (d : Ctx) (h : count = 0 ∨ d.numCaptures ≤ count) :
    (rollbackCapture count d).numCaptures = min count d.numCaptures ∨ d.numCaptures < 0 := by
  unfold rollbackCapture
  by_cases h1 : count ≥ d.numCaptures
  · rw [if_pos h1]; left; omega
  · rw [if_neg h1]
    have : count = 0 := by omega
    subst this
    rw [if_pos (by decide)]
    left
    simp only
    omega

theorem C44_rollback_zero_partial (d : Ctx) (h : 0 < d.numCaptures) : (rollbackCapture 0 d).ast = [] ∧ (rollbackCapture 0 d).numCaptures = 0 := by
  unfold rollbackCapture
  rw [if_neg (by omega), if_pos (by decide)]
  exact ⟨rfl, rfl⟩

/-- Rolling back part of the way does nothing. -/
theorem C44_refuted_rollback (count : Int) (d : Ctx) (h0 : 0 < count) (h : count < d.numCaptures) : (rollbackCapture count d).numCaptures ≠ count := by
  unfold rollbackCapture
  rw [if_neg (by omega), if_neg (by simp; omega)]
  omega

/-- the names captured -/
def capturedNames : Res (PegMatch × Src) → List (List UCS4)
  | .ok (⟨.strVarMap ast, _, _⟩, _) => ast.map Prod.fst
  | _ => []

/-- TOP is `a:x:(|b:y:c|bd)` -/
def backRule : Rule := ⟨topName, [0x61#8, 0x3A#8, 0x78#8, 0x3A#8, 0x28#8, 0x7C#8, 0x62#8, 0x3A#8, 0x79#8, 0x3A#8, 0x63#8, 0x7C#8, 0x62#8, 0x64#8, 0x29#8], none⟩

/-- So what an abandoned alternative captured stays: of "abd", y. -/
theorem C44_refuted_abandoned : capturedNames (parse [backRule] ([0x61#8, 0x62#8, 0x64#8] ++ [0#8]) (atChar [0x61#8, 0x62#8, 0x64#8] 0)) = [[0x78#32], [0x79#32]] := by decide +kernel

/-- three captures under one name -/
example : collected (under [0x61#32] [⟨[0x61#32], .string [0x62#32], false⟩, ⟨[0x62#32], .none, false⟩, ⟨[0x61#32], .string [], false⟩, ⟨[0x61#32], .string [0x63#32], false⟩]) =
    some (.varArray [.string [0x62#32], .string [0x63#32]]) := by rfl

/-! ### C56 -/

/-- A call is captured just when what its rule lists begins the text from the label on (or from the name of the rule called on):
so if the label is listed it is, but not only then. -/
theorem C56_captured_partial (r : Rule) (cs : List (List Byte)) (hcs : r.captures = some cs) (hnul : ∀ c ∈ cs, 0#8 ∉ c) (lab : List Byte) (hl : 0#8 ∈ lab) :
    ∃ b, isCaptured r lab = .ok b ∧ (b = true ↔ ∃ c ∈ cs, c <+: lab) := isCaptured_prefix r cs hcs hnul lab hl

/-- What a call that matched does to the AST of the rule that makes it. With a label `l`, as in `<name>:l:`: if the calling rule
lists it, the result of the called rule is captured under `l`; without a label, under the name of the called rule. -/
theorem C56_call_partial (rules : List Rule) (text : List Byte) (i sub : Nat) (r s : Rule) (hr : rules[i]? = some r) (hsub : rules[sub]? = some s) (cs : List (List Byte))
    (hcs : r.captures = some cs) (hnul : ∀ c ∈ cs, 0#8 ∉ c) (start : St) (b : Byte) (hb : (cstr r.pattern)[start.pat]? = some b) (fin : Src) (d : Ctx) (cx : Cx Ctx) (hd : cx.disabled = 0) :
    (∀ (pre l rest : List Byte), cstr r.pattern = pre ++ l ++ 0x3A#8 :: rest → 0#8 ∈ rest →
      ∃ cx', captureCall rules text (cstr r.pattern) i sub (some pre.length) (pre.length + l.length + 1) start fin d cx = .ok cx' ∧
        ((∃ c ∈ cs, c <+: l ++ 0x3A#8 :: rest) →
          cx' = { cx with data := captureValue (decodeAll l) (matchResult text b (i == sub && start.pat == 0) start.src fin d) (decide (cx.nesting > 0)) cx.data }) ∧
        ((∀ c ∈ cs, ¬ c <+: l ++ 0x3A#8 :: rest) → cx' = cx)) ∧
    (∀ e : Nat, ∃ cx', captureCall rules text (cstr r.pattern) i sub none e start fin d cx = .ok cx' ∧
        ((∃ c ∈ cs, c <+: s.name ++ [0#8]) →
          cx' = { cx with data := captureValue (decodeAll s.name) (matchResult text b (i == sub && start.pat == 0) start.src fin d) (decide (cx.nesting > 0)) cx.data }) ∧
        ((∀ c ∈ cs, ¬ c <+: s.name ++ [0#8]) → cx' = cx)) := by
  constructor
  · intro pre l rest hp h0
    obtain ⟨w, hw1, hw2⟩ := C56_captured_partial r cs hcs hnul (l ++ 0x3A#8 :: rest) (by simp [h0])
    have hc : rd (cstr r.pattern) (pre.length + l.length + 1 - 1) = .ok 0x3A#8 := by
      rw [rd_eq_ok, hp, List.getElem?_append_right (by simp)]
      have : pre.length + l.length + 1 - 1 - (pre ++ l).length = 0 := by simp
      rw [this]; rfl
    have hdrop : (cstr r.pattern).drop pre.length = l ++ 0x3A#8 :: rest := by rw [hp, List.append_assoc, List.drop_left]
    unfold captureCall
    rw [rd_eq_ok.mpr hr, res_bind_ok, rd_eq_ok.mpr hsub, res_bind_ok]
    simp only [hc, res_bind_ok, hdrop, beq_self_eq_true, if_true, hd, hw1]
    have hlen : ((pre.length + l.length + 1 : Nat) : Int) - pre.length - 1 = l.length := by omega
    rw [hlen]
    cases w with
    | true =>
      rw [if_pos rfl, if_neg (by omega), rd_eq_ok.mpr hb, res_bind_ok]
      refine ⟨_, rfl, fun _ => ?_, fun hno => ?_⟩
      · simp [textOf]
      · obtain ⟨c, h1, h2⟩ := hw2.mp rfl
        exact absurd h2 (hno c h1)
    | false =>
      rw [if_neg (by simp)]
      refine ⟨_, rfl, fun h => ?_, fun _ => rfl⟩
      have := hw2.mpr h
      cases this
  · intro e
    obtain ⟨w, hw1, hw2⟩ := C56_captured_partial r cs hcs hnul (s.name ++ [0#8]) (by simp)
    unfold captureCall
    rw [rd_eq_ok.mpr hr, res_bind_ok, rd_eq_ok.mpr hsub, res_bind_ok]
    simp only [res_bind_ok, hd, beq_self_eq_true, if_true, cstr, hw1]
    cases w with
    | true =>
      rw [if_pos rfl, if_neg (by omega), rd_eq_ok.mpr (by simpa [cstr] using hb), res_bind_ok]
      refine ⟨_, rfl, fun _ => ?_, fun hno => ?_⟩
      · simp [textOf]
      · obtain ⟨c, h1, h2⟩ := hw2.mp rfl
        exact absurd h2 (hno c h1)
    | false =>
      rw [if_neg (by simp)]
      refine ⟨_, rfl, fun h => ?_, fun _ => rfl⟩
      have := hw2.mpr h
      cases this

/-- A rule that lists nothing captures no calls. -/
theorem C56_no_captures_partial (r : Rule) (h : r.captures = none) (lab : List Byte) : isCaptured r lab = .ok false := by
  unfold isCaptured
  rw [h]

/-- Listing "a" captures the call of a rule "ab" too. -/
theorem C56_refuted_prefix : isCaptured ⟨topName, [], some [[0x61#8]]⟩ (cstr [0x61#8, 0x62#8]) = .ok true := by decide

end Strpp.Pex
