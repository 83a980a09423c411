import Verif.Proof.PegParse
/-! Peg::parse as a whole. -/
namespace Strpp.Pex
open Spec

section
variable {rules : List Rule} {t : List Byte} {F : Fault → Prop} {pr : Bool}

theorem topChain {i k : Nat} (hi : i < rules.length) (hk : k ≤ (decodeAll t).length) : Chain rules.length t [(i, k)] :=
  ⟨List.nodup_cons.mpr ⟨List.not_mem_nil, List.nodup_nil⟩, fun c hc => by cases List.mem_singleton.mp hc; exact ⟨hi, hk⟩, List.pairwise_cons.mpr ⟨fun c hc => (List.not_mem_nil hc).elim, List.Pairwise.nil⟩⟩

theorem topInv {i k : Nat} {name : List Byte} (hk : k ≤ (decodeAll t).length) : Inv rules k t i k [] [name] (topContext i (srcAt t k) name).data :=
  ⟨rfl, rfl, rfl, rfl, ⟨k, Nat.le_refl _, hk, rfl⟩, fun f hf => (List.not_mem_nil hf).elim, List.nodup_nil⟩

theorem chars_le (t : List Byte) : (decodeAll t).length ≤ t.length := by
  have h := (srcAt_facts t (decodeAll t).length (Nat.le_refl _)).1
  have : ∀ k, k ≤ (decodeAll t).length → k ≤ (srcAt t k).pos := by
    intro k
    induction k with
    | zero => exact fun _ => Nat.zero_le _
    | succ k ih =>
      intro hk
      have h1 := ih (by omega)
      have h2 := srcAt_pos_lt' t k (by omega)
      omega
  have := this _ (Nat.le_refl _)
  omega
where
  srcAt_pos_lt' (t : List Byte) (k : Nat) (hk : k < (decodeAll t).length) : (srcAt t k).pos < (srcAt t (k + 1)).pos := by
    have hlt := srcAt_pos_lt t k hk
    have hne : t.drop (srcAt t k).pos ≠ [] := by
      intro h'
      have := congrArg List.length h'
      simp at this
      omega
    obtain ⟨c, n, hd⟩ := decode1_some _ hne
    have := decode1_pos _ _ _ hd
    rw [srcAt, hd]
    simp only
    rw [(bump_pos _ _).1]
    simp only
    omega

/-- what parsing gives -/
def ParseOk (rules : List Rule) (t : List Byte) (F : Fault → Prop) (k : Nat) : Res (PegMatch × Src) → Prop
  | .error e => F e
  | .ok (m, src) => ((∃ ast, m.var = .strVarMap ast) ∧ (∃ far, m.far = some far ∧ Report rules t k far m.failures) ∧ ∃ j, k ≤ j ∧ j ≤ (decodeAll t).length ∧ src = srcAt t j) ∨
      (m.var = .none ∧ m.far = none ∧ m.failures = [] ∧ src = srcAt t k)

theorem parse_ok (hn : 0#8 ∉ t) (hall : ∀ r ∈ rules, RuleSafe F pr r) (hct : pr = true → (∀ c ∈ decodeAll t, InCtype c) ∨ F .ub) {k : Nat} (hk : k ≤ (decodeAll t).length)
    (hF : lookup rules (cstr topName) = .ok none → F .assertion) : ParseOk rules t F k (parse rules (t ++ [0#8]) (srcAt t k)) := by
  unfold parse
  obtain ⟨o, ho, hom⟩ := lookup_safe rules (cstr topName) (by decide) (fun r hr => (hall r hr).name)
  rw [ho, res_bind_ok]
  cases o with
  | none => exact hF ho
  | some i =>
    have hi := hom i rfl
    have hr : rules[i]? = some rules[i] := List.getElem?_eq_getElem hi
    have hsafe := hall rules[i] (List.getElem_mem hi)
    simp only
    rw [rd_eq_ok.mpr hr, res_bind_ok]
    have h := rule_ok (lo := k) hn hall hct (rules.length * (t ++ [0#8]).length + 1) i k [] [rules[i].name] (topContext i (srcAt t k) rules[i].name) rules[i] (Nat.le_refl _) hr (topChain hi hk) (by
      have h1 := chars_le t
      have h2 : rules.length * ((decodeAll t).length + 1) ≤ rules.length * (t ++ [0#8]).length := Nat.mul_le_mul_left _ (by simp; omega)
      simp only [List.length_nil]
      omega) (topInv hk)
    revert h
    cases matchRule rules (t ++ [0#8]) (rules.length * (t ++ [0#8]).length + 1) i (srcAt t k) (topContext i (srcAt t k) rules[i].name) with
    | error e => exact fun h => h
    | ok q =>
      obtain ⟨b, st', cx'⟩ := q
      rintro ⟨h1, ⟨a, c, h2, h3, h4, h5, h6⟩, h7⟩
      rw [res_bind_ok]
      simp only
      rw [h1.inv.path, if_neg (by simp)]
      cases b with
      | true =>
        rw [if_pos rfl]
        exact Or.inl ⟨⟨_, rfl⟩, ⟨_, rfl, h1.inv.report⟩, c, by omega, h4, h6⟩
      | false =>
        rw [if_neg (by simp)]
        simp only [Bool.false_eq_true, if_false] at h7
        rw [failed_eq hsafe.nul h7, res_bind_ok, if_pos rfl]
        exact Or.inr ⟨rfl, rfl, rfl, rfl⟩

end

section
variable {g : Grammar} {rules : List Rule} {t : List Byte}

theorem top_index (hok : g.Ok) (hs : Sorted g.rules rules) {d : Def} (hd : d ∈ g) (hdn : d.name = topName) : ∃ i, lookup rules (cstr topName) = .ok (some i) ∧ rules[i]? = some d.rule := by
  have hnul : ∀ r ∈ g.rules, 0#8 ∉ r.name := by
    intro r hr hm
    obtain ⟨d, hd, rfl⟩ := List.mem_map.mp hr
    have := hok.names d hd _ hm
    simp at this
  have hlk := lookup_ok hs hnul topName (by decide) (by decide) 0#8 (Or.inr rfl) [] (by
    intro r hr y more hy
    obtain ⟨d, hd, rfl⟩ := List.mem_map.mp hr
    have := hok.names d hd y (by have : d.name = _ := hy; rw [this]; simp)
    change 0 < y.toNat
    omega)
  rcases hlk with ⟨m, r, h1, h2, h3⟩ | ⟨-, h2⟩
  · refine ⟨m, h1, ?_⟩
    obtain ⟨d', hd', rfl⟩ := rule_def hs h2
    have e1 := find_of_mem hok.distinct hd
    have : d' = d := by
      have hinj : ∀ (l : List Def), (l.map Def.name).Nodup → d' ∈ l → d ∈ l → d'.name = d.name → d' = d := by
        intro l
        induction l with
        | nil => intro _ h; cases h
        | cons x l ih =>
          intro hnd h1 h2 h3
          rw [List.map_cons, List.nodup_cons] at hnd
          rcases List.mem_cons.mp h1 with h1 | h1 <;> rcases List.mem_cons.mp h2 with h2 | h2
          · rw [h1, h2]
          · rw [← h1] at hnd; exact absurd (List.mem_map.mpr ⟨d, h2, h3.symm⟩) hnd.1
          · rw [← h2] at hnd; exact absurd (List.mem_map.mpr ⟨d', h1, h3⟩) hnd.1
          · exact ih hnd.2 h1 h2 h3
      exact hinj g hok.distinct hd' hd (by rw [hdn]; exact h3)
    rw [← this]
    exact h2
  · exact absurd hdn (h2 d.rule (List.mem_map.mpr ⟨d, hd, rfl⟩))

theorem parse_eval (hn : 0#8 ∉ t) (hok : g.Ok) (hs : Sorted g.rules rules) (hp : (∀ d ∈ g, d.expr.noProps = true) ∨ ∀ c ∈ decodeAll t, InCtype c) {d : Def} (hd : d ∈ g) (hdn : d.name = topName)
    {k : Nat} (hk : k ≤ (decodeAll t).length) {r : Option Nat} {ast : List (List UCS4 × Var.Variant)} (hm : g.MeansC (decodeAll t) topName k r ast) :
    ∃ m, parse rules (t ++ [0#8]) (srcAt t k) = .ok (m, srcAt t (r.getD k)) ∧ (if r.isSome then (∃ ast, m.var = .strVarMap ast) ∧ (CapNames g → m.var = .strVarMap ast) else m.var = .none) := by
  obtain ⟨i, hi1, hi2⟩ := top_index hok hs hd hdn
  have hi := (List.getElem?_eq_some_iff.mp hi2).1
  obtain ⟨d', h, own, hd', hm, rfl⟩ := hm
  have hrule := rule_of_mem hok.distinct hd
  rw [hdn, hd'] at hrule
  cases hrule
  have hnm : [(topName, k)] = named rules [(i, k)] := by simp [named, hi2, Def.rule, hdn]
  rw [hnm] at hm
  obtain ⟨cx', st', h1, h2, h3⟩ := rule_eval (lo := k) hn hok hs hp (rules.length * (t ++ [0#8]).length + 1) i k [] [d.name] (topContext i (srcAt t k) d.name) d true (Nat.le_refl _) hd hi2 (topChain hi hk)
    (fun c hc => (List.not_mem_nil hc).elim) (by
    have h1 := chars_le t
    have h2 : rules.length * ((decodeAll t).length + 1) ≤ rules.length * (t ++ [0#8]).length := Nat.mul_le_mul_left _ (by simp; omega)
    simp only [List.length_nil]
    omega) ⟨Int.le_refl _, Int.le_refl _, rfl, rfl, topInv hk, fun _ => holds_nil rfl rfl⟩ h r own hm
  unfold parse
  rw [hi1, res_bind_ok]
  simp only
  rw [rd_eq_ok.mpr hi2, res_bind_ok]
  rw [show d.rule.name = d.name from rfl, h3, res_bind_ok]
  have hpath := h1.inv.1.path
  cases r with
  | some k' =>
    simp only
    rw [hpath, if_neg (by simp), if_pos trivial]
    exact ⟨_, rfl, ⟨_, rfl⟩, fun hK => congrArg Var.Variant.strVarMap (h1.inv.2 hK).captured.ast⟩
  | none =>
    simp only
    rw [hpath, if_neg (by simp), if_neg (by simp), show failed (cstr d.rule.pattern) st' = .ok true from failed_eq (wf_nul _ _ (hok.written d hd)) (h2 rfl), res_bind_ok, if_pos rfl]
    exact ⟨_, rfl, rfl⟩

end

end Strpp.Pex
