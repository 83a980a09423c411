import Verif.Proof.PegRules
/-! Peg: matching any rules ends, and what may go wrong is reading outside of a pattern that is not tidy. -/
namespace Strpp.Pex
open Spec

/-- what is asked of a rule, unless reading outside is tolerated -/
structure RuleSafe (F : Fault → Prop) (pr : Bool) (r : Rule) : Prop where
  nul : 0#8 ∉ r.pattern
  name : 0#8 ∉ r.name
  tidy : In r.pattern F pr 0
  calls : (∀ p, r.pattern[p]? = some 0x3C#8 → NoEsc r.pattern (p + 1)) ∨ F .ub
  captures : (∀ cs, r.captures = some cs → ∀ c ∈ cs, c ≠ [] ∧ ∀ b ∈ c, nameByte b = true) ∨ F .ub

theorem strncmp_err : ∀ (n : Nat) (a b : List Byte) (e : Fault), strncmp n a b = .error e → e = .ub := by
  intro n
  induction n with
  | zero => intro a b e h; unfold strncmp at h; cases h
  | succ n ih =>
    intro a b e h
    cases a with
    | nil => unfold strncmp at h; cases h; rfl
    | cons x a =>
      cases b with
      | nil => unfold strncmp at h; cases h; rfl
      | cons y b =>
        unfold strncmp at h
        split at h
        · cases h
        · split at h
          · cases h
          · exact ih _ _ _ h

theorem isCaptured_err (r : Rule) (lab : List Byte) (e : Fault) (h : isCaptured r lab = .error e) : e = .ub := by
  have hgo : ∀ cs, isCaptured.go lab cs = .error e → e = .ub := by
    intro cs
    induction cs with
    | nil => intro h; cases h
    | cons c cs ih =>
      intro h
      unfold isCaptured.go at h
      cases hs : strncmp c.length (cstr c) lab with
      | error x =>
        rw [hs] at h
        cases h
        exact strncmp_err _ _ _ _ hs
      | ok v =>
        rw [hs, res_bind_ok] at h
        split at h
        · cases h
        · exact ih h
  unfold isCaptured at h
  split at h
  · cases h
  · exact hgo _ h

/-- what is not a name is not captured -/
theorem isCaptured_no (r : Rule) (b : Byte) (rest : List Byte) (hb : nameByte b = false) (hc : ∀ cs, r.captures = some cs → ∀ c ∈ cs, c ≠ [] ∧ ∀ b ∈ c, nameByte b = true) :
    isCaptured r (b :: rest) = .ok false := by
  unfold isCaptured
  cases hr : r.captures with
  | none => rfl
  | some cs =>
    simp only
    have hc := hc cs hr
    clear hr
    induction cs with
    | nil => rfl
    | cons c cs ih =>
      obtain ⟨h1, h2⟩ := hc c (by simp)
      cases c with
      | nil => exact absurd rfl h1
      | cons x c =>
        have hx : nameByte x = true := h2 x (by simp)
        have hne : x ≠ b := by rintro rfl; rw [hb] at hx; cases hx
        unfold isCaptured.go
        simp only [cstr, List.cons_append, List.length_cons, strncmp]
        rw [if_pos (by simpa using hne), res_bind_ok, if_neg, ih (fun c hc' => hc c (by simp [hc']))]
        simp only [beq_iff_eq]
        intro h
        exact hne (BitVec.eq_of_toNat_eq (by omega))

section
variable {rules : List Rule} {lo : Nat} {t : List Byte} {F : Fault → Prop} {pr : Bool} {i k : Nat} {ch : List (Nat × Nat)} {P : List (List Byte)}

def CapOk (F : Fault → Prop) (I : Ctx → Prop) (cx : Cx Ctx) : Res (Cx Ctx) → Prop
  | .error e => F e
  | .ok cx' => CxOk I cx cx'

/-- the bounds of a call and its label -/
def CallBd (s : List Byte) (F : Fault → Prop) (p : Nat) (lab : Option Nat) (e : Nat) : Prop :=
  p < e ∧ Bd s F e ∧ ∀ q, lab = some q → p < q ∧ q ≤ e ∧ Bd s F q ∧ (q = e → ∃ b, rd (s ++ [0#8]) q = .ok b ∧ nameByte b = false)

theorem CallOk.bd {s : List Byte} {p e : Nat} {lab : Option Nat} (h : CallOk s F pr p (.ok (lab, e))) : CallBd s F p lab e :=
  ⟨h.1, h.2.1.bd, fun q hq => ⟨(h.2.2 q hq).1, (h.2.2 q hq).2.1, (h.2.2 q hq).2.2.1.bd, (h.2.2 q hq).2.2.2⟩⟩

theorem captureCall_ok {r s' : Rule} {sub : Nat} (hr : rules[i]? = some r) (hsub : rules[sub]? = some s') {lab : Option Nat} {e p : Nat} (hsafe : ((∀ cs, r.captures = some cs → ∀ c ∈ cs, c ≠ [] ∧ ∀ b ∈ c, nameByte b = true) ∨ F .ub) ∨ ∀ q, lab = some q → q < e) (start : St) (to : Src) (d : Ctx)
    (cx : Cx Ctx) (hcall : CallBd r.pattern F p lab e) (hst : start.pat < r.pattern.length) (hI : Inv rules lo t i k ch P cx.data) :
    CapOk F (Inv rules lo t i k ch P) cx (captureCall rules (t ++ [0#8]) (cstr r.pattern) i sub lab e start to d cx) := by
  obtain ⟨h1, h2, h3⟩ := hcall
  unfold captureCall
  rw [rd_eq_ok.mpr hr, res_bind_ok, rd_eq_ok.mpr hsub, res_bind_ok]
  have hb : ∃ b, rd (cstr r.pattern) start.pat = .ok b := rd_in r.pattern start.pat (by omega)
  obtain ⟨b, hb⟩ := hb
  have fin : ∀ (l : List Byte × Int), (l.2 < 0 → isCaptured r l.1 = .ok false ∨ F .ub) → (∀ x, isCaptured r l.1 = .error x → F x) → CapOk F (Inv rules lo t i k ch P) cx (
      if cx.disabled == 0 then do
        let want ← isCaptured r l.1
        if want then
          if l.2 < 0 then .error .ub
          else do
            let b ← rd (cstr r.pattern) start.pat
            let v := matchResult (t ++ [0#8]) b (i == sub && start.pat == 0) start.src to d
            .ok { cx with data := captureValue (textOf l.1 0 l.2.toNat) v (decide (cx.nesting > 0)) cx.data }
        else .ok cx
      else .ok cx) := by
    intro l hneg herr
    split
    · cases hw : isCaptured r l.1 with
      | error x => exact herr x hw
      | ok w =>
        rw [res_bind_ok]
        cases w with
        | false => exact ⟨rfl, rfl, hI⟩
        | true =>
          rw [if_pos rfl]
          by_cases hl : l.2 < 0
          · rw [if_pos hl]
            rcases hneg hl with h | h
            · rw [hw] at h; cases h
            · exact h
          · rw [if_neg hl, hb, res_bind_ok]
            exact ⟨rfl, rfl, inv_captureValue _ _ _ _ hI⟩
    · exact ⟨rfl, rfl, hI⟩
  cases lab with
  | none =>
    simp only [res_bind_ok]
    refine fin (cstr s'.name, (s'.name.length : Int)) (fun h => ?_) (fun x hx => ?_)
    · simp only at h; omega
    · obtain ⟨b, hb⟩ := isCaptured_safe r (cstr s'.name) (by simp [cstr])
      simp only at hx
      rw [hb] at hx
      cases hx
  | some q =>
    obtain ⟨q1, q2, q3, q4⟩ := h3 q rfl
    simp only
    cases hc : rd (cstr r.pattern) (e - 1) with
    | error x =>
      rcases rd_pat r.pattern (e - 1) with ⟨-, b', -, h5⟩ | ⟨-, h5⟩ | ⟨h5, h6⟩
      · rw [show cstr r.pattern = r.pattern ++ [0#8] from rfl, h5] at hc; cases hc
      · rw [show cstr r.pattern = r.pattern ++ [0#8] from rfl, h5] at hc; cases hc
      · rw [show cstr r.pattern = r.pattern ++ [0#8] from rfl, h6] at hc
        cases hc
        rcases h2 with h2 | h2
        · omega
        · exact h2
    | ok c =>
      simp only [res_bind_ok]
      refine fin (((cstr r.pattern).drop q), (if c == 0x3A#8 then (e : Int) - q - 1 else (e : Int) - q)) (fun h => ?_) (fun x hx => ?_)
      · simp only at h
        have hqe : q = e := by
          split at h <;> omega
        obtain ⟨b', hb1, hb2⟩ := q4 hqe
        rcases hsafe with (hcap | hcap) | hcap
        · left
          simp only
          have : (cstr r.pattern).drop q = b' :: (cstr r.pattern).drop (q + 1) := by
            have hg := rd_eq_ok.mp hb1
            obtain ⟨hl, hg⟩ := List.getElem?_eq_some_iff.mp hg
            rw [show cstr r.pattern = r.pattern ++ [0#8] from rfl, List.drop_eq_getElem_cons hl, hg]
          rw [this]
          exact isCaptured_no r _ _ hb2 hcap
        · exact Or.inr hcap
        · have := hcap q rfl; omega
      · rcases q3 with q3 | q3
        · obtain ⟨b, hb⟩ := isCaptured_safe r ((cstr r.pattern).drop q) (by
            rw [show cstr r.pattern = r.pattern ++ [0#8] from rfl, List.drop_append_of_le_length q3]
            simp)
          simp only at hx
          rw [hb] at hx
          cases hx
        · rw [isCaptured_err _ _ _ hx]
          exact q3

/-- what matching a rule gives -/
def RuleOk (t : List Byte) (F : Fault → Prop) (I : Ctx → Prop) (k len : Nat) (src : Src) (cx : Cx Ctx) : Res (Out Ctx) → Prop
  | .error e => F e
  | .ok (b, st', cx') => CxOk I cx cx' ∧ Later t k src st'.src ∧ (if b then st'.pat = len else st'.pat < len)

def RecOk (t : List Byte) (F : Fault → Prop) (I : Ctx → Prop) (k : Nat) (src : Src) (cx : Cx Ctx) : Res (Bool × Src × Cx Ctx) → Prop
  | .error e => F e
  | .ok (_, src', cx') => CxOk I cx cx' ∧ Later t k src src'

variable (rules lo t F) in
/-- what is known of the calls below -/
def RunOk (n : Nat) (run : Nat → Src → Cx Ctx → Res (Out Ctx)) : Prop :=
  ∀ i k ch P cx r, lo ≤ k → rules[i]? = some r → Chain rules.length t ((i, k) :: ch) → rules.length * ((decodeAll t).length + 1) ≤ ch.length + n → Inv rules lo t i k ch P cx.data →
    RuleOk t F (Inv rules lo t i k ch P) k r.pattern.length (srcAt t k) cx (run i (srcAt t k) cx)

theorem Chain.pos {R : Nat} {ch : List (Nat × Nat)} (h : Chain R t ((i, k) :: ch)) : ∀ c ∈ ((i, k) :: ch), c.2 ≤ k := by
  have := List.pairwise_cons.mp h.desc
  intro c hc
  rcases List.mem_cons.mp hc with h | h
  · subst h; exact Nat.le_refl _
  · exact this.1 c h

theorem Chain.push {R sub k' : Nat} (h : Chain R t ((i, k) :: ch)) (hs : sub < R) (hk : k ≤ k') (hk' : k' ≤ (decodeAll t).length) (hnew : (sub, k') ∉ ((i, k) :: ch)) :
    Chain R t ((sub, k') :: (i, k) :: ch) := by
  refine ⟨List.nodup_cons.mpr ⟨hnew, h.nodup⟩, ?_, List.pairwise_cons.mpr ⟨?_, h.desc⟩⟩
  · intro c hc
    rcases List.mem_cons.mp hc with h' | h'
    · subst h'; exact ⟨hs, hk'⟩
    · exact h.le c h'
  · intro c hc
    have := h.pos c hc
    simp only
    omega

theorem failed_ok (s : List Byte) (st : St) (h : st.pat ≤ s.length) : ∃ f, failed (cstr s) st = .ok f := by
  obtain ⟨b, hb⟩ := rd_in s st.pat h
  unfold failed
  rw [show cstr s = s ++ [0#8] from rfl, hb]
  exact ⟨_, rfl⟩

theorem recurse_ok (hn : 0#8 ∉ t) {n : Nat} {run : Nat → Src → Cx Ctx → Res (Out Ctx)} (hrun : RunOk rules lo t F n run) {sub k' : Nat} {s' : Rule} (hsub : rules[sub]? = some s')
    (hlo : lo ≤ k) (hch : Chain rules.length t ((i, k) :: ch)) (hlen : rules.length * ((decodeAll t).length + 1) ≤ ch.length + 1 + n) (hk : k ≤ k') (hk' : k' ≤ (decodeAll t).length) (cx : Cx Ctx)
    {Q : List (List Byte)} (hI : Inv rules lo t sub k' ((i, k) :: ch) Q cx.data) :
    RecOk t F (Inv rules lo t sub k' ((i, k) :: ch) Q) k (srcAt t k') cx (recurse rules run sub (srcAt t k') cx) := by
  have hslt := (List.getElem?_eq_some_iff.mp hsub).1
  unfold recurse patternOf
  rw [rd_eq_ok.mpr hsub, res_bind_ok, res_bind_ok, hI.parents, leftRecursive_eq hn sub k' hk' _ hch.desc (fun c hc => by have := hch.pos c hc; omega)]
  have hself : Later t k (srcAt t k') (srcAt t k') := ⟨k', k', hk, Nat.le_refl _, hk', rfl, rfl⟩
  by_cases hmem : (sub, k') ∈ ((i, k) :: ch)
  · rw [if_pos (by simpa using hmem)]
    obtain ⟨f, hf⟩ := failed_ok s'.pattern ⟨0, srcAt t k'⟩ (Nat.zero_le _)
    rw [hf, res_bind_ok]
    exact ⟨⟨rfl, rfl, hI⟩, hself⟩
  · rw [if_neg (by simpa using hmem)]
    have h := hrun sub k' ((i, k) :: ch) Q cx s' (Nat.le_trans hlo hk) hsub (hch.push hslt hk hk' hmem) (by simp only [List.length_cons]; omega) hI
    cases hr : run sub (srcAt t k') cx with
    | error e => rw [hr] at h; exact h
    | ok r =>
      rw [hr] at h
      rw [res_bind_ok]
      obtain ⟨b, st', cx'⟩ := r
      obtain ⟨h1, ⟨a, c, h2, h3, h4, h5, h6⟩, h7⟩ := h
      cases b with
      | true =>
        rw [if_pos rfl]
        exact ⟨h1, a, c, by omega, h3, h4, h5, h6⟩
      | false =>
        rw [if_neg (by simp)]
        simp only [Bool.false_eq_true, if_false] at h7
        obtain ⟨f, hf⟩ := failed_ok s'.pattern st' (by omega)
        rw [hf, res_bind_ok]
        exact ⟨h1, hself⟩

theorem matchCall_ok (hn : 0#8 ∉ t) (hall : ∀ r ∈ rules, RuleSafe F pr r) {n : Nat} {run : Nat → Src → Cx Ctx → Res (Out Ctx)} (hrun : RunOk rules lo t F n run) {r : Rule} (hr : rules[i]? = some r)
    (hlo : lo ≤ k) (hch : Chain rules.length t ((i, k) :: ch)) (hlen : rules.length * ((decodeAll t).length + 1) ≤ ch.length + 1 + n) (st : St) (cx : Cx Ctx) (hb : r.pattern[st.pat]? = some 0x3C#8)
    (hi : In r.pattern F pr st.pat) (hsrc : SrcOk t k st.src) (hI : Inv rules lo t i k ch P cx.data) :
    ExtOk r.pattern t k F pr (Inv rules lo t i k ch P) st cx (matchCall rules (t ++ [0#8]) run (cstr r.pattern) i st cx) := by
  have hsafe := hall r (List.mem_of_getElem? hr)
  have hlt := (List.getElem?_eq_some_iff.mp hb).1
  obtain ⟨k', hk, hk', hsk⟩ := hsrc
  have hi1 := in_step hi hb (by decide)
  have hpc := parseCall_good hsafe.nul hlt hi1 (hsafe.calls.imp (fun h => h _ hb) id)
  unfold matchCall
  cases hcall : parseCall (cstr r.pattern) st.pat with
  | error e =>
    rw [show cstr r.pattern = r.pattern ++ [0#8] from rfl] at hcall
    rw [hcall] at hpc
    exact hpc
  | ok c =>
    have hpc' : CallOk r.pattern F pr st.pat (.ok c) := by rw [← hcall]; exact hpc
    obtain ⟨lab, e⟩ := c
    rw [res_bind_ok]
    obtain ⟨o, ho, hom⟩ := lookup_safe rules ((cstr r.pattern).drop (st.pat + 1)) (by
      rw [show cstr r.pattern = r.pattern ++ [0#8] from rfl, List.drop_append_of_le_length (by omega)]
      simp) (fun r' hr' => (hall r' hr').name)
    rw [ho, res_bind_ok]
    have hbd : Bd r.pattern F e := hpc'.2.1.bd
    cases o with
    | none => exact ⟨⟨rfl, rfl, hI⟩, Or.inl (by omega), Nat.le_refl _⟩
    | some sub =>
      have hslt := hom sub rfl
      have hsub : rules[sub]? = some rules[sub] := List.getElem?_eq_getElem hslt
      simp only
      rw [rd_eq_ok.mpr hsub, res_bind_ok]
      have hIs : Inv rules lo t sub k' ((i, k) :: ch) (P ++ [rules[sub].name])
          { rule := sub, origin := st.src, parents := ⟨cx.data.rule, cx.data.origin⟩ :: cx.data.parents
            rootDisabled := if cx.data.parents.isEmpty then cx.disabled else cx.data.rootDisabled
            numCaptures := 0, ast := [], far := cx.data.far, failures := cx.data.failures, path := cx.data.path ++ [rules[sub].name] } :=
        ⟨rfl, hsk, by simp [frames, hI.rule, hI.origin, hI.parents], by simp [hI.path], hI.report⟩
      have hrec := recurse_ok hn hrun hsub hlo hch hlen hk hk' ⟨cx.disabled, 0, _⟩ hIs
      rw [← hsk] at hrec
      revert hrec
      generalize recurse rules run sub st.src ⟨cx.disabled, 0, _⟩ = x
      cases x with
      | error e => exact fun h => h
      | ok q =>
        obtain ⟨b, src', cx'⟩ := q
        rintro ⟨h1, h2⟩
        rw [res_bind_ok]
        simp only
        have hp := h1.inv.path
        rw [hp, if_neg (by simp)]
        have hIb : Inv rules lo t i k ch P { cx.data with far := cx'.data.far, failures := cx'.data.failures, path := (P ++ [rules[sub].name]).dropLast } :=
          ⟨hI.rule, hI.origin, hI.parents, by simp, h1.inv.report⟩
        cases b with
        | false =>
          rw [if_neg (by decide)]
          exact ⟨⟨rfl, rfl, hIb⟩, hbd, Nat.le_of_lt hpc'.1⟩
        | true =>
          rw [if_pos rfl]
          have hcap := captureCall_ok (t := t) (k := k) (ch := ch) (P := P) hr hsub (Or.inl hsafe.captures) st src' cx'.data
            { cx with data := { cx.data with far := cx'.data.far, failures := cx'.data.failures, path := (P ++ [rules[sub].name]).dropLast } } hpc'.bd hlt hIb
          revert hcap
          generalize captureCall rules (t ++ [0#8]) (cstr r.pattern) i sub lab e st src' cx'.data _ = y
          cases y with
          | error e => exact fun h => h
          | ok z =>
            intro h
            exact ⟨⟨h.dis, h.nest, h.inv⟩, ⟨hpc'.2.1, Or.inl hpc'.1, h2⟩⟩

theorem rule_ok (hn : 0#8 ∉ t) (hall : ∀ r ∈ rules, RuleSafe F pr r) (hct : pr = true → (∀ c ∈ decodeAll t, InCtype c) ∨ F .ub) :
    ∀ n, RunOk rules lo t F n (matchRule rules (t ++ [0#8]) n) := by
  intro n
  induction n with
  | zero =>
    intro i k ch P cx r _ hr hch hlen
    have := hch.bound
    simp only [List.length_cons] at this
    omega
  | succ n ih =>
    intro i k ch P cx r hlo hr hch hlen hI
    have hsafe := hall r (List.mem_of_getElem? hr)
    have hk : k ≤ (decodeAll t).length := (hch.le (i, k) (by simp)).2
    have hH : HOk r.pattern t k F pr (Inv rules lo t i k ch P) (pegHooks rules (t ++ [0#8]) (matchRule rules (t ++ [0#8]) n) (r.pattern ++ [0#8]) i) := by
      refine ⟨fun c d h => inv_rollback c d h, ?_, ?_, ?_, skipExtended_good hsafe.calls⟩
      · intro a e st st' rep d h1 h2 h3 _ h4
        obtain ⟨b, hb⟩ := rd_in r.pattern st.pat h3
        change DOk F _ (rd (r.pattern ++ [0#8]) st.pat >>= _)
        rw [hb]
        exact inv_captureValue _ _ _ _ h4
      · intro dis op oe src d h1 h2 _ hsrc h4
        obtain ⟨d', h5, h6⟩ := inv_record hr dis op oe src d h4 h1 hlo hsrc
        change DOk F _ (recordFailure (r.pattern ++ [0#8]) i dis op oe src d)
        rw [h5]
        exact h6
      · intro b st cx hb hx hi hsrc hId
        change ExtOk _ _ _ _ _ _ _ _ (matchExtended rules (t ++ [0#8]) (matchRule rules (t ++ [0#8]) n) (r.pattern ++ [0#8]) i st cx)
        unfold matchExtended
        rw [rd_of_get hb, res_bind_ok]
        by_cases h : b = 0x3C#8
        · subst h
          rw [if_pos (by decide)]
          exact matchCall_ok hn hall ih hr hlo hch (by omega) st cx hb hi hsrc hId
        · rw [if_neg (by simpa using h)]
          exact matchLiteral_ok hn hb hx hi hsrc hId
    have h := matchHere_ok hsafe.nul hn hH hct hsafe.tidy (srcAt t k) ⟨k, Nat.le_refl _, hk, rfl⟩ cx hI
    unfold matchRule patternOf
    rw [rd_eq_ok.mpr hr, res_bind_ok, res_bind_ok]
    change RuleOk _ _ _ _ _ _ _ (matchHere (r.pattern ++ [0#8]) (t ++ [0#8]) (pegHooks rules (t ++ [0#8]) (matchRule rules (t ++ [0#8]) n) (r.pattern ++ [0#8]) i) (srcAt t k) cx)
    revert h
    cases matchHere (r.pattern ++ [0#8]) (t ++ [0#8]) (pegHooks rules (t ++ [0#8]) (matchRule rules (t ++ [0#8]) n) (r.pattern ++ [0#8]) i) (srcAt t k) cx with
    | error e => exact fun h => h
    | ok q =>
      obtain ⟨b, st', cx'⟩ := q
      rintro ⟨h1, h2, h3⟩
      refine ⟨h1, h2, ?_⟩
      cases b with
      | true => simpa using h3
      | false => exact h3.1

end

end Strpp.Pex
