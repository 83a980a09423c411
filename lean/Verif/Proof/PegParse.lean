import Verif.Proof.PegAst
import Mathlib.Data.List.Nodup
/-! Peg: the rules of a well-written grammar. -/
namespace Strpp.Pex
open Spec

/-- a rule as it is given to Peg -/
def Def.rule (d : Def) : Rule := ⟨d.name, d.expr.bytes, d.captures⟩

def Grammar.rules (g : Grammar) : List Rule := g.map Def.rule

section
variable {s : List Byte}

/-! ### Calls, as they are written -/

theorem strchr_eval : ∀ (name : List Byte) (k p : Nat) (post : List Byte), Here s p (name ++ [0x3E#8]) post → (∀ b ∈ name, nameByte b = true) → s.length < p + k →
    strchr (s ++ [0#8]) 0x3E#8 k p = .ok (some (p + name.length)) := by
  intro name
  induction name with
  | nil =>
    intro k p post h _ hk
    cases k with
    | zero => have := h.len; simp at this; omega
    | succ k =>
      unfold strchr
      rw [(Here.cons (b := 0x3E#8) (bs := []) h).1, res_bind_ok, if_pos (by decide)]
      rfl
  | cons b name ih =>
    intro k p post h hn hk
    cases k with
    | zero => have := h.len; simp at this; omega
    | succ k =>
      obtain ⟨h1, h2⟩ := Here.cons (b := b) (bs := name ++ [0x3E#8]) h
      have hb : nameByte b = true := hn b (by simp)
      have hb1 : b ≠ 0x3E#8 := by rintro rfl; revert hb; decide
      have hb2 : b ≠ 0#8 := by rintro rfl; revert hb; decide
      unfold strchr
      rw [h1, res_bind_ok, if_neg (by simpa using hb1), if_neg (by simpa using hb2), ih k (p + 1) post h2 (fun x hx => hn x (by simp [hx])) (by omega)]
      simp only [List.length_cons]
      congr 2
      omega

theorem skipCall_eval : ∀ (name : List Byte) (k p : Nat) (post : List Byte), Here s p (name ++ [0x3E#8]) post → (∀ b ∈ name, nameByte b = true) → s.length < p + k →
    skipCall (s ++ [0#8]) k p = .ok (p + name.length + 1) := by
  intro name
  induction name with
  | nil =>
    intro k p post h _ hk
    cases k with
    | zero => have := h.len; simp at this; omega
    | succ k =>
      unfold skipCall
      rw [(Here.cons (b := 0x3E#8) (bs := []) h).1, res_bind_ok, if_neg (by decide), if_pos (by decide)]
      rfl
  | cons b name ih =>
    intro k p post h hn hk
    cases k with
    | zero => have := h.len; simp at this; omega
    | succ k =>
      obtain ⟨h1, h2⟩ := Here.cons (b := b) (bs := name ++ [0x3E#8]) h
      have hb : nameByte b = true := hn b (by simp)
      have hb1 : b ≠ 0x3E#8 := by rintro rfl; revert hb; decide
      have hb2 : b ≠ 0#8 := by rintro rfl; revert hb; decide
      unfold skipCall
      rw [h1, res_bind_ok, if_neg (by simpa using hb2), if_neg (by simpa using hb1), ih k (p + 1) post h2 (fun x hx => hn x (by simp [hx])) (by omega)]
      simp only [List.length_cons]
      congr 1
      omega

theorem parseCall_eval {name : List Byte} {lab : Option (List Byte)} {p : Nat} {post : List Byte} (h : Here s p (Expr.call name lab).bytes post) (hw : (Expr.call name lab).wf pegSpecial true .atom)
    (hx : nxt post ≠ 0x3A#8) : ∃ l, parseCall (s ++ [0#8]) p = .ok (l, p + (Expr.call name lab).bytes.length) ∧
      CallBd s (fun _ => False) p l (p + (Expr.call name lab).bytes.length) ∧ (∀ q, l = some q → q < p + (Expr.call name lab).bytes.length) ∧
      (lab = none → l = none) ∧ (∀ n, lab = some n → ∃ q, l = some q ∧ p + (Expr.call name lab).bytes.length = q + n.length + 1 ∧ Here s q (n ++ [0x3A#8]) post) := by
  obtain ⟨-, hne, hn, hl⟩ := hw
  have hlen := h.len
  unfold parseCall
  cases lab with
  | none =>
    have hle : (Expr.call name none).bytes.length = name.length + 2 := by simp [Expr.bytes]
    have h1 := (Here.cons (b := 0x3C#8) (bs := name ++ [0x3E#8]) h).2
    have h2 := h.over.end
    refine ⟨none, ?_, ⟨by omega, Or.inl (by omega), fun q hq => by cases hq⟩, (fun q hq => by cases hq), fun _ => rfl, fun n hn => by cases hn⟩
    rw [strchr_eval name _ (p + 1) post h1 hn (by simp; omega), res_bind_ok]
    simp only [res_bind_ok]
    rw [hle] at h2
    rw [show p + 1 + name.length + 1 = p + (name.length + 2) by omega, h2, res_bind_ok, if_neg (by simpa using hx), hle]
  | some l =>
    have hle : (Expr.call name (some l)).bytes.length = name.length + 2 + (l.length + 2) := by simp [Expr.bytes]; omega
    have h0 : Here s p ((0x3C#8 :: name ++ [0x3E#8]) ++ (0x3A#8 :: l ++ [0x3A#8])) post := by simpa [Expr.bytes] using h
    have h1 := (Here.cons (b := 0x3C#8) (bs := name ++ [0x3E#8]) h0.left).2
    have h2 := h0.right
    simp only [List.length_append, List.length_cons, List.length_nil] at h2
    obtain ⟨h3, h4⟩ := Here.cons (b := 0x3A#8) (bs := l ++ [0x3A#8]) h2
    have h5 := h4.right.cons.1
    refine ⟨some (p + (name.length + 2) + 1), ?_, ⟨by omega, Or.inl (by omega), ?_⟩, ?_, (fun hn => by cases hn), fun n hn => by cases hn; exact ⟨_, rfl, by omega, h4⟩⟩
    · rw [strchr_eval name _ (p + 1) _ h1 hn (by simp; omega), res_bind_ok]
      simp only [res_bind_ok]
      rw [show p + 1 + name.length + 1 = p + (name.length + 1 + (0 + 1)) by omega, h3, res_bind_ok, if_pos (by decide),
        nameEnd_eval l _ _ _ h4.left (hl l rfl) (by rfl) (by simp; omega), res_bind_ok]
      unfold closeColon
      rw [h5, res_bind_ok, if_pos (by decide), res_bind_ok, hle]
      congr 2
      omega
    · rintro q hq
      cases hq
      refine ⟨by omega, by omega, Or.inl (by omega), fun hq => by omega⟩
    · rintro q hq
      cases hq
      omega

end

/-! ### Rules and definitions -/

section
variable {g : Grammar} {rules : List Rule} {lo : Nat} {t : List Byte}

theorem find_of_mem (hd : (g.map Def.name).Nodup) {d : Def} (h : d ∈ g) : g.find d.name = some d.expr := by
  unfold Grammar.find
  induction g with
  | nil => cases h
  | cons x g ih =>
    rw [List.map_cons, List.nodup_cons] at hd
    rw [List.find?_cons]
    rcases List.mem_cons.mp h with h' | h'
    · subst h'; simp
    · have : x.name ≠ d.name := fun hx => hd.1 (List.mem_map.mpr ⟨d, h', hx.symm⟩)
      rw [show (x.name == d.name) = false by simpa using this]
      exact ih hd.2 h'

theorem rule_def (hs : Sorted g.rules rules) {i : Nat} {r : Rule} (h : rules[i]? = some r) : ∃ d ∈ g, d.rule = r := by
  have := hs.1.mem_iff.mp (List.mem_of_getElem? h)
  exact List.mem_map.mp this

theorem names_nodup (hok : g.Ok) (hs : Sorted g.rules rules) : (rules.map Rule.name).Nodup := by
  have h1 := hs.1.map Rule.name
  rw [h1.nodup_iff]
  have : g.rules.map Rule.name = g.map Def.name := by
    unfold Grammar.rules
    rw [List.map_map]
    rfl
  rw [this]
  exact hok.distinct

theorem index_of_name (hok : g.Ok) (hs : Sorted g.rules rules) {i j : Nat} {a b : Rule} (hi : rules[i]? = some a) (hj : rules[j]? = some b) (h : a.name = b.name) : i = j := by
  have hnd := names_nodup hok hs
  obtain ⟨hi1, hi2⟩ := List.getElem?_eq_some_iff.mp hi
  obtain ⟨hj1, hj2⟩ := List.getElem?_eq_some_iff.mp hj
  refine (List.Nodup.getElem_inj_iff hnd (hi := by simpa using hi1) (hj := by simpa using hj1)).mp ?_
  simp [hi2, hj2, h]

/-- the calls that are active, by name -/
def named (rules : List Rule) (ch : List (Nat × Nat)) : List (List Byte × Nat) := ch.map (fun c => ((rules[c.1]?.map Rule.name).getD [], c.2))

theorem mem_named (hok : g.Ok) (hs : Sorted g.rules rules) {sub k : Nat} {a : Rule} (hsub : rules[sub]? = some a) {ch : List (Nat × Nat)} (hch : ∀ c ∈ ch, c.1 < rules.length) :
    (a.name, k) ∈ named rules ch ↔ (sub, k) ∈ ch := by
  unfold named
  rw [List.mem_map]
  constructor
  · rintro ⟨c, h1, h2⟩
    have hc := hch c h1
    have hb : rules[c.1]? = some rules[c.1] := List.getElem?_eq_getElem hc
    rw [hb] at h2
    simp only [Option.map_some, Option.getD_some, Prod.mk.injEq] at h2
    have := index_of_name hok hs hb hsub h2.1
    have : c = (sub, k) := by rw [← this, ← h2.2]
    rwa [← this]
  · intro h
    exact ⟨(sub, k), h, by simp [hsub]⟩

variable (g rules lo t) in
/-- what is known of the context of a rule that has captured `a`; of the captures only if the rules list names that are fit -/
def Caps (i k : Nat) (ch : List (Nat × Nat)) (P : List (List Byte)) (a : List CapEvent) (d : Ctx) : Prop := Inv rules lo t i k ch P d ∧ (CapNames g → Holds a d)

variable (g rules lo t) in
/-- what is known of the calls below -/
def RunEv (n : Nat) (run : Nat → Src → Cx Ctx → Res (Out Ctx)) : Prop :=
  ∀ i k ch P cx d on, lo ≤ k → d ∈ g → rules[i]? = some d.rule → Chain rules.length t ((i, k) :: ch) → (∀ c ∈ ch, ∀ r, rules[c.1]? = some r → r.pattern ≠ []) →
    rules.length * ((decodeAll t).length + 1) ≤ ch.length + n → Pre (Caps g rules lo t i k ch P) on false [] cx →
    ∀ h r own, SemC (decodeAll t) ch.isEmpty (g.callC (decodeAll t) h (named rules ((i, k) :: ch)) d.captures) on false d.expr k [] r own →
    ∃ cx' st', CxOk (Caps g rules lo t i k ch P own) cx cx' ∧ (r = none → st'.pat < d.expr.bytes.length) ∧
      run i (srcAt t k) cx = .ok (match r with | some k' => (true, ⟨d.expr.bytes.length, srcAt t k'⟩, cx') | none => (false, st', cx'))

theorem failed_eq {s : List Byte} (hs : 0#8 ∉ s) {st : St} (h : st.pat < s.length) : failed (cstr s) st = .ok true := by
  have hb : rd (cstr s) st.pat = .ok s[st.pat] := rd_of_get (List.getElem?_eq_getElem h)
  unfold failed
  rw [hb, res_bind_ok]
  have : s[st.pat] ≠ 0#8 := fun h' => hs (h' ▸ List.getElem_mem h)
  simp [this]

theorem bind_of {α β : Type} {m : Res α} {f : α → Res β} {a : α} (h : m = .ok a) : (m >>= f) = f a := by rw [h, res_bind_ok]

/-- capturing what was called -/
theorem captureCall_eval (hn : 0#8 ∉ t) {i k : Nat} {ch : List (Nat × Nat)} {P : List (List Byte)} {d : Def} (hd : d ∈ g) (hr : rules[i]? = some d.rule) {sub : Nat} {d' : Def} (h2 : rules[sub]? = some d'.rule)
    {name : List Byte} (h3 : d'.name = name) {lab : Option (List Byte)} {p : Nat} {post : List Byte} (hw : (Expr.call name lab).wf pegSpecial true .atom)
    (hh : Here d.expr.bytes p (Expr.call name lab).bytes post) {l : Option Nat} (hbd : CallBd d.expr.bytes (fun _ => False) p l (p + (Expr.call name lab).bytes.length))
    (hlt : ∀ q, l = some q → q < p + (Expr.call name lab).bytes.length) (hl0 : lab = none → l = none)
    (hl1 : ∀ n, lab = some n → ∃ q, l = some q ∧ p + (Expr.call name lab).bytes.length = q + n.length + 1 ∧ Here d.expr.bytes q (n ++ [0x3A#8]) post)
    {on rep : Bool} {a own : List CapEvent} {cx : Cx Ctx} (hP : Pre (Caps g rules lo t i k ch P) on rep a cx) {k' k'' : Nat} (hk : k' ≤ k'') (hk' : k'' ≤ (decodeAll t).length) {e : Ctx} (he : CapNames g → Holds own e)
    (hpar : e.parents ≠ []) (hsame : ¬ (i = sub ∧ p = 0)) :
    ∃ z, captureCall rules (t ++ [0#8]) (d.expr.bytes ++ [0#8]) i sub l (p + (Expr.call name lab).bytes.length) ⟨p, srcAt t k'⟩ (srcAt t k'') e cx = .ok z ∧
      CxOk (Caps g rules lo t i k ch P (added (decodeAll t) d.captures on rep name lab k' a (some k'') own)) cx z := by
  have hll := hh.len
  have hpos : 0 < (Expr.call name lab).bytes.length := by cases lab <;> simp [Expr.bytes]
  have hcap := captureCall_ok (F := fun _ => False) (t := t) (k := k) (ch := ch) (P := P) hr h2 (Or.inr hlt) ⟨p, srcAt t k'⟩ (srcAt t k'') e cx hbd (by
    change p < d.expr.bytes.length
    omega) hP.inv.1
  rw [show cstr d.rule.pattern = d.expr.bytes ++ [0#8] from rfl] at hcap
  by_cases hK : CapNames g
  · have he := he hK
    obtain ⟨-, -, hname, hlab⟩ := hw
    -- what it is captured as
    obtain ⟨x, rest, hx, hx0, hL⟩ : ∃ x rest, (x = 0#8 ∨ x = 0x3A#8) ∧ 0#8 ∈ x :: rest ∧ (match l with
        | some q => (do
          let c ← rd (d.expr.bytes ++ [0#8]) (p + (Expr.call name lab).bytes.length - 1)
          .ok ((d.expr.bytes ++ [0#8]).drop q, (if c == 0x3A#8 then ((p + (Expr.call name lab).bytes.length : Nat) : Int) - q - 1 else ((p + (Expr.call name lab).bytes.length : Nat) : Int) - q)) : Res (List Byte × Int))
        | none => .ok (cstr d'.rule.name, (d'.rule.name.length : Int))) = .ok (lab.getD name ++ x :: rest, ((lab.getD name).length : Int)) := by
      cases lab with
      | none =>
        refine ⟨0#8, [], Or.inl rfl, by simp, ?_⟩
        rw [hl0 rfl]
        simp only [Def.rule, h3]
        rfl
      | some n =>
        obtain ⟨q, hq, hqe, hqh⟩ := hl1 n rfl
        refine ⟨0x3A#8, post ++ [0#8], Or.inr rfl, by simp, ?_⟩
        rw [hq]
        simp only [Option.getD_some]
        have h5 := hqh.right.cons.1
        rw [show p + (Expr.call name (some n)).bytes.length - 1 = q + n.length by omega, h5, res_bind_ok, hqe]
        simp only [beq_self_eq_true, if_true]
        rw [List.drop_append_of_le_length hqh.le, hqh.eq]
        congr 2
        · simp
        · omega
    have hcaps : ∀ cs, d.rule.captures = some cs → ∀ c ∈ cs, 0#8 ∉ c ∧ 0x3A#8 ∉ c := fun cs hcs => hK d hd cs hcs
    have hwant := isCaptured_wants (r := d.rule) (l := lab.getD name) (rest := rest) hcaps hx (List.mem_append.mpr (Or.inr hx0))
    obtain ⟨b, hb⟩ := rd_in d.expr.bytes p (by omega)
    have hnb : ∀ b ∈ lab.getD name, nameByte b = true := by
      cases lab with
      | none => exact hname
      | some n => exact hlab n rfl
    have hval := he.value hn b hk hk'
    rw [show e.parents.isEmpty = false by simpa using hpar] at hval
    have heq : captureCall rules (t ++ [0#8]) (d.expr.bytes ++ [0#8]) i sub l (p + (Expr.call name lab).bytes.length) ⟨p, srcAt t k'⟩ (srcAt t k'') e cx =
        .ok (if (cx.disabled == 0) && wants d.captures (lab.getD name) then { cx with data := captureValue (letters (lab.getD name)) (valueOf false (decodeAll t) k' k'' own) (decide (cx.nesting > 0)) cx.data } else cx) := by
      unfold captureCall
      rw [rd_eq_ok.mpr hr, res_bind_ok, rd_eq_ok.mpr h2, res_bind_ok]
      refine (bind_of hL).trans ?_
      by_cases hdis : (cx.disabled == 0) = true
      · rw [if_pos hdis, hwant, res_bind_ok, hdis, Bool.true_and, show d.rule.captures = d.captures from rfl]
        by_cases hwt : wants d.captures (lab.getD name) = true
        · rw [if_pos hwt, if_pos hwt, if_neg (by simp only; omega)]
          simp only
          rw [hb, res_bind_ok]
          have hs2 : (i == sub && p == 0) = false := by
            rw [Bool.eq_false_iff]
            intro h
            simp only [Bool.and_eq_true, beq_iff_eq] at h
            exact hsame h
          rw [hs2, hval]
          congr 4
          unfold textOf
          rw [List.drop_zero, Nat.sub_zero, Int.toNat_natCast, List.take_left, decodeAll_name hnb]
        · rw [if_neg hwt, if_neg hwt]
      · rw [if_neg hdis, if_neg (by simp [hdis])]
    rw [heq] at hcap ⊢
    refine ⟨_, rfl, hcap.dis, hcap.nest, hcap.inv, fun _ => ?_⟩
    unfold added
    simp only
    rw [hP.on, hP.rep]
    by_cases hc : ((cx.disabled == 0) && wants d.captures (lab.getD name)) = true
    · rw [if_pos hc, if_pos hc]
      exact (hP.inv.2 hK).note ⟨_, _, _⟩ (valueOf_notArray _ _ _ _ _)
    · rw [if_neg hc, if_neg hc]
      exact hP.inv.2 hK
  · revert hcap
    cases captureCall rules (t ++ [0#8]) (d.expr.bytes ++ [0#8]) i sub l (p + (Expr.call name lab).bytes.length) ⟨p, srcAt t k'⟩ (srcAt t k'') e cx with
    | error e => exact fun h => h.elim
    | ok z => exact fun hz => ⟨z, rfl, hz.dis, hz.nest, hz.inv, fun h => absurd h hK⟩

theorem rule_of_mem (hd : (g.map Def.name).Nodup) {d : Def} (h : d ∈ g) : g.rule d.name = some d := by
  unfold Grammar.rule
  induction g with
  | nil => cases h
  | cons x g ih =>
    rw [List.map_cons, List.nodup_cons] at hd
    rw [List.find?_cons]
    rcases List.mem_cons.mp h with h' | h'
    · subst h'; simp
    · have : x.name ≠ d.name := fun hx => hd.1 (List.mem_map.mpr ⟨d, h', hx.symm⟩)
      rw [show (x.name == d.name) = false by simpa using this]
      exact ih hd.2 h'

theorem matchCall_eval (hn : 0#8 ∉ t) (hok : g.Ok) (hs : Sorted g.rules rules) {n : Nat} {run : Nat → Src → Cx Ctx → Res (Out Ctx)} (hrun : RunEv g rules lo t n run) {i k : Nat}
    {ch : List (Nat × Nat)} {P : List (List Byte)} {d : Def} (hd : d ∈ g) (hr : rules[i]? = some d.rule) (hlo : lo ≤ k) (hch : Chain rules.length t ((i, k) :: ch))
    (hne : ∀ c ∈ ch, ∀ r, rules[c.1]? = some r → r.pattern ≠ []) (hlen : rules.length * ((decodeAll t).length + 1) ≤ ch.length + 1 + n) {h : Nat}
    {name : List Byte} {lab : Option (List Byte)} {k' : Nat} {r : Option Nat} {p : Nat} {post : List Byte} {cx : Cx Ctx} (hw : (Expr.call name lab).wf pegSpecial true .atom)
    {on rep : Bool} {a a' : List CapEvent} (hC : g.callC (decodeAll t) h (named rules ((i, k) :: ch)) d.captures on rep name lab k' a r a') (hk : k ≤ k') (hk' : k' ≤ (decodeAll t).length) (hh : Here d.expr.bytes p (Expr.call name lab).bytes post)
    (hz : p = 0 → k' = k) (hx : nxt post ≠ 0x3A#8) (hP : Pre (Caps g rules lo t i k ch P) on rep a cx) :
    ∃ cx' st', CxOk (Caps g rules lo t i k ch P a') cx cx' ∧ p ≤ st'.pat ∧ st'.pat ≤ d.expr.bytes.length ∧
      matchCall rules (t ++ [0#8]) run (d.expr.bytes ++ [0#8]) i ⟨p, srcAt t k'⟩ cx = .ok (outq t p (Expr.call name lab).bytes.length r st' cx') := by
  obtain ⟨l, hpc, hbd, hlt, hl0, hl1⟩ := parseCall_eval hh hw hx
  have hll := hh.len
  have hI := hP.inv.1
  have hcc := hw
  obtain ⟨-, hname0, hname, -⟩ := hw
  have hpos : 0 < (Expr.call name lab).bytes.length := by cases lab <;> simp [Expr.bytes]
  -- the name, and what is after it
  have hkey : ∃ rest, (d.expr.bytes ++ [0#8]).drop (p + 1) = name ++ 0x3E#8 :: rest := by
    have h1 : ∃ more, Here d.expr.bytes p (0x3C#8 :: (name ++ [0x3E#8])) more := by
      cases lab with
      | none => exact ⟨post, hh⟩
      | some l => exact ⟨(0x3A#8 :: l ++ [0x3A#8]) ++ post, hh.le, by rw [hh.eq]; simp [Expr.bytes]⟩
    obtain ⟨more, h1⟩ := h1
    have h2 := h1.cons.2
    refine ⟨more ++ [0#8], ?_⟩
    rw [List.drop_append_of_le_length h2.le, h2.eq]
    simp
  obtain ⟨rest, hkey⟩ := hkey
  have hnul : ∀ r ∈ g.rules, 0#8 ∉ r.name := by
    intro r hr hm
    obtain ⟨d, hd, rfl⟩ := List.mem_map.mp hr
    have := hok.names d hd _ hm
    simp at this
  have hnn : 0#8 ∉ name := fun hm => absurd (hname _ hm) (by decide)
  have hng : 0x3E#8 ∉ name := fun hm => absurd (hname _ hm) (by decide)
  have hlk := lookup_ok hs hnul name hnn hng 0x3E#8 (Or.inl rfl) rest (by
    intro r hr y more hy
    obtain ⟨d, hd, rfl⟩ := List.mem_map.mp hr
    have := hok.names d hd y (by have : d.name = _ := hy; rw [this]; simp)
    simpa using this)
  unfold matchCall
  simp only
  rw [hpc, res_bind_ok, hkey]
  cases h with
  | zero => cases hC
  | succ h =>
    rcases hlk with ⟨sub, a, h1, h2, h3⟩ | ⟨h1, h2⟩
    · rw [h1, res_bind_ok]
      simp only
      obtain ⟨d', hd', rfl⟩ := rule_def hs h2
      have hslt := (List.getElem?_eq_some_iff.mp h2).1
      have hfind : g.rule name = some d' := by rw [← h3]; exact rule_of_mem hok.distinct hd'
      rw [rd_eq_ok.mpr h2, res_bind_ok]
      have hIs : Inv rules lo t sub k' ((i, k) :: ch) (P ++ [d'.name])
          { rule := sub, origin := srcAt t k', parents := ⟨cx.data.rule, cx.data.origin⟩ :: cx.data.parents
            rootDisabled := if cx.data.parents.isEmpty then cx.disabled else cx.data.rootDisabled
            numCaptures := 0, ast := [], far := cx.data.far, failures := cx.data.failures, path := cx.data.path ++ [d'.rule.name] } :=
        ⟨rfl, rfl, by simp [frames, hI.rule, hI.origin, hI.parents], by simp [hI.path, Def.rule], hI.report⟩
      have hmem : (name, k') ∈ named rules ((i, k) :: ch) ↔ (sub, k') ∈ ((i, k) :: ch) := by
        rw [← h3]
        exact mem_named hok hs h2 (fun c hc => (hch.le c hc).1)
      -- what the call of the rule gives
      have hrec : ∃ own cx', (a' = added (decodeAll t) d.captures on rep name lab k' a r own) ∧ (r ≠ none → ¬ (i = sub ∧ p = 0)) ∧ (∀ k'', r = some k'' → k' ≤ k'' ∧ k'' ≤ (decodeAll t).length) ∧
          CxOk (Caps g rules lo t sub k' ((i, k) :: ch) (P ++ [d'.name]) own) ⟨cx.disabled, 0,
          { rule := sub, origin := srcAt t k', parents := ⟨cx.data.rule, cx.data.origin⟩ :: cx.data.parents
            rootDisabled := if cx.data.parents.isEmpty then cx.disabled else cx.data.rootDisabled
            numCaptures := 0, ast := [], far := cx.data.far, failures := cx.data.failures, path := cx.data.path ++ [d'.rule.name] }⟩ cx' ∧
          recurse rules run sub (srcAt t k') ⟨cx.disabled, 0,
          { rule := sub, origin := srcAt t k', parents := ⟨cx.data.rule, cx.data.origin⟩ :: cx.data.parents
            rootDisabled := if cx.data.parents.isEmpty then cx.disabled else cx.data.rootDisabled
            numCaptures := 0, ast := [], far := cx.data.far, failures := cx.data.failures, path := cx.data.path ++ [d'.rule.name] }⟩ =
            .ok (r.isSome, srcAt t (r.getD k'), cx') := by
        have hIh : Holds []
          { rule := sub, origin := srcAt t k', parents := ⟨cx.data.rule, cx.data.origin⟩ :: cx.data.parents
            rootDisabled := if cx.data.parents.isEmpty then cx.disabled else cx.data.rootDisabled
            numCaptures := 0, ast := [], far := cx.data.far, failures := cx.data.failures, path := cx.data.path ++ [d'.rule.name] } := holds_nil rfl rfl
        revert hIs hIh
        generalize Ctx.mk sub (srcAt t k') _ _ _ _ _ _ _ = D
        intro hIs hIh
        have hnulp : 0#8 ∉ d'.expr.bytes := wf_nul _ _ (hok.written d' hd')
        unfold recurse patternOf
        rw [rd_eq_ok.mpr h2, res_bind_ok, res_bind_ok]
        simp only
        rw [hIs.parents, leftRecursive_eq hn sub k' hk' _ hch.desc (fun c hc => by have := hch.pos c hc; omega)]
        by_cases hm : (sub, k') ∈ ((i, k) :: ch)
        · obtain ⟨rfl, rfl⟩ := (callC_active hfind (hmem.mpr hm)).mp hC
          rw [if_pos (by simpa using hm)]
          have hnep : d'.expr.bytes ≠ [] := by
            rcases List.mem_cons.mp hm with h' | h'
            · cases h'
              rw [h2] at hr
              have h6 : d'.expr.bytes = d.expr.bytes := congrArg Rule.pattern (Option.some.inj hr)
              intro h0
              have h5 : d.expr.bytes = [] := h6.symm.trans h0
              rw [h5] at hll
              simp at hll
              omega
            · exact hne _ h' _ h2
          have : failed (cstr d'.rule.pattern) ⟨0, srcAt t k'⟩ = .ok true := failed_eq hnulp (by
            have := List.length_pos_iff.mpr hnep
            exact this)
          rw [this, res_bind_ok]
          exact ⟨[], _, rfl, fun h => absurd rfl h, (fun _ h => by cases h), ⟨rfl, rfl, hIs, fun _ => hIh⟩, rfl⟩
        · obtain ⟨own, hC, ha'⟩ := (callC_new hfind (fun h => hm (hmem.mp h))).mp hC
          rw [if_neg (by simpa using hm)]
          have hnm : (name, k') :: named rules ((i, k) :: ch) = named rules ((sub, k') :: (i, k) :: ch) := by
            simp [named, h2, h3]
          rw [hnm] at hC
          obtain ⟨cx', st', g1, g2, g3⟩ := hrun sub k' ((i, k) :: ch) (P ++ [d'.name]) ⟨cx.disabled, 0, D⟩ d' on (Nat.le_trans hlo hk) hd' h2 (hch.push hslt hk hk' hm)
            (by
              intro c hc r' hr'
              rcases List.mem_cons.mp hc with h' | h'
              · subst h'
                rw [hr] at hr'
                cases hr'
                intro h0
                have h0 : d.expr.bytes = [] := h0
                rw [h0] at hll
                simp at hll
                omega
              · exact hne c h' r' hr')
            (by simp only [List.length_cons]; omega) ⟨hP.dis, Int.le_refl _, hP.on, rfl, hIs, fun _ => hIh⟩ h r own hC
          rw [g3, res_bind_ok]
          refine ⟨own, cx', ha', ?_, ?_, g1, ?_⟩
          · rintro - ⟨rfl, rfl⟩
            rw [hz rfl] at hm
            exact hm (by simp)
          · rintro k'' rfl
            exact sem_le (fun n k k' h hk => callL_le g t _ _ n k k' (callC_callL g _ _ _ _ _ _ _ h) hk) (semC_plain hC) hk' k'' rfl
          cases r with
          | some k'' => rfl
          | none =>
            simp only
            rw [if_neg (by simp)]
            rw [show failed (cstr d'.rule.pattern) st' = .ok true from failed_eq hnulp (g2 rfl), res_bind_ok]
            rfl
      obtain ⟨own, cx', ha', hnot, hle, g1, g2⟩ := hrec
      rw [g2, res_bind_ok]
      simp only
      rw [g1.inv.1.path, if_neg (by simp)]
      have hIb : Inv rules lo t i k ch P { cx.data with far := cx'.data.far, failures := cx'.data.failures, path := (P ++ [d'.name]).dropLast } :=
        ⟨hI.rule, hI.origin, hI.parents, by simp, g1.inv.1.report⟩
      have hIc : CapNames g → Holds a { cx.data with far := cx'.data.far, failures := cx'.data.failures, path := (P ++ [d'.name]).dropLast } := fun hK => (hP.inv.2 hK).congr rfl rfl
      cases r with
      | none =>
        rw [if_neg (by simp)]
        exact ⟨{ cx with data := { cx.data with far := cx'.data.far, failures := cx'.data.failures, path := (P ++ [d'.name]).dropLast } }, ⟨p + (Expr.call name lab).bytes.length, srcAt t k'⟩,
          ⟨rfl, rfl, hIb, fun hK => by rw [ha']; exact hIc hK⟩, by simp only; omega, by simp only; omega, rfl⟩
      | some k'' =>
        simp only [Option.isSome_some, if_true]
        obtain ⟨z, z1, z2⟩ := captureCall_eval (on := on) (rep := rep) (a := a) (own := own) hn hd hr h2 h3 hcc hh hbd hlt hl0 hl1 (cx := { cx with data := { cx.data with far := cx'.data.far, failures := cx'.data.failures, path := (P ++ [d'.name]).dropLast } })
          ⟨hP.dis, hP.nest, hP.on, hP.rep, hIb, hIc⟩ (hle k'' rfl).1 (hle k'' rfl).2 g1.inv.2 (by rw [g1.inv.1.parents]; simp [frames]) (hnot (by simp))
        simp only [Option.getD_some]
        rw [z1, res_bind_ok]
        exact ⟨z, ⟨p, srcAt t k'⟩, ⟨z2.dis, z2.nest, by rw [ha']; exact z2.inv⟩, Nat.le_refl _, by simp only; omega, rfl⟩
    · rw [h1, res_bind_ok]
      have hfind : g.rule name = none := by
        cases hf : g.rule name with
        | none => rfl
        | some d' =>
          have hd' := List.mem_of_find?_eq_some hf
          have h3 : d'.name = name := by simpa using List.find?_some hf
          exact absurd h3 (h2 d'.rule (List.mem_map.mpr ⟨d', hd', rfl⟩))
      obtain ⟨rfl, rfl⟩ := (callC_undef hfind).mp hC
      exact ⟨cx, ⟨p, srcAt t k'⟩, ⟨rfl, rfl, hP.inv⟩, Nat.le_refl _, by simp only; omega, rfl⟩

theorem rule_eval (hn : 0#8 ∉ t) (hok : g.Ok) (hs : Sorted g.rules rules) (hp : (∀ d ∈ g, d.expr.noProps = true) ∨ ∀ c ∈ decodeAll t, InCtype c) :
    ∀ n, RunEv g rules lo t n (matchRule rules (t ++ [0#8]) n) := by
  intro n
  induction n with
  | zero =>
    intro i k ch P cx d on hlo hd hr hch hne hlen
    have := hch.bound
    simp only [List.length_cons] at this
    omega
  | succ n ih =>
    intro i k ch P cx d on hlo hd hr hch hne hlen hP h r own hsem
    have hw := hok.written d hd
    have hk : k ≤ (decodeAll t).length := (hch.le (i, k) (by simp)).2
    have hE : EOk d.expr.bytes t k pegSpecial true ch.isEmpty (g.callC (decodeAll t) h (named rules ((i, k) :: ch)) d.captures) (Caps g rules lo t i k ch P)
        (pegHooks rules (t ++ [0#8]) (matchRule rules (t ++ [0#8]) n) (d.expr.bytes ++ [0#8]) i) := by
      refine ⟨fun g0 g' d0 d' h0 h => ⟨inv_rollback _ _ h.1, fun hK => (h0.2 hK).rollback (h.2 hK)⟩, ?_, ?_, ?_, ⟨?_, ?_⟩, ?_⟩
      · intro a name post st st' rep k1 k2 a' dd hh hname h1 h2 _ h4 h5 h6 h7 h8
        obtain ⟨b, hb⟩ := rd_in d.expr.bytes st.pat h2
        refine ⟨_, ?_, inv_captureValue (textOf (d.expr.bytes ++ [0#8]) a (a + name.length)) (matchResult (t ++ [0#8]) b (st.pat == st'.pat) st.src st'.src dd) rep _ h8.1, fun hK => ?_⟩
        · change (rd (d.expr.bytes ++ [0#8]) st.pat >>= _) = _
          rw [hb]
          rfl
        · have hne : (st.pat == st'.pat) = false := by simp only [beq_eq_false_iff_ne]; omega
          have hpar : dd.parents.isEmpty = ch.isEmpty := by rw [h8.1.parents]; simp [frames]
          have htx : textOf (d.expr.bytes ++ [0#8]) a (a + name.length) = letters name := by
            unfold textOf
            rw [List.drop_append_of_le_length hh.le, hh.eq, Nat.add_sub_cancel_left, List.append_assoc, List.take_left, decodeAll_name hname]
          rw [hne, h6, h7, (h8.2 hK).value hn b h4 h5, hpar, htx]
          exact (h8.2 hK).note ⟨_, _, _⟩ (valueOf_notArray _ _ _ _ _)
      · intro dis op oe src a dd h1 h2 _ hsrc h4
        obtain ⟨d2, e1, e2⟩ := inv_record hr dis op oe src dd h4.1 h1 hlo hsrc
        have hc := recordFailure_caps e1
        exact ⟨d2, e1, e2, fun hK => (h4.2 hK).congr hc.1 hc.2⟩
      · intro st cx b hb _ hsp
        change matchExtended rules (t ++ [0#8]) (matchRule rules (t ++ [0#8]) n) (d.expr.bytes ++ [0#8]) i st cx = _
        unfold matchExtended
        rw [hb, res_bind_ok, if_neg (by rw [show (b == 0x3C#8) = pegSpecial b from rfl, hsp]; decide)]
      · intro p b hb _ hsp
        change skipExtended (d.expr.bytes ++ [0#8]) p = _
        unfold skipExtended
        rw [hb, res_bind_ok, if_neg (by rw [show (b == 0x3C#8) = pegSpecial b from rfl, hsp]; decide)]
      · intro _ p name post hh hname
        obtain ⟨h1, h2⟩ := Here.cons (b := 0x3C#8) (bs := name ++ [0x3E#8]) hh
        change skipExtended (d.expr.bytes ++ [0#8]) p = _
        unfold skipExtended
        rw [h1, res_bind_ok, if_pos (by decide), skipCall_eval name _ _ post h2 hname (by simp; omega)]
      · intro _ on rep name lab k' a r' a' p post cx hw' hC hk0 hk' hh hz hx hId
        have hb : rd (d.expr.bytes ++ [0#8]) p = .ok 0x3C#8 := by
          cases lab with
          | none => exact (Here.cons (b := 0x3C#8) (bs := name ++ [0x3E#8]) hh).1
          | some l =>
            have : Here d.expr.bytes p (0x3C#8 :: (name ++ [0x3E#8] ++ 0x3A#8 :: l ++ [0x3A#8])) post := by simpa [Expr.bytes] using hh
            exact this.cons.1
        change ∃ cx' st', _ ∧ _ ∧ _ ∧ matchExtended rules (t ++ [0#8]) (matchRule rules (t ++ [0#8]) n) (d.expr.bytes ++ [0#8]) i ⟨p, srcAt t k'⟩ cx = _
        unfold matchExtended
        rw [hb, res_bind_ok, if_pos (by decide)]
        exact matchCall_eval hn hok hs ih hd hr hlo hch hne (by omega) hw' hC hk0 hk' hh hz hx hId
    have hp' : d.expr.noProps = true ∨ ∀ c ∈ decodeAll t, InCtype c := hp.imp (fun h => h d hd) id
    unfold matchRule patternOf
    rw [rd_eq_ok.mpr hr, res_bind_ok, res_bind_ok]
    obtain ⟨cx', st', a1, a2, a3⟩ := matchHere_eval d.expr k hE hn (callC_ok g _ _ _ _) (fun n k k' h hk => callL_le g t _ _ n k k' (callC_callL g _ _ _ _ _ _ _ h) hk) hw hp' r hsem hk cx hP
    refine ⟨cx', st', a1, a2, ?_⟩
    cases r <;> exact a3

end

end Strpp.Pex
