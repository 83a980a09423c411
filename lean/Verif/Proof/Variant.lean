import Verif.Spec.Variant
import Verif.Props.StrJson
namespace Strpp.Var
open Spec SV

@[simp] theorem points_append (a b : List UCS4) : points (a ++ b) = points a ++ points b := by simp [points]
@[simp] theorem points_cons (a : UCS4) (b : List UCS4) : points (a :: b) = a.toNat :: points b := rfl
@[simp] theorem points_nil : points [] = [] := rfl
@[simp] theorem points_length (a : List UCS4) : (points a).length = a.length := by simp [points]

/-! ### white space -/

def Ws (l : List Nat) : Prop := ∀ c ∈ l, isJsonWs c = true

theorem skip_ws {l : List Nat} (h : Ws l) (t : List Nat) : skipJsonWs (l ++ t) = skipJsonWs t := by
  induction l with
  | nil => rfl
  | cons a l ih =>
    have ha := h a (by simp)
    unfold skipJsonWs at *
    rw [List.cons_append, List.dropWhile_cons, if_pos ha]
    exact ih (fun c hc => h c (by simp [hc]))

theorem skip_stop {c : Nat} (h : isJsonWs c = false) (t : List Nat) : skipJsonWs (c :: t) = c :: t := by
  unfold skipJsonWs; rw [List.dropWhile_cons, if_neg (by simp [h])]

/-! ### strings -/

theorem close_plain {c : Nat} (h1 : c ≠ 0x22) (h2 : c ≠ 0x5C) (t a b : List Nat) (h : closeQuote t = some (a, b)) :
    closeQuote (c :: t) = some (c :: a, b) := by
  rw [closeQuote.eq_def]; simp only; rw [if_neg h1, if_neg h2, h]; rfl

theorem close_esc (e : Nat) (t a b : List Nat) (h : closeQuote t = some (a, b)) :
    closeQuote (0x5C :: e :: t) = some (0x5C :: e :: a, b) := by
  rw [closeQuote.eq_def]; simp only; rw [if_neg (by decide), if_pos trivial, h]; rfl

theorem hex_char (d : Nat) (h : d < 16) : (BitVec.ofNat 32 (if d < 10 then 0x30 + d else 0x37 + d)).toNat ≠ 0x22 ∧
    (BitVec.ofNat 32 (if d < 10 then 0x30 + d else 0x37 + d)).toNat ≠ 0x5C := by
  rw [BitVec.toNat_ofNat]; split <;> constructor <;> omega

theorem close_u4 (n : Nat) (t a b : List Nat) (h : closeQuote t = some (a, b)) :
    closeQuote (points (u4Chars n) ++ t) = some (points (u4Chars n) ++ a, b) := by
  simp only [u4Chars, points_append, points_cons, points_nil, List.map_cons, List.map_nil, List.cons_append, List.nil_append]
  have g : ∀ m, m % 16 < 16 := fun m => Nat.mod_lt _ (by decide)
  apply close_esc
  apply close_plain (hex_char _ (g _)).1 (hex_char _ (g _)).2
  apply close_plain (hex_char _ (g _)).1 (hex_char _ (g _)).2
  apply close_plain (hex_char _ (g _)).1 (hex_char _ (g _)).2
  exact close_plain (hex_char _ (g _)).1 (hex_char _ (g _)).2 _ _ _ h

theorem close_char (c : UCS4) (t a b : List Nat) (h : closeQuote t = some (a, b)) :
    closeQuote (points (esc c) ++ t) = some (points (esc c) ++ a, b) := by
  rcases esc_cases c with ⟨-, e⟩ | ⟨y, -, -, -, e⟩ | ⟨-, -, h3, h4, e⟩ | ⟨-, e⟩ | ⟨-, e⟩ <;> rw [e]
  · exact close_esc _ _ _ _ h
  · exact close_esc _ _ _ _ h
  · refine close_plain (fun hc => h3 (BitVec.eq_of_toNat_eq hc)) (fun hc => h4 (BitVec.eq_of_toNat_eq hc)) _ _ _ h
  · exact close_u4 _ _ _ _ h
  · simp only [points_append, List.append_assoc]
    exact close_u4 _ _ _ _ (close_u4 _ _ _ _ h)

theorem close_all (t : List UCS4) (rest : List Nat) :
    closeQuote (points (t.flatMap esc) ++ 0x22 :: rest) = some (points (t.flatMap esc), rest) := by
  induction t with
  | nil => show closeQuote (0x22 :: rest) = some ([], rest); rw [closeQuote.eq_def]; simp
  | cons c t ih =>
    simp only [List.flatMap_cons, points_append, List.append_assoc]
    exact close_char _ _ _ _ ih

theorem plain_nopair : ∀ {l : List UCS4}, Plain l → NoPair (points l) := by
  intro l
  induction l with
  | nil => intro _; trivial
  | cons a l ih =>
    intro hl
    have ih' := ih (fun c hc => hl c (by simp [hc]))
    cases l with
    | nil => trivial
    | cons b l =>
      refine ⟨fun hx => ?_, ih'⟩
      have h1 := (hl a (by simp)).2.2
      have h2 := hx.1
      unfold IsHigh at h2
      omega

theorem plain_decoded {t : List UCS4} (h : Plain t) : jsonString (points (t.flatMap esc)) = some (points t) := by
  have := decoded t (fun c hc => ⟨(h c hc).1, by have := (h c hc).2.1; omega⟩) (plain_nopair h)
  rw [show codes (t.flatMap esc) = points (t.flatMap esc) from rfl] at this
  rw [this]
  congr 1
  rw [show codes t = points t from rfl]
  conv => rhs; rw [← List.map_id (points t)]
  apply List.map_congr_left
  intro n hn
  obtain ⟨c, hc, rfl⟩ := List.mem_map.mp hn
  unfold readBack
  rw [if_pos (h c hc).2.1]; rfl

theorem asJSON_esc {t : List UCS4} (h : ∀ c ∈ t, c.toNat ≤ 0xFFFFF) : asJSON t = .ok (t.flatMap esc) := by
  have hm : ∀ l : List UCS4, (∀ c ∈ l, c.toNat ≤ 0xFFFFF) → l.mapM escape = .ok (l.map fun c => encodeAll (esc c)) := by
    intro l
    induction l with
    | nil => intro _; rfl
    | cons a l ih =>
      intro hl
      rw [List.mapM_cons, escape_spec a (hl a (by simp)), res_bind_ok, ih (fun c hc => hl c (by simp [hc]))]
      rfl
  unfold asJSON
  rw [hm t h, res_bind_ok]
  have e : (t.map fun c => encodeAll (esc c)).flatten = encodeAll (t.flatMap esc) := by
    clear h hm
    induction t with
    | nil => rfl
    | cons a l ih => simp only [List.map_cons, List.flatten_cons, List.flatMap_cons, encodeAll_append, ih]
  rw [e]
  congr 1
  have hg : ∀ x ∈ t.flatMap esc, ¬ Reserved x := by
    intro x hx
    obtain ⟨c, hc, hx⟩ := List.mem_flatMap.mp hx
    refine esc_good c ?_ x hx
    intro hr
    unfold Reserved at hr
    have := h c hc
    rcases hr with hr | rfl
    · omega
    · simp at this
  have := decodeAll_encodeAll (t.flatMap esc) hg []
  simpa [decodeAll_nil] using this

theorem quoted_ok {t : List UCS4} (h : Plain t) : quoted t = .ok ([0x22#32] ++ t.flatMap esc ++ [0x22#32]) := by
  unfold quoted
  rw [asJSON_esc (fun c hc => by have := (h c hc).2.1; omega), res_bind_ok]

theorem string_value {t : List UCS4} (h : Plain t) (n : Nat) (ws : List Nat) (hw : Ws ws) (rest : List Nat) :
    jsonValue (n + 1) (ws ++ points ([0x22#32] ++ t.flatMap esc ++ [0x22#32]) ++ rest) = some (.str (points t), rest) := by
  rw [jsonValue, List.append_assoc, skip_ws hw]
  simp only [points_append, points_cons, points_nil, List.cons_append, List.nil_append, List.append_assoc]
  rw [skip_stop (by decide)]
  simp only
  rw [if_pos (by decide), show (0x22#32 : UCS4).toNat = 0x22 from rfl, close_all]
  simp only [Option.bind_eq_bind, Option.bind_some, plain_decoded h]

/-! ### numbers -/

def NoDig (rest : List Nat) : Prop := ∀ c r, rest = c :: r → isJsonDigit c = false

theorem decimal_digits (n : Nat) : ∀ c ∈ points (decimalNat n), isJsonDigit c = true := by
  induction n using decimalNat.induct with
  | case1 n h =>
    rw [decimalNat, if_pos h]
    intro c hc
    simp only [points_cons, points_nil, List.mem_singleton, BitVec.toNat_ofNat] at hc
    unfold isJsonDigit; simp; omega
  | case2 n h ih =>
    rw [decimalNat, if_neg h]
    intro c hc
    rw [points_append, List.mem_append] at hc
    rcases hc with hc | hc
    · exact ih c hc
    · simp only [points_cons, points_nil, List.mem_singleton, BitVec.toNat_ofNat] at hc
      unfold isJsonDigit; simp; omega

theorem decimal_value (n : Nat) : (points (decimalNat n)).foldl (fun n d => n * 10 + (d - 0x30)) 0 = n := by
  induction n using decimalNat.induct with
  | case1 n h =>
    rw [decimalNat, if_pos h]
    simp only [points_cons, points_nil, BitVec.toNat_ofNat, List.foldl_cons, List.foldl_nil]
    omega
  | case2 n h ih =>
    rw [decimalNat, if_neg h, points_append, List.foldl_append, ih]
    simp only [points_cons, points_nil, BitVec.toNat_ofNat, List.foldl_cons, List.foldl_nil]
    omega

theorem decimal_head (n : Nat) : decimalNat n ≠ [] ∧ (0 < n → (points (decimalNat n)).head? ≠ some 0x30) := by
  induction n using decimalNat.induct with
  | case1 n h =>
    rw [decimalNat, if_pos h]
    refine ⟨by simp, fun h0 => ?_⟩
    simp only [points_cons, List.head?_cons, BitVec.toNat_ofNat, ne_eq, Option.some.injEq]
    omega
  | case2 n h ih =>
    rw [decimalNat, if_neg h]
    refine ⟨by simp, fun _ => ?_⟩
    have h2 := ih.2 (by omega)
    cases hd : decimalNat (n / 10) with
    | nil => exact absurd hd ih.1
    | cons a l => rw [hd] at h2; simpa using h2

theorem decimal_length (k : Nat) : ∀ n, n < 10 ^ (k + 1) → (decimalNat n).length ≤ k + 1 := by
  induction k with
  | zero => intro n h; rw [decimalNat, if_pos (by simpa using h)]; simp
  | succ k ih =>
    intro n h
    rw [decimalNat]
    split
    · simp
    · have : n / 10 < 10 ^ (k + 1) := by rw [Nat.pow_succ] at h; omega
      have := ih _ this
      simp; omega

theorem take_digits {l : List Nat} (h : ∀ c ∈ l, isJsonDigit c = true) {rest : List Nat} (hr : NoDig rest) :
    (l ++ rest).takeWhile isJsonDigit = l ∧ (l ++ rest).dropWhile isJsonDigit = rest := by
  induction l with
  | nil =>
    cases rest with
    | nil => exact ⟨rfl, rfl⟩
    | cons c r =>
      have := hr c r rfl
      simp [List.takeWhile_cons, List.dropWhile_cons, this]
  | cons a l ih =>
    have ih' := ih (fun c hc => h c (by simp [hc]))
    simp [List.takeWhile_cons, List.dropWhile_cons, h a (by simp), ih'.1, ih'.2]

theorem digits_ok (n : Nat) {rest : List Nat} (hr : NoDig rest) : jsonDigits (points (decimalNat n) ++ rest) = some (n, rest) := by
  unfold jsonDigits
  obtain ⟨h1, h2⟩ := take_digits (decimal_digits n) hr
  simp only [h1, h2]
  obtain ⟨h3, h4⟩ := decimal_head n
  rw [if_neg, decimal_value]
  intro hx
  rcases hx with hx | ⟨hx, hy⟩
  · exact h3 (List.map_eq_nil_iff.mp hx)
  · by_cases h0 : 0 < n
    · exact h4 h0 hx
    · have : n = 0 := by omega
      subst this
      rw [decimalNat, if_pos (by decide)] at hy
      simp at hy

/-- all digits of a 64-bit number fit -/
theorem snprintf_all (size : Nat) (hs : 21 ≤ size) (x : Int) (h1 : -2 ^ 63 ≤ x) (h2 : x < 2 ^ 63) :
    snprintf size x = if x < 0 then 0x2D#32 :: decimalNat x.natAbs else decimalNat x.natAbs := by
  unfold snprintf
  have hl := decimal_length 18 x.natAbs (by have : (10 : Nat) ^ (18 + 1) = 10000000000000000000 := by decide
                                            rw [this]; omega)
  apply List.take_of_length_le
  split
  · simp; omega
  · omega

theorem number_value (size : Nat) (hs : 21 ≤ size) (x : Int) (h1 : -2 ^ 63 ≤ x) (h2 : x < 2 ^ 63) (n : Nat) (ws : List Nat) (hw : Ws ws)
    {rest : List Nat} (hr : NoDig rest) : jsonValue (n + 1) (ws ++ points (snprintf size x) ++ rest) = some (.num x, rest) := by
  rw [jsonValue, List.append_assoc, skip_ws hw, snprintf_all size hs x h1 h2]
  by_cases hx : x < 0
  · rw [if_pos hx]
    simp only [points_cons, List.cons_append]
    rw [skip_stop (by decide)]
    simp only
    rw [if_neg (by decide), if_pos (by decide), digits_ok _ hr]
    simp only [Option.map_some]
    congr 3
    omega
  · rw [if_neg hx]
    have hd := decimal_digits x.natAbs
    have hh := digits_ok x.natAbs hr
    cases e : points (decimalNat x.natAbs) with
    | nil => exact absurd (List.map_eq_nil_iff.mp e) (decimal_head _).1
    | cons a l =>
      rw [e] at hd hh
      have ha := hd a (by simp)
      unfold isJsonDigit at ha
      simp only [Bool.and_eq_true, decide_eq_true_eq] at ha
      have hws : isJsonWs a = false := by unfold isJsonWs; simp; omega
      rw [List.cons_append, skip_stop hws]
      simp only
      rw [if_neg (by omega), if_neg (by omega), if_neg (by omega), if_neg (by omega), if_neg (by omega), ← List.cons_append, hh]
      simp only [Option.map_some]
      congr 3
      omega

theorem loInt_range (w : BitVec 64) : -2 ^ 63 ≤ loInt w ∧ loInt w < 2 ^ 63 := by
  unfold loInt
  have h1 := BitVec.le_toInt (w.setWidth 32)
  have h2 := BitVec.toInt_lt (x := w.setWidth 32)
  constructor <;> omega

theorem toInt_range (w : BitVec 64) : -2 ^ 63 ≤ w.toInt ∧ w.toInt < 2 ^ 63 := by
  have h1 := BitVec.le_toInt w
  have h2 := BitVec.toInt_lt (x := w)
  constructor <;> omega

/-! ### separators -/

/-- a comma and white space -/
def Sep (sep : List UCS4) : Prop := ∃ r, sep = 0x2C#32 :: r ∧ Ws (points r)

theorem times_ws (n : Int) : Ws (points (times [0x20#32, 0x20#32] n)) := by
  intro c hc
  obtain ⟨x, hx, rfl⟩ := List.mem_map.mp hc
  unfold times at hx
  obtain ⟨l, hl, hx⟩ := List.mem_flatten.mp hx
  obtain ⟨-, rfl⟩ := List.mem_replicate.mp hl
  simp only [List.mem_cons, List.not_mem_nil, or_false, or_self] at hx
  subst hx; decide

theorem separator_ok (indent : Int) : Sep (separator indent).1 := by
  unfold separator
  split
  · exact ⟨[], rfl, by intro c hc; simp at hc⟩
  · split
    · exact ⟨_, rfl, by intro c hc; simp at hc; subst hc; decide⟩
    · refine ⟨0x0A#32 :: times [0x20#32, 0x20#32] (indent + 1), rfl, ?_⟩
      intro c hc
      rw [points_cons, List.mem_cons] at hc
      rcases hc with rfl | hc
      · decide
      · exact times_ws _ c hc

theorem substr1_ws {sep : List UCS4} (h : Sep sep) : Ws (points (substr1 sep)) := by
  obtain ⟨r, rfl, hr⟩ := h; exact hr

theorem shorter_ws {t : List UCS4} (h : Ws (points t)) (n : Nat) : Ws (points (shorter t n)) := by
  unfold shorter
  simp only
  split
  · intro c hc; simp at hc
  · split
    · exact h
    · intro c hc
      obtain ⟨x, hx, rfl⟩ := List.mem_map.mp hc
      exact h _ (List.mem_map_of_mem (List.mem_of_mem_take hx))

/-! ### composites -/

/-- The text starts with something that is neither white space nor a closing bracket. -/
def Starts (j : List UCS4) : Prop := ∃ c r, j = c :: r ∧ isJsonWs c.toNat = false ∧ c.toNat ≠ 0x5D ∧ c.toNat ≠ 0x7D

/-- wherever it stands, the text is read as the value -/
def Reads (j : List UCS4) (v : JVal) : Prop :=
  Starts j ∧ ∀ (n : Nat) (ws rest : List Nat), Ws ws → NoDig rest → 2 * j.length ≤ n → jsonValue n (ws ++ points j ++ rest) = some (v, rest)

theorem reads_string {t : List UCS4} (h : Plain t) : Reads ([0x22#32] ++ t.flatMap esc ++ [0x22#32]) (.str (points t)) := by
  refine ⟨⟨0x22#32, _, rfl, by decide, by decide, by decide⟩, fun n ws rest hw _ hn => ?_⟩
  obtain ⟨m, rfl⟩ : ∃ m, n = m + 1 := ⟨n - 1, by simp at hn; omega⟩
  exact string_value h m ws hw rest

theorem reads_number (size : Nat) (hs : 21 ≤ size) (x : Int) (h : -2 ^ 63 ≤ x ∧ x < 2 ^ 63) : Reads (snprintf size x) (.num x) := by
  have hst : Starts (snprintf size x) := by
    rw [snprintf_all size hs x h.1 h.2]
    split
    · exact ⟨_, _, rfl, by decide, by decide, by decide⟩
    · cases e : decimalNat x.natAbs with
      | nil => exact absurd e (decimal_head _).1
      | cons a l =>
        have ha := decimal_digits x.natAbs a.toNat (by rw [e]; simp)
        unfold isJsonDigit at ha
        simp only [Bool.and_eq_true, decide_eq_true_eq] at ha
        exact ⟨a, l, rfl, by unfold isJsonWs; simp; omega, by omega, by omega⟩
  refine ⟨hst, fun n ws rest hw hr hn => ?_⟩
  obtain ⟨c, r, e, -⟩ := hst
  obtain ⟨m, rfl⟩ : ∃ m, n = m + 1 := ⟨n - 1, by rw [e] at hn; simp at hn; omega⟩
  exact number_value size hs x h.1 h.2 m ws hw hr

theorem nodig_cons {c : Nat} (h : isJsonDigit c = false) (r : List Nat) : NoDig (c :: r) := by
  intro c' r' e; cases e; exact h

theorem nodig_ws {ws : List Nat} (h : Ws ws) {c : Nat} (hc : isJsonDigit c = false) (r : List Nat) : NoDig (ws ++ c :: r) := by
  cases ws with
  | nil => exact nodig_cons hc r
  | cons a l =>
    refine nodig_cons ?_ _
    have := h a (by simp)
    unfold isJsonWs at this
    simp only [Bool.or_eq_true, beq_iff_eq] at this
    unfold isJsonDigit
    simp; omega

/-- a sequence of elements up to the closing bracket -/
def ReadsAll (j : List UCS4) (vs : List JVal) : Prop :=
  Starts j ∧ ∀ (n : Nat) (ws w2 rest : List Nat), Ws ws → Ws w2 → 2 * j.length + 1 ≤ n →
    jsonElements n (ws ++ points j ++ (w2 ++ 0x5D :: rest)) = some (vs, rest)

theorem all_one {j : List UCS4} {v : JVal} (h : Reads j v) : ReadsAll j [v] := by
  refine ⟨h.1, fun n ws w2 rest hw hw2 hn => ?_⟩
  obtain ⟨m, rfl⟩ : ∃ m, n = m + 1 := ⟨n - 1, by omega⟩
  rw [jsonElements, h.2 m ws (w2 ++ 0x5D :: rest) hw (nodig_ws hw2 (by decide) _) (by omega)]
  simp only [Option.bind_eq_bind, Option.bind_some]
  rw [skip_ws hw2, skip_stop (by decide)]
  rfl

theorem all_cons {j j' sep : List UCS4} {v : JVal} {vs : List JVal} (h : Reads j v) (hs : Sep sep) (h' : ReadsAll j' vs) :
    ReadsAll (j ++ (sep ++ j')) (v :: vs) := by
  obtain ⟨r, rfl, hr⟩ := hs
  refine ⟨?_, fun n ws w2 rest hw hw2 hn => ?_⟩
  · obtain ⟨c, l, rfl, h1⟩ := h.1
    exact ⟨c, _, rfl, h1⟩
  · simp only [List.length_append, List.length_cons] at hn
    obtain ⟨m, rfl⟩ : ∃ m, n = m + 1 := ⟨n - 1, by omega⟩
    have e : ws ++ points (j ++ (0x2C#32 :: r ++ j')) ++ (w2 ++ 0x5D :: rest) =
        ws ++ points j ++ (0x2C :: (points r ++ points j' ++ (w2 ++ 0x5D :: rest))) := by simp
    rw [e, jsonElements, h.2 m ws _ hw (nodig_cons (by decide) _) (by omega)]
    simp only [Option.bind_eq_bind, Option.bind_some]
    rw [skip_stop (by decide)]
    simp only
    rw [h'.2 m (points r) w2 rest hr hw2 (by omega)]
    rfl

/-- a sequence of members up to the closing brace -/
def ReadsPairs (j : List UCS4) (ms : List (List Nat × JVal)) : Prop :=
  Starts j ∧ ∀ (n : Nat) (ws w2 rest : List Nat), Ws ws → Ws w2 → 2 * j.length + 1 ≤ n →
    jsonPairs n (ws ++ points j ++ (w2 ++ 0x7D :: rest)) = some (ms, rest)

/-- a colon and white space -/
def Colon (colon : List UCS4) : Prop := ∃ r, colon = 0x3A#32 :: r ∧ Ws (points r)

theorem pair_step {k colon j : List UCS4} {v : JVal} (hk : Plain k) (hc : Colon colon) (h : Reads j v) (m : Nat) (hm : 2 * j.length ≤ m)
    (ws : List Nat) (hw : Ws ws) (rest : List Nat) (hr : NoDig rest) :
    jsonPairs (m + 1) (ws ++ points ([0x22#32] ++ k.flatMap esc ++ [0x22#32] ++ colon ++ j) ++ rest) =
      match skipJsonWs rest with
      | 0x2C :: r => (jsonPairs m r).map fun ms => ((points k, v) :: ms.1, ms.2)
      | 0x7D :: r => some ([(points k, v)], r)
      | _ => none := by
  obtain ⟨r, rfl, hr2⟩ := hc
  have e : ws ++ points ([0x22#32] ++ k.flatMap esc ++ [0x22#32] ++ (0x3A#32 :: r) ++ j) ++ rest =
      ws ++ (0x22 :: (points (k.flatMap esc) ++ 0x22 :: (0x3A :: (points r ++ points j ++ rest)))) := by simp
  rw [e, jsonPairs, skip_ws hw, skip_stop (by decide)]
  simp only
  rw [close_all]
  simp only [Option.bind_eq_bind, Option.bind_some, plain_decoded hk]
  rw [skip_stop (by decide)]
  simp only
  rw [h.2 m (points r) rest hr2 hr hm]
  rfl

theorem pairs_one {k colon j : List UCS4} {v : JVal} (hk : Plain k) (hc : Colon colon) (h : Reads j v) :
    ReadsPairs ([0x22#32] ++ k.flatMap esc ++ [0x22#32] ++ colon ++ j) [(points k, v)] := by
  refine ⟨⟨0x22#32, _, rfl, by decide, by decide, by decide⟩, fun n ws w2 rest hw hw2 hn => ?_⟩
  obtain ⟨m, rfl⟩ : ∃ m, n = m + 1 := ⟨n - 1, by omega⟩
  rw [pair_step hk hc h m (by simp at hn; omega) ws hw _ (nodig_ws hw2 (by decide) _), skip_ws hw2, skip_stop (by decide)]
  rfl

theorem pairs_cons {k colon j j' sep : List UCS4} {v : JVal} {ms : List (List Nat × JVal)} (hk : Plain k) (hc : Colon colon) (h : Reads j v)
    (hs : Sep sep) (h' : ReadsPairs j' ms) :
    ReadsPairs ([0x22#32] ++ k.flatMap esc ++ [0x22#32] ++ colon ++ j ++ (sep ++ j')) ((points k, v) :: ms) := by
  refine ⟨⟨0x22#32, _, rfl, by decide, by decide, by decide⟩, fun n ws w2 rest hw hw2 hn => ?_⟩
  obtain ⟨m, rfl⟩ : ∃ m, n = m + 1 := ⟨n - 1, by omega⟩
  obtain ⟨r, rfl, hr⟩ := hs
  have e : ws ++ points ([0x22#32] ++ k.flatMap esc ++ [0x22#32] ++ colon ++ j ++ (0x2C#32 :: r ++ j')) ++ (w2 ++ 0x7D :: rest) =
      ws ++ points ([0x22#32] ++ k.flatMap esc ++ [0x22#32] ++ colon ++ j) ++ (0x2C :: (points r ++ points j' ++ (w2 ++ 0x7D :: rest))) := by simp
  rw [e, pair_step hk hc h m (by simp at hn; omega) ws hw _ (nodig_cons (by decide) _), skip_stop (by decide)]
  simp only
  rw [h'.2 m (points r) w2 rest hr hw2 (by simp at hn; omega)]
  rfl

theorem array_reads {sep j close : List UCS4} {vs : List JVal} (hs : Sep sep) (hw2 : Ws (points close)) (h : ReadsAll j vs) :
    Reads ([0x5B#32] ++ substr1 sep ++ j ++ close ++ [0x5D#32]) (.arr vs) := by
  refine ⟨⟨0x5B#32, _, rfl, by decide, by decide, by decide⟩, fun n ws rest hw _ hn => ?_⟩
  obtain ⟨m, rfl⟩ : ∃ m, n = m + 1 := ⟨n - 1, by simp at hn; omega⟩
  have e : ws ++ points ([0x5B#32] ++ substr1 sep ++ j ++ close ++ [0x5D#32]) ++ rest =
      ws ++ (0x5B :: (points (substr1 sep) ++ (points j ++ (points close ++ 0x5D :: rest)))) := by simp
  rw [e, jsonValue, skip_ws hw, skip_stop (by decide)]
  simp only
  rw [if_neg (by decide), if_neg (by decide), if_pos trivial, skip_ws (substr1_ws hs)]
  have h2 := h.2 m [] (points close) rest (by intro c hc; simp at hc) hw2 (by simp at hn; omega)
  obtain ⟨c, r, rfl, s1, s2, s3⟩ := h.1
  simp only [points_cons, List.cons_append, List.nil_append] at h2 ⊢
  rw [skip_stop s1]
  split
  · rename_i heq; simp only [List.cons.injEq] at heq; exact absurd heq.1 s2
  · rw [h2]; rfl

theorem empty_array {sep close : List UCS4} (hs : Sep sep) (hw2 : Ws (points close)) :
    Reads ([0x5B#32] ++ substr1 sep ++ [] ++ close ++ [0x5D#32]) (.arr []) := by
  refine ⟨⟨0x5B#32, _, rfl, by decide, by decide, by decide⟩, fun n ws rest hw _ hn => ?_⟩
  obtain ⟨m, rfl⟩ : ∃ m, n = m + 1 := ⟨n - 1, by simp at hn; omega⟩
  have e : ws ++ points ([0x5B#32] ++ substr1 sep ++ [] ++ close ++ [0x5D#32]) ++ rest =
      ws ++ (0x5B :: (points (substr1 sep) ++ (points close ++ 0x5D :: rest))) := by simp
  rw [e, jsonValue, skip_ws hw, skip_stop (by decide)]
  simp only
  rw [if_neg (by decide), if_neg (by decide), if_pos trivial, skip_ws (substr1_ws hs), skip_ws hw2, skip_stop (by decide)]
  rfl

theorem object_reads {sep j close : List UCS4} {ms : List (List Nat × JVal)} (hs : Sep sep) (hw2 : Ws (points close)) (h : ReadsPairs j ms) :
    Reads ([0x7B#32] ++ substr1 sep ++ j ++ close ++ [0x7D#32]) (.obj ms) := by
  refine ⟨⟨0x7B#32, _, rfl, by decide, by decide, by decide⟩, fun n ws rest hw _ hn => ?_⟩
  obtain ⟨m, rfl⟩ : ∃ m, n = m + 1 := ⟨n - 1, by simp at hn; omega⟩
  have e : ws ++ points ([0x7B#32] ++ substr1 sep ++ j ++ close ++ [0x7D#32]) ++ rest =
      ws ++ (0x7B :: (points (substr1 sep) ++ (points j ++ (points close ++ 0x7D :: rest)))) := by simp
  rw [e, jsonValue, skip_ws hw, skip_stop (by decide)]
  simp only
  rw [if_neg (by decide), if_neg (by decide), if_neg (by decide), if_pos trivial, skip_ws (substr1_ws hs)]
  have h2 := h.2 m [] (points close) rest (by intro c hc; simp at hc) hw2 (by simp at hn; omega)
  obtain ⟨c, r, rfl, s1, s2, s3⟩ := h.1
  simp only [points_cons, List.cons_append, List.nil_append] at h2 ⊢
  rw [skip_stop s1]
  split
  · rename_i heq; simp only [List.cons.injEq] at heq; exact absurd heq.1 s3
  · rw [h2]; rfl

theorem empty_object {sep close : List UCS4} (hs : Sep sep) (hw2 : Ws (points close)) :
    Reads ([0x7B#32] ++ substr1 sep ++ [] ++ close ++ [0x7D#32]) (.obj []) := by
  refine ⟨⟨0x7B#32, _, rfl, by decide, by decide, by decide⟩, fun n ws rest hw _ hn => ?_⟩
  obtain ⟨m, rfl⟩ : ∃ m, n = m + 1 := ⟨n - 1, by simp at hn; omega⟩
  have e : ws ++ points ([0x7B#32] ++ substr1 sep ++ [] ++ close ++ [0x7D#32]) ++ rest =
      ws ++ (0x7B :: (points (substr1 sep) ++ (points close ++ 0x7D :: rest))) := by simp
  rw [e, jsonValue, skip_ws hw, skip_stop (by decide)]
  simp only
  rw [if_neg (by decide), if_neg (by decide), if_neg (by decide), if_pos trivial, skip_ws (substr1_ws hs), skip_ws hw2, skip_stop (by decide)]
  rfl

theorem null_reads : Reads [0x6E#32, 0x75#32, 0x6C#32, 0x6C#32] .null := by
  refine ⟨⟨0x6E#32, _, rfl, by decide, by decide, by decide⟩, fun n ws rest hw _ hn => ?_⟩
  obtain ⟨m, rfl⟩ : ∃ m, n = m + 1 := ⟨n - 1, by simp at hn; omega⟩
  rw [List.append_assoc, jsonValue, skip_ws hw]
  simp only [points_cons, points_nil, List.cons_append, List.nil_append]
  rw [skip_stop (by decide)]
  simp only
  rw [if_neg (by decide), if_neg (by decide), if_neg (by decide), if_neg (by decide), if_pos (by decide)]
  rfl

theorem strings_reads (sep : List UCS4) (hs : Sep sep) : ∀ (a : List (List UCS4)) (t : List UCS4) (i : Nat), (∀ x ∈ t :: a, Plain x) →
    ∃ j, stringItems sep i (t :: a) = .ok ((if i > 0 then sep else []) ++ j) ∧ ReadsAll j ((t :: a).map fun t => .str (points t)) := by
  intro a
  induction a with
  | nil =>
    intro t i h
    refine ⟨_, ?_, all_one (reads_string (h t (by simp)))⟩
    simp only [stringItems, quoted_ok (h t (by simp)), res_bind_ok]
    simp
  | cons t' a ih =>
    intro t i h
    obtain ⟨j', e, hj⟩ := ih t' (i + 1) (fun x hx => h x (List.mem_cons_of_mem _ hx))
    refine ⟨_, ?_, all_cons (reads_string (h t (by simp))) hs hj⟩
    rw [stringItems, quoted_ok (h t (by simp)), res_bind_ok, e, res_bind_ok, if_pos (Nat.succ_pos i)]
    simp only [List.append_assoc]

mutual
theorem json_reads (indent : Int) : ∀ (v : Variant), AllPlain v → ∃ j, asJson indent v = .ok j ∧ Reads j (denote v)
  | .none, _ => ⟨_, rfl, null_reads⟩
  | .integer w, _ => ⟨_, rfl, reads_number 22 (by decide) _ (loInt_range w)⟩
  | .long w, _ => ⟨_, rfl, reads_number 22 (by decide) _ (toInt_range w)⟩
  | .longLong w, _ => ⟨_, rfl, reads_number 22 (by decide) _ (toInt_range w)⟩
  | .string t, h => ⟨_, by rw [asJson, quoted_ok (by simpa [AllPlain] using h)], by
      rw [denote]; exact reads_string (by simpa [AllPlain] using h)⟩
  | .strArray [], _ => ⟨_, rfl, empty_array (separator_ok indent) (shorter_ws (substr1_ws (separator_ok indent)) 2)⟩
  | .strArray (t :: a), h => by
      rw [AllPlain] at h
      obtain ⟨j, e, hj⟩ := strings_reads _ (separator_ok indent) a t 0 h
      refine ⟨_, ?_, array_reads (separator_ok indent) (shorter_ws (substr1_ws (separator_ok indent)) 2) hj⟩
      rw [asJson]
      simp only [e, res_bind_ok]
      simp
  | .varArray a, h => by
      rw [AllPlain] at h
      have hi := items_reads _ (separator_ok indent) (separator indent).2 0 a h
      cases a with
      | nil => exact ⟨_, rfl, empty_array (separator_ok indent) (shorter_ws (substr1_ws (separator_ok indent)) 2)⟩
      | cons v a =>
        obtain ⟨j, e, hj⟩ := hi (by simp)
        rw [denote]
        refine ⟨_, ?_, array_reads (separator_ok indent) (shorter_ws (substr1_ws (separator_ok indent)) 2) hj⟩
        rw [asJson]
        simp only [e, res_bind_ok]
        simp
  | .strVarMap m, h => by
      rw [AllPlain] at h
      have hc : Colon (if indent = -2 then [0x3A#32] else [0x3A#32, 0x20#32]) := by
        split
        · exact ⟨[], rfl, by intro c hc; simp at hc⟩
        · exact ⟨_, rfl, by intro c hc; simp at hc; subst hc; decide⟩
      have hi := members_reads _ (separator_ok indent) _ hc (separator indent).2 0 m h
      cases m with
      | nil => exact ⟨_, rfl, empty_object (separator_ok indent) (shorter_ws (substr1_ws (separator_ok indent)) 2)⟩
      | cons p m =>
        obtain ⟨j, e, hj⟩ := hi (by simp)
        rw [denote]
        refine ⟨_, ?_, object_reads (separator_ok indent) (shorter_ws (substr1_ws (separator_ok indent)) 2) hj⟩
        rw [asJson]
        simp only [e, res_bind_ok]
        simp

theorem items_reads (sep : List UCS4) (hs : Sep sep) (indent : Int) (i : Nat) : ∀ (vs : List Variant), AllPlainL vs → vs ≠ [] →
    ∃ j, jsonItems sep indent i vs = .ok ((if i > 0 then sep else []) ++ j) ∧ ReadsAll j (denoteAll vs)
  | [], _, hne => absurd rfl hne
  | v :: vs, h, _ => by
      rw [AllPlainL] at h
      obtain ⟨j, e, hj⟩ := json_reads indent v h.1
      have ih := items_reads sep hs indent (i + 1) vs h.2
      cases vs with
      | nil =>
        refine ⟨j, ?_, ?_⟩
        · rw [jsonItems, e, res_bind_ok, jsonItems, res_bind_ok, List.append_nil]
        · rw [denoteAll, denoteAll]; exact all_one hj
      | cons v' vs =>
        obtain ⟨j', e', hj'⟩ := ih (by simp)
        refine ⟨j ++ (sep ++ j'), ?_, ?_⟩
        · rw [jsonItems, e, res_bind_ok, e', res_bind_ok, if_pos (Nat.succ_pos i)]
          simp only [List.append_assoc]
        · rw [denoteAll]; exact all_cons hj hs hj'

theorem members_reads (sep : List UCS4) (hs : Sep sep) (colon : List UCS4) (hc : Colon colon) (indent : Int) (i : Nat) :
    ∀ (ms : List (List UCS4 × Variant)), AllPlainM ms → ms ≠ [] →
    ∃ j, jsonMembers sep colon indent i ms = .ok ((if i > 0 then sep else []) ++ j) ∧ ReadsPairs j (denoteMap ms)
  | [], _, hne => absurd rfl hne
  | (k, v) :: ms, h, _ => by
      rw [AllPlainM] at h
      obtain ⟨j, e, hj⟩ := json_reads indent v h.2.1
      have ih := members_reads sep hs colon hc indent (i + 1) ms h.2.2
      cases ms with
      | nil =>
        refine ⟨[0x22#32] ++ k.flatMap esc ++ [0x22#32] ++ colon ++ j, ?_, ?_⟩
        rotate_left
        · rw [denoteMap, denoteMap]; exact pairs_one h.1 hc hj
        · rw [jsonMembers, quoted_ok h.1, res_bind_ok, e, res_bind_ok, jsonMembers, res_bind_ok, List.append_nil]
          simp only [List.append_assoc]
      | cons p ms =>
        obtain ⟨j', e', hj'⟩ := ih (by simp)
        refine ⟨[0x22#32] ++ k.flatMap esc ++ [0x22#32] ++ colon ++ j ++ (sep ++ j'), ?_, ?_⟩
        rotate_left
        · rw [denoteMap]; exact pairs_cons h.1 hc hj hs hj'
        · rw [jsonMembers, quoted_ok h.1, res_bind_ok, e, res_bind_ok, e', res_bind_ok, if_pos (Nat.succ_pos i)]
          simp only [List.append_assoc]
end

end Strpp.Var
