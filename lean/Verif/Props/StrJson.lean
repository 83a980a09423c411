import Verif.Proof.StrJson
import Verif.Props.StrVal
/-!
C32: `asJSON`, `toJSON`. Vocabulary: Verif/Spec/Json.lean (`jsonString` decodes the text of a JSON string).
-/
namespace Strpp.SV
open Spec Arr

def codes (t : List UCS4) : List Nat := t.map BitVec.toNat

/-- the UTF-16 code units the code writes for a character -/
def units (n : Nat) : List Nat := if n ≤ 0xFFFF then [n] else [0xD800 + n / 1024 % 1024, 0xDC00 + n % 1024]

theorem hex_value : ∀ d : Fin 16, jsonHex (BitVec.ofNat 32 (if d.1 < 10 then 0x30 + d.1 else 0x37 + d.1)).toNat = some d.1 := by decide +kernel

theorem u4_tokens (n : Nat) (hn : n < 65536) (rest : List Nat) : jsonTokens (codes (u4Chars n) ++ rest) = (jsonTokens rest).map (n :: ·) := by
  have g : ∀ m, jsonHex (BitVec.ofNat 32 (if m % 16 < 10 then 0x30 + m % 16 else 0x37 + m % 16)).toNat = some (m % 16) :=
    fun m => hex_value ⟨m % 16, by omega⟩
  simp only [codes, u4Chars, List.map_cons, List.map_nil, List.cons_append, List.nil_append]
  rw [jsonTokens, if_pos (by decide), if_pos (by decide)]
  simp only [g]
  have e : ((n / 4096 % 16 * 16 + n / 256 % 16) * 16 + n / 16 % 16) * 16 + n % 16 = n := by omega
  cases jsonTokens rest with
  | none => rfl
  | some ts => simp [e]

theorem esc_tokens (c : UCS4) (h0 : c ≠ 0#32) (hc : c.toNat ≤ 0xFFFFF) (rest : List Nat) :
    jsonTokens (codes (esc c) ++ rest) = (jsonTokens rest).map (units c.toNat ++ ·) := by
  rcases esc_cases c with ⟨e, -⟩ | ⟨y, hy, hy2, hy3, e⟩ | ⟨h1, h2, h3, h4, e⟩ | ⟨h1, e⟩ | ⟨h1, e⟩
  · exact absurd e h0
  · have hu : units c.toNat = [c.toNat] := by
      unfold units
      rw [if_pos]
      unfold jsonSimple at hy
      repeat' split at hy
      all_goals first | (simp only [Option.some.injEq] at hy; omega) | simp at hy
    rw [e, hu]
    have hne : y.toNat ≠ 0x75 := fun h => hy3 (BitVec.eq_of_toNat_eq h)
    simp only [codes, List.map_cons, List.map_nil, List.cons_append, List.nil_append]
    rw [jsonTokens.eq_def]
    simp only
    rw [if_pos (by decide), if_neg hne, hy]
    cases jsonTokens rest <;> rfl
  · rw [e]
    unfold units
    rw [if_pos h2]
    simp only [codes, List.map_cons, List.map_nil, List.cons_append, List.nil_append]
    have n1 : c.toNat ≠ 0x22 := fun h => h3 (BitVec.eq_of_toNat_eq h)
    have n2 : c.toNat ≠ 0x5C := fun h => h4 (BitVec.eq_of_toNat_eq h)
    rw [jsonTokens.eq_def]
    simp only
    rw [if_neg n2, if_neg (by omega)]
    cases jsonTokens rest <;> rfl
  · rw [e, u4_tokens _ (by omega)]
    unfold units
    rw [if_pos h1]
    rfl
  · rw [e]
    unfold units
    rw [if_neg (by omega)]
    simp only [codes, List.map_append, List.append_assoc]
    have k1 := u4_tokens (0xD800 + c.toNat / 1024 % 1024) (by omega) (codes (u4Chars (0xDC00 + c.toNat % 1024)) ++ rest)
    have k2 := u4_tokens (0xDC00 + c.toNat % 1024) (by omega) rest
    unfold codes at k1 k2
    rw [k1, k2]
    cases jsonTokens rest <;> rfl

theorem all_tokens (t : List UCS4) (h : ∀ c ∈ t, c ≠ 0#32 ∧ c.toNat ≤ 0xFFFFF) :
    jsonTokens (codes (t.flatMap esc)) = some ((codes t).flatMap units) := by
  induction t with
  | nil => rfl
  | cons c t ih =>
    have h1 := h c (by simp)
    have := esc_tokens c h1.1 h1.2 (codes (t.flatMap esc))
    simp only [codes, List.flatMap_cons, List.map_append, List.map_cons] at this ⊢
    rw [this]
    have ih' := ih (fun d hd => h d (by simp [hd]))
    unfold codes at ih'
    rw [ih']
    rfl

/-- What the reader of the JSON gets for a character: characters beyond U+FFFF are moved up by 0x10000. -/
def readBack (n : Nat) : Nat := if n ≤ 0xFFFF then n else n + 0x10000

theorem combine_units : ∀ (l : List Nat), (∀ n ∈ l, n ≤ 0xFFFFF) → NoPair l → jsonCombine (l.flatMap units) = l.map readBack := by
  intro l
  induction l with
  | nil => intro _ _; rfl
  | cons n l ih =>
    intro hb hp
    have ihb := ih (fun m hm => hb m (by simp [hm])) (by
      cases l with
      | nil => trivial
      | cons m l => exact hp.2)
    have hn := hb n (by simp)
    rw [List.flatMap_cons, List.map_cons]
    by_cases h : n ≤ 0xFFFF
    · have eu : units n = [n] := by unfold units; rw [if_pos h]
      have er : readBack n = n := by unfold readBack; rw [if_pos h]
      rw [eu, er]
      cases l with
      | nil => rfl
      | cons m l =>
        have hm := hb m (by simp)
        have hnp : ∀ (u : Nat) (us : List Nat), units m = u :: us → ¬ (IsHigh n ∧ IsLow u) := by
          intro u us hu hx
          unfold units at hu
          split at hu
          · simp only [List.cons.injEq] at hu; rw [← hu.1] at hx; exact hp.1 hx
          · simp only [List.cons.injEq] at hu
            have := hx.2
            unfold IsLow at this
            omega
        obtain ⟨u, us, hu⟩ : ∃ u us, units m = u :: us := by unfold units; split <;> exact ⟨_, _, rfl⟩
        rw [List.flatMap_cons, hu] at ihb ⊢
        simp only [List.cons_append, List.nil_append] at ihb ⊢
        rw [jsonCombine, if_neg (hnp u us hu), ihb]
    · have eu : units n = [0xD800 + n / 1024 % 1024, 0xDC00 + n % 1024] := by unfold units; rw [if_neg h]
      have er : readBack n = n + 0x10000 := by unfold readBack; rw [if_neg h]
      rw [eu, er]
      simp only [List.cons_append, List.nil_append]
      have ev : 0x10000 + (0xD800 + n / 1024 % 1024 - 0xD800) * 1024 + (0xDC00 + n % 1024 - 0xDC00) = n + 0x10000 := by omega
      rw [jsonCombine, if_pos (by unfold IsHigh IsLow; omega), ihb, ev]

theorem decoded (t : List UCS4) (h : ∀ c ∈ t, c ≠ 0#32 ∧ c.toNat ≤ 0xFFFFF) (hp : NoPair (codes t)) :
    jsonString (codes (t.flatMap esc)) = some ((codes t).map readBack) := by
  unfold jsonString
  rw [all_tokens t h]
  simp only [Option.map_some]
  rw [combine_units _ _ hp]
  intro n hn
  obtain ⟨c, hc, rfl⟩ := List.mem_map.mp hn
  exact (h c hc).2

theorem esc_bytes (t : List UCS4) : (encodeAll (t.flatMap esc)).length ≤ 12 * t.length := by
  induction t with
  | nil => simp
  | cons c t ih =>
    have := esc_size c
    simp only [List.flatMap_cons, encodeAll_append, List.length_append, List.length_cons]
    omega

/-- C32 (partial). `asJSON()` of any string without NUL and without characters beyond U+FFFFF gives a string whose text is the
inside of a JSON string; it decodes to the original, except that characters beyond U+FFFF have become others (U+10000 higher).
Missing: the astral characters, NUL, U+100000 and above (`C32_refuted_*`); text in which a high surrogate is directly followed by a
low one (such a text is not valid Unicode). -/
theorem C32_asJSON_partial {s : State} (h : Reached s) {w : Nat} {t : List UCS4} (hv : view s w = some t)
    (ht : ∀ c ∈ t, c ≠ 0#32 ∧ c.toNat ≤ 0xFFFFF) (hp : NoPair (codes t)) (hsz : 12 * t.length < 2 ^ 30) :
    ∃ s' j, asJSON s w = .ok s' ∧ view s' s.vars.length = some j ∧ jsonString (codes j) = some ((codes t).map readBack) := by
  have hb := esc_bytes t
  obtain ⟨s', e, h1, -, -, h2⟩ := asJSON_ok h.inv.1 (h.inv.1.txt hv) (fun c hc => (ht c hc).2) h.inv.2 (by omega)
  exact ⟨s', _, e, h2.view, decoded t ht hp⟩

/-- C32. The original comes back exactly when all characters are of the Basic Multilingual Plane (and not NUL or surrogates). -/
theorem C32_asJSON_bmp {s : State} (h : Reached s) {w : Nat} {t : List UCS4} (hv : view s w = some t)
    (ht : ∀ c ∈ t, c ≠ 0#32 ∧ c.toNat ≤ 0xFFFF ∧ ¬ (0xD800 ≤ c.toNat ∧ c.toNat < 0xE000)) (hsz : 12 * t.length < 2 ^ 30) :
    ∃ s' j, asJSON s w = .ok s' ∧ view s' s.vars.length = some j ∧ jsonString (codes j) = some (codes t) := by
  have hp : ∀ l : List UCS4, (∀ c ∈ l, ¬ (0xD800 ≤ c.toNat ∧ c.toNat < 0xE000)) → NoPair (codes l) := by
    intro l
    induction l with
    | nil => intro _; trivial
    | cons a l ih =>
      intro hl
      cases l with
      | nil => trivial
      | cons b l =>
        refine ⟨fun hx => ?_, ih (fun c hc => hl c (by simp [hc]))⟩
        have h1 := hl a (by simp)
        have h2 := hx.1
        unfold IsHigh at h2
        omega
  obtain ⟨s', j, e, e2, e3⟩ := C32_asJSON_partial h hv (fun c hc => ⟨(ht c hc).1, by have := (ht c hc).2.1; omega⟩)
    (hp t (fun c hc => (ht c hc).2.2)) hsz
  refine ⟨s', j, e, e2, ?_⟩
  rw [e3]
  congr 1
  unfold codes
  rw [List.map_map]
  apply List.map_congr_left
  intro c hc
  simp only [Function.comp, readBack]
  rw [if_pos (ht c hc).2.1]

/-- C32. `toJSON()` in place gives the same text as `asJSON()`, under the conditions under which a transformation in place is right
(C30) and with no bookmark inside the string. -/
theorem C32_toJSON_partial {s : State} (h : Reached s) {v : Nat} {t : List UCS4} (hv : view s v = some t) (hw : Whole s v)
    (hm : ∀ (x : Var), s.vars[v]? = some (some x) → x.mark.cn = 0)
    (ht : ∀ c ∈ t, c ≠ 0#32 ∧ c.toNat ≤ 0xFFFFF) (hp : NoPair (codes t)) (hsz : 12 * t.length < 2 ^ 30) :
    ∃ s' j, toJSON s v = .ok s' ∧ view s' v = some j ∧ jsonString (codes j) = some ((codes t).map readBack) := by
  have hb := esc_bytes t
  obtain ⟨s', e, h1, -, -, h2⟩ := toJSON_ok h.inv.1 (h.inv.1.txt hv) hw (fun c hc => (ht c hc).2) (Or.inl fun x hx => Or.inl (hm x hx)) h.inv.2 (by omega)
  exact ⟨s', _, e, h2.view, decoded t ht hp⟩

/-- the text of `asJSON()` of a string given by its UTF-8 bytes -/
def jsonOf (bytes : List Byte) : Res (Option (List Nat)) := do
  let s ← execAll (S := Unit) State.init [.ofData (bytes ++ [0#8]) bytes.length 0]
  let s ← asJSON s 0
  .ok ((view s 1).map codes)

/-- C32. U+1F600 is written as the surrogate pair of U+2F600. -/
theorem C32_refuted_astral : ∃ j, jsonOf [0xF0#8, 0x9F#8, 0x98#8, 0x80#8] = .ok (some j) ∧ jsonString j = some [0x2F600] :=
  ⟨[0x5C, 0x75, 0x44, 0x38, 0x37, 0x44, 0x5C, 0x75, 0x44, 0x45, 0x30, 0x30], by decide +kernel, by decide +kernel⟩

/-- C32. NUL is written as \0, which is not JSON. -/
theorem C32_refuted_nul : ∃ j, jsonOf [0x61#8, 0#8] = .ok (some j) ∧ jsonString j = none :=
  ⟨[0x61, 0x5C, 0x30], by decide +kernel, by decide +kernel⟩

/-- C32. U+10FFFF, a legal character, aborts on an assertion. -/
theorem C32_refuted_abort : jsonOf [0xF4#8, 0x8F#8, 0xBF#8, 0xBF#8] = .error .assertion := by decide +kernel

/-- Non-vacuity of C32: the characters of `sampleState`'s variable 0, "aéc". -/
example : ∃ s' j, asJSON sampleState 0 = .ok s' ∧ view s' 4 = some j ∧ jsonString (codes j) = some [0x61, 0xE9, 0x63] := by
  refine C32_asJSON_bmp (t := [0x61#32, 0xE9#32, 0x63#32]) sample_reached (by decide +kernel) ?_ (by decide)
  intro c hc
  simp only [List.mem_cons, List.not_mem_nil, or_false] at hc
  rcases hc with rfl | rfl | rfl <;> decide

/-- Escapes of all kinds: a quote, a backslash, U+0001 and a lone surrogate. -/
example : ∃ j, jsonOf [0x22#8, 0x5C#8, 0x01#8, 0xED#8, 0xA0#8, 0x80#8] = .ok (some j) ∧ jsonString j = some [0x22, 0x5C, 1, 0xD800] :=
  ⟨[0x5C, 0x22, 0x5C, 0x5C, 0x5C, 0x75, 0x30, 0x30, 0x30, 0x31, 0x5C, 0x75, 0x44, 0x38, 0x30, 0x30], by decide +kernel, by decide +kernel⟩

end Strpp.SV
