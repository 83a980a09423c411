import Verif.Model.StrJson
import Verif.Spec.Json
import Verif.Proof.StrCase
import Verif.Proof.StrHistory
namespace Strpp.SV
open Spec Arr

/-- The characters of `\uXXXX` -/
def u4Chars (n : Nat) : List UCS4 :=
  [0x5C#32, 0x75#32] ++ [n / 4096 % 16, n / 256 % 16, n / 16 % 16, n % 16].map (fun d => BitVec.ofNat 32 (if d < 10 then 0x30 + d else 0x37 + d))

/-- The characters that represent a character -/
def esc (c : UCS4) : List UCS4 :=
  if c = 0#32 then [0x5C#32, 0x30#32]
  else if c = 0x22#32 then [0x5C#32, 0x22#32]
  else if c = 0x5C#32 then [0x5C#32, 0x5C#32]
  else if c = 0x2F#32 then [0x5C#32, 0x2F#32]
  else if c = 0x08#32 then [0x5C#32, 0x62#32]
  else if c = 0x0C#32 then [0x5C#32, 0x66#32]
  else if c = 0x0A#32 then [0x5C#32, 0x6E#32]
  else if c = 0x0D#32 then [0x5C#32, 0x72#32]
  else if c = 0x09#32 then [0x5C#32, 0x74#32]
  else if c.toNat ≥ 0x20 ∧ c.toNat ≤ 0xFFFF ∧ ¬ (0xD800 ≤ c.toNat ∧ c.toNat < 0xE000) then [c]
  else if c.toNat ≤ 0xFFFF then u4Chars c.toNat
  else u4Chars (0xD800 + c.toNat / 1024 % 1024) ++ u4Chars (0xDC00 + c.toNat % 1024)

theorem hex_entry : ∀ d : Fin 16, hexTable[d.1]? = some (BitVec.ofNat 8 (if d.1 < 10 then 0x30 + d.1 else 0x37 + d.1)) ∧
    utf8Put (BitVec.ofNat 32 (if d.1 < 10 then 0x30 + d.1 else 0x37 + d.1)) = [BitVec.ofNat 8 (if d.1 < 10 then 0x30 + d.1 else 0x37 + d.1)] := by
  decide +kernel

theorem and15 (x : BitVec 16) : (x &&& 0xF#16).toNat = x.toNat % 16 := by
  rw [BitVec.toNat_and]
  exact Nat.and_two_pow_sub_one_eq_mod x.toNat 4

theorem u4_spec (u : BitVec 16) : u4 u = .ok (encodeAll (u4Chars u.toNat)) := by
  unfold u4
  have sh : ∀ k : Nat, (u >>> k).toNat = u.toNat / 2 ^ k := fun k => by rw [BitVec.toNat_ushiftRight, Nat.shiftRight_eq_div_pow]
  rw [and15, and15, and15, and15, sh, sh, sh]
  have g : ∀ n : Nat, rd hexTable (n % 16) = .ok (BitVec.ofNat 8 (if n % 16 < 10 then 0x30 + n % 16 else 0x37 + n % 16)) := by
    intro n
    unfold rd
    rw [(hex_entry ⟨n % 16, by omega⟩).1]
  rw [g, res_bind_ok, g, res_bind_ok, g, res_bind_ok, g, res_bind_ok]
  have p : ∀ n : Nat, utf8Put (BitVec.ofNat 32 (if n % 16 < 10 then 0x30 + n % 16 else 0x37 + n % 16)) =
      [BitVec.ofNat 8 (if n % 16 < 10 then 0x30 + n % 16 else 0x37 + n % 16)] := fun n => (hex_entry ⟨n % 16, by omega⟩).2
  have q1 : utf8Put 0x5C#32 = [0x5C#8] := by decide
  have q2 : utf8Put 0x75#32 = [0x75#8] := by decide
  simp only [u4Chars, encodeAll, List.map_cons, List.map_nil, List.cons_append, List.nil_append, List.flatMap_cons, List.flatMap_nil, p, q1, q2,
    List.append_nil]

theorem surrogate_iff (c : UCS4) (h : c.toNat ≤ 0xFFFF) : utf16IsSurrogate (c.setWidth 16) = decide (0xD800 ≤ c.toNat ∧ c.toNat < 0xE000) := by
  unfold utf16IsSurrogate
  have e : (c.setWidth 16).toNat = c.toNat := by simp; omega
  have key : ∀ u : BitVec 16, ((u &&& 0xF800#16) == 0xD800#16) = decide (0xD800 ≤ u.toNat ∧ u.toNat < 0xE000) := by decide +kernel
  rw [key, e]

theorem escape_spec (c : UCS4) (h : c.toNat ≤ 0xFFFFF) : escape c = .ok (encodeAll (esc c)) := by
  unfold escape esc
  simp only [beq_iff_eq]
  by_cases k0 : c = 0#32
  · subst k0; decide
  rw [if_neg k0, if_neg k0]
  by_cases k1 : c = 0x22#32
  · subst k1; decide
  rw [if_neg k1, if_neg k1]
  by_cases k2 : c = 0x5C#32
  · subst k2; decide
  rw [if_neg k2, if_neg k2]
  by_cases k3 : c = 0x2F#32
  · subst k3; decide
  rw [if_neg k3, if_neg k3]
  by_cases k4 : c = 0x08#32
  · subst k4; decide
  rw [if_neg k4, if_neg k4]
  by_cases k5 : c = 0x0C#32
  · subst k5; decide
  rw [if_neg k5, if_neg k5]
  by_cases k6 : c = 0x0A#32
  · subst k6; decide
  rw [if_neg k6, if_neg k6]
  by_cases k7 : c = 0x0D#32
  · subst k7; decide
  rw [if_neg k7, if_neg k7]
  by_cases k8 : c = 0x09#32
  · subst k8; decide
  rw [if_neg k8, if_neg k8]
  by_cases h1 : c.toNat ≤ 0xFFFF
  · rw [surrogate_iff c h1]
    by_cases h2 : c.toNat ≥ 0x20 ∧ c.toNat ≤ 0xFFFF ∧ ¬ (0xD800 ≤ c.toNat ∧ c.toNat < 0xE000)
    · rw [if_pos h2, if_pos (by simp; omega)]
      simp [encodeAll]
    · rw [if_neg h2, if_neg (by simp; omega), if_pos h1, if_pos h1, u4_spec]
      have e : (c.setWidth 16).toNat = c.toNat := by simp; omega
      rw [e]
  · rw [if_neg (by simp; omega), if_neg (by omega), if_neg (by omega), if_neg h1]
    have ha : (assert (c.toNat ≤ 0xFFFFF) : Res Unit) = .ok () := by simp [Strpp.assert, h]
    rw [ha, res_bind_ok, u4_spec, res_bind_ok, u4_spec, res_bind_ok]
    have a3 : ∀ x : BitVec 32, (x &&& 0x3FF#32).toNat = x.toNat % 1024 := fun x => by
      rw [BitVec.toNat_and]; exact Nat.and_two_pow_sub_one_eq_mod x.toNat 10
    have e1 : (0xD800#16 + ((c >>> 10) &&& 0x3FF#32).setWidth 16).toNat = 0xD800 + c.toNat / 1024 % 1024 := by
      rw [BitVec.toNat_add, BitVec.toNat_setWidth, a3, BitVec.toNat_ushiftRight, Nat.shiftRight_eq_div_pow]
      simp; omega
    have e2 : (0xDC00#16 + (c &&& 0x3FF#32).setWidth 16).toNat = 0xDC00 + c.toNat % 1024 := by
      rw [BitVec.toNat_add, BitVec.toNat_setWidth, a3]
      simp; omega
    rw [e1, e2, encodeAll_append]

theorem esc_cases (c : UCS4) : (c = 0#32 ∧ esc c = [0x5C#32, 0x30#32]) ∨
    (∃ e : UCS4, jsonSimple e.toNat = some c.toNat ∧ e.toNat < 128 ∧ e ≠ 0x75#32 ∧ esc c = [0x5C#32, e]) ∨
    (0x20 ≤ c.toNat ∧ c.toNat ≤ 0xFFFF ∧ c ≠ 0x22#32 ∧ c ≠ 0x5C#32 ∧ esc c = [c]) ∨
    (c.toNat ≤ 0xFFFF ∧ esc c = u4Chars c.toNat) ∨
    (0xFFFF < c.toNat ∧ esc c = u4Chars (0xD800 + c.toNat / 1024 % 1024) ++ u4Chars (0xDC00 + c.toNat % 1024)) := by
  unfold esc
  by_cases k : c = 0#32
  · rw [if_pos k]; exact Or.inl ⟨k, rfl⟩
  rw [if_neg k]
  by_cases k0 : c = 0x22#32
  · subst k0; exact Or.inr (Or.inl ⟨0x22#32, by decide, by decide, by decide, rfl⟩)
  rw [if_neg k0]
  by_cases k1 : c = 0x5C#32
  · subst k1; exact Or.inr (Or.inl ⟨0x5C#32, by decide, by decide, by decide, rfl⟩)
  rw [if_neg k1]
  by_cases k2 : c = 0x2F#32
  · subst k2; exact Or.inr (Or.inl ⟨0x2F#32, by decide, by decide, by decide, rfl⟩)
  rw [if_neg k2]
  by_cases k3 : c = 0x08#32
  · subst k3; exact Or.inr (Or.inl ⟨0x62#32, by decide, by decide, by decide, rfl⟩)
  rw [if_neg k3]
  by_cases k4 : c = 0x0C#32
  · subst k4; exact Or.inr (Or.inl ⟨0x66#32, by decide, by decide, by decide, rfl⟩)
  rw [if_neg k4]
  by_cases k5 : c = 0x0A#32
  · subst k5; exact Or.inr (Or.inl ⟨0x6E#32, by decide, by decide, by decide, rfl⟩)
  rw [if_neg k5]
  by_cases k6 : c = 0x0D#32
  · subst k6; exact Or.inr (Or.inl ⟨0x72#32, by decide, by decide, by decide, rfl⟩)
  rw [if_neg k6]
  by_cases k7 : c = 0x09#32
  · subst k7; exact Or.inr (Or.inl ⟨0x74#32, by decide, by decide, by decide, rfl⟩)
  rw [if_neg k7]
  by_cases h2 : c.toNat ≥ 0x20 ∧ c.toNat ≤ 0xFFFF ∧ ¬ (0xD800 ≤ c.toNat ∧ c.toNat < 0xE000)
  · rw [if_pos h2]; exact Or.inr (Or.inr (Or.inl ⟨h2.1, h2.2.1, k0, k1, rfl⟩))
  rw [if_neg h2]
  by_cases h3 : c.toNat ≤ 0xFFFF
  · rw [if_pos h3]; exact Or.inr (Or.inr (Or.inr (Or.inl ⟨h3, rfl⟩)))
  · rw [if_neg h3]; exact Or.inr (Or.inr (Or.inr (Or.inr ⟨by omega, rfl⟩)))

theorem small_ok {x : UCS4} (hx : x.toNat < 256) : ¬ Reserved x := by
  unfold Reserved
  rintro (h | h)
  · omega
  · rw [h] at hx; revert hx; decide

theorem u4Chars_small (n : Nat) : ∀ x ∈ u4Chars n, x.toNat < 128 := by
  intro x hx
  simp only [u4Chars, List.mem_append, List.mem_map, List.mem_cons, List.not_mem_nil, or_false] at hx
  rcases hx with (rfl | rfl) | ⟨d, hd, rfl⟩
  · decide
  · decide
  · rw [BitVec.toNat_ofNat]
    have : d < 16 := by omega
    split <;> omega

theorem esc_chars (c : UCS4) : ∀ x ∈ esc c, x.toNat < 128 ∨ x = c := by
  rcases esc_cases c with ⟨-, e⟩ | ⟨y, -, hy, -, e⟩ | ⟨-, -, -, -, e⟩ | ⟨-, e⟩ | ⟨-, e⟩
  · rw [e]; intro x hx
    simp only [List.mem_cons, List.not_mem_nil, or_false] at hx
    rcases hx with rfl | rfl <;> exact Or.inl (by decide)
  · rw [e]; intro x hx
    simp only [List.mem_cons, List.not_mem_nil, or_false] at hx
    rcases hx with rfl | rfl
    · exact Or.inl (by decide)
    · exact Or.inl hy
  · rw [e]; intro x hx
    exact Or.inr (List.mem_singleton.mp hx)
  · rw [e]; intro x hx; exact Or.inl (u4Chars_small _ x hx)
  · rw [e]; intro x hx
    rcases List.mem_append.mp hx with hx | hx <;> exact Or.inl (u4Chars_small _ x hx)

theorem esc_good (c : UCS4) (hc : ¬ Reserved c) : ∀ x ∈ esc c, ¬ Reserved x := by
  intro x hx
  rcases esc_chars c x hx with h | rfl
  · exact small_ok (by omega)
  · exact hc

theorem ascii_put (x : UCS4) (h : x.toNat < 128) : (utf8Put x).length = 1 := by
  have key : ∀ n : Fin 128, (utf8Put (BitVec.ofNat 32 n.1)).length = 1 := by decide +kernel
  have := key ⟨x.toNat, h⟩
  simpa using this

theorem ascii_encode (l : List UCS4) (h : ∀ x ∈ l, x.toNat < 128) : (encodeAll l).length = l.length := by
  induction l with
  | nil => rfl
  | cons x l ih =>
    have h1 := ascii_put x (h x (by simp))
    have h2 := ih (fun y hy => h y (by simp [hy]))
    rw [encodeAll_cons, List.length_append, h1, h2, List.length_cons]
    omega

theorem esc_size (c : UCS4) : (encodeAll (esc c)).length ≤ 12 := by
  have hu : ∀ n, (encodeAll (u4Chars n)).length = 6 := fun n => by rw [ascii_encode _ (u4Chars_small n)]; rfl
  rcases esc_cases c with ⟨-, e⟩ | ⟨y, -, hy, -, e⟩ | ⟨-, -, -, -, e⟩ | ⟨-, e⟩ | ⟨-, e⟩
  · rw [e]; decide
  · rw [e, ascii_encode]
    · simp
    · intro x hx
      simp only [List.mem_cons, List.not_mem_nil, or_false] at hx
      rcases hx with rfl | rfl
      · decide
      · exact hy
  · rw [e]
    have := (put_1_6 c).2
    simp [encodeAll]; omega
  · rw [e, hu]; omega
  · rw [e, encodeAll_append, List.length_append, hu, hu]; omega

theorem esc_len (c : UCS4) : 1 ≤ (esc c).length := by
  rcases esc_cases c with ⟨-, e⟩ | ⟨y, -, hy, -, e⟩ | ⟨-, -, -, -, e⟩ | ⟨-, e⟩ | ⟨-, e⟩ <;> rw [e] <;> simp [u4Chars]

/-! ### the closure -/

def jsonF (st : Unit) : List UCS4 → Unit × List UCS4 × Nat
  | [] => (st, [], 0)
  | c :: _ => (st, esc c, 1)

theorem json_behaves {b : SBody} {P : List UCS4} (hb : BDen b P) (hP : ∀ c ∈ P, c.toNat ≤ 0xFFFFF) : BehavesAt (fun _ => True) jsonX jsonF b P := by
  intro st k _ hk
  have hdrop : P.drop k = P[k] :: P.drop (k + 1) := (List.getElem_cons_drop hk).symm
  rw [hdrop]
  have hsz := esc_size P[k]
  have hsb := staticBody_spec (esc P[k]) (esc_good _ (hb.good_at k hk)) (by omega)
  obtain ⟨b', c1, c2, c3, c4⟩ := ofBody_spec hsb
  refine ⟨⟨b', 0, (esc P[k]).length, ⟨0, 0⟩⟩, [], [], ?_, by simp only [jsonF]; omega, Den.whole c2, trivial⟩
  unfold jsonX inOneChar oneChar
  rw [hb.get k hk, res_bind_ok]
  simp only
  rw [escape_spec _ (hP _ (List.getElem_mem hk)), res_bind_ok, if_pos (by omega), res_bind_ok, c1, res_bind_ok]
  rfl

theorem json_transformed (t : List UCS4) : ∀ st, (transformed jsonF st t).2 = t.flatMap esc := by
  induction t with
  | nil => intro st; unfold transformed; simp
  | cons c t ih =>
    intro st
    unfold transformed
    rw [if_neg (by simp)]
    simp only [jsonF, Nat.one_ne_zero, ↓reduceIte, List.drop_succ_cons, List.drop_zero, List.flatMap_cons]
    rw [ih]

theorem json_after (t : List UCS4) (st : Unit) : transformAfter jsonF st 0 t = t.flatMap esc := by
  unfold transformAfter
  rw [List.take_zero, List.nil_append, List.drop_zero, json_transformed]

theorem flat_len (t : List UCS4) : t.length ≤ (t.flatMap esc).length := by
  induction t with
  | nil => simp
  | cons c t ih => have := esc_len c; simp only [List.flatMap_cons, List.length_append, List.length_cons]; omega

theorem toJSON_ok {s : State} (h : Inv s) {v : Nat} {t : List UCS4} (hv : Txt s v t) (hw : Whole s v)
    (ht : ∀ c ∈ t, c.toNat ≤ 0xFFFFF) 
    (hmark : (∀ (x : Var), s.vars[v]? = some (some x) → x.mark.cn = 0 ∨ 3221225472 ≤ x.mark.cn) ∨
      ∀ i ≤ t.length, (encodeAll ((t.flatMap esc).take i)).length = (encodeAll (t.take i)).length)
    {k : Nat} (hr : Roomy s k) (hsz : (encodeAll (t.flatMap esc)).length + 1 + k ≤ 1073741824) :
    ∃ s', toJSON s v = .ok s' ∧ Inv s' ∧ Roomy s' k ∧ s'.vars.length = s.vars.length ∧ Txt s' v (t.flatMap esc) := by
  obtain ⟨s1, u1, u2, u3, u4, y, b, u5, u6, u7⟩ := whole_owned h hv hw hr
  have hden := u5.den.body
  simp only [List.nil_append, List.append_nil] at hden
  have hgood : ∀ c ∈ t.flatMap esc, ¬ Reserved c := by
    intro c hc'
    obtain ⟨d, hd, hd2⟩ := List.mem_flatMap.mp hc'
    exact esc_good d (hv.good d hd) c hd2
  have eq := json_after t ()
  have hwr : wrap (-1 + 1) = 0 := by decide
  obtain ⟨b', t1, t2, t3, t4⟩ := transform_spec _ jsonX jsonF (json_behaves hden ht) () trivial _ u5.rc hden u5.st (-1) 0 hwr
    (by rw [eq]; exact hgood) (by rw [eq]; omega)
  rw [eq] at t2 t3
  have hl := flat_len t
  unfold toJSON
  rw [u1, res_bind_ok, getVar_ok u5.var, res_bind_ok, getStr_ok u5.var u5.body, res_bind_ok]
  unfold SBody.toJSON
  simp only
  rw [t1, res_bind_ok, res_bind_ok]
  obtain ⟨b2, g1, g2, g3⟩ := showAll_spec (σ := ⟨b, y.off, y.num, y.mark⟩) t2
  simp only
  rw [g1, res_bind_ok]
  have hn2 := g2.num
  have hm1 := u5.den.mark
  have hmi := u5.den.markIn
  simp only [List.nil_append, List.append_nil, List.length_nil, Nat.zero_add] at hm1 hmi
  have hmk : MarkOk (t.flatMap esc) y.mark := by
    rcases hm1 with ⟨q1, q2⟩ | q
    · rcases hmark with hmark | hmark
      · obtain ⟨x, b0, pre, post, hx, hb, hd, he⟩ := hv
        have hcap := hd.cap
        have ho := hd.off
        simp only at ho
        have hy0 : y.mark.cn = 0 := by
          rcases hmark x hx with h00 | h00
          · rcases u7 x hx with u7 | u7
            · rw [u7, h00]
            · rw [h00] at u7
              rcases Nat.eq_zero_or_pos x.off with hz | hz
              · rw [u7, hz]; decide
              · rw [wrap_of_neg hz (by omega)] at u7; omega
          · rcases u7 x hx with u7 | u7
            · omega
            · have hmx := hd.mark
              have hxl : x.mark.cn < 4294967296 := by
                rcases hmx with ⟨q, -⟩ | ⟨-, q, -⟩
                · simp only [List.length_append] at q; omega
                · exact q
              unfold wrap at u7; omega
        left
        rw [hy0] at q2 ⊢
        exact ⟨by omega, by simpa using q2⟩
      · left
        refine ⟨by omega, ?_⟩
        exact q2.trans (hmark _ q1).symm
    · exact Or.inr q
  have hd : Den ⟨b2, y.off, (t.flatMap esc).length, y.mark⟩ [] (t.flatMap esc) [] := by
    refine ⟨by simpa using g2, by simpa using u6, rfl, by simpa using hmk, ?_⟩
    rcases hmi with hmi | hmi
    · left; simp only [List.length_nil, Nat.zero_add]; omega
    · right; exact ⟨rfl, hmi.2⟩
  obtain ⟨s2, p1, p2, p3, p4, p5⟩ := put_spec u2 u5 u3 ⟨b2, y.off, (t.flatMap esc).length, y.mark⟩ hd
    (fun _ => rfl) (by rw [g3]; exact t4) (by simp only; omega)
  exact ⟨s2, p1, p2, p3, by rw [p4, u4], p5.txt⟩

/-- what `copy` gives, for use by `asJSON`: shared with the original, or a whole body of its own -/
theorem copy_whole {s : State} (h : Inv s) {w : Nat} {t : List UCS4} (ht : Txt s w t) {k : Nat} (hr : Roomy s k) :
    ∃ s', copy s w = .ok s' ∧ Inv s' ∧ Roomy s' k ∧ s'.vars.length = s.vars.length + 1 ∧ Txt s' s.vars.length t ∧ Whole s' s.vars.length ∧
      ∀ (x : Var), s'.vars[s.vars.length]? = some (some x) → x.mark.cn = 0 ∨ 3221225472 ≤ x.mark.cn := by
  have hwl := ht.lt
  obtain ⟨x, b, pre, post, hx, hb, hd, he⟩ := ht
  have hcap := hd.cap
  have ho := hd.off
  simp only at ho
  unfold copy
  rw [getVar_ok hx, res_bind_ok, getBody_ok hb, res_bind_ok]
  simp only
  obtain ⟨h1, h2, h3, h4, h5⟩ := newVar_txt (x := ⟨x.body, x.off, x.num, ⟨0, 0⟩⟩) h hb (den_nomark hd) he hr
  have hw1 : (newVar s ⟨x.body, x.off, x.num, ⟨0, 0⟩⟩).vars[w]? = some (some x) := by
    simp only [SV.newVar]; rw [List.getElem?_append_left hwl]; exact hx
  have hshare : refCount (newVar s ⟨x.body, x.off, x.num, ⟨0, 0⟩⟩) x.body > 1 := shared_of_two hw1 h5 (by omega) rfl
  split
  · have hb1 : (newVar s ⟨x.body, x.off, x.num, ⟨0, 0⟩⟩).bodies[x.body]? = some b := hb
    obtain ⟨s2, u1, u2, u3, u4, u5⟩ := unshare_spec h1 h5 hb1 (den_nomark hd) he h2
    refine ⟨s2, u1, u2, u3, by rw [u4, h3], ?_⟩
    rcases u5 with ⟨r1, -, -⟩ | ⟨-, x1, b1, r2, r3, r4⟩
    · simp only at r1; omega
    · refine ⟨r2.txt, ?_, ?_⟩
      · intro y c hy hc
        rw [r2.var] at hy; cases hy
        rw [r2.body] at hc; cases hc
        have hbd := r2.den.body
        have hn := r2.den.num
        simp only [List.nil_append, List.append_nil] at hbd
        right
        exact ⟨r4, by rw [den_text hbd]; exact hn.symm⟩
      · intro y hy
        rw [r2.var] at hy; cases hy
        rw [r3]
        rcases Nat.eq_zero_or_pos x.off with hz | hz
        · left; simp only [hz]; decide
        · right
          simp only
          rw [show ((0 : Nat) : Int) = 0 from rfl] 
          unfold wrap
          omega
  · refine ⟨_, rfl, h1, h2, h3, h4, ?_, ?_⟩
    · intro y c hy hc
      rw [h5] at hy; cases hy
      exact Or.inl hshare
    · intro y hy
      rw [h5] at hy; cases hy
      exact Or.inl rfl

theorem asJSON_ok {s : State} (h : Inv s) {w : Nat} {t : List UCS4} (hw : Txt s w t) (ht : ∀ c ∈ t, c.toNat ≤ 0xFFFFF)
    {k : Nat} (hr : Roomy s k) (hsz : (encodeAll (t.flatMap esc)).length + 1 + k ≤ 1073741824) :
    ∃ s', asJSON s w = .ok s' ∧ Inv s' ∧ Roomy s' k ∧ s'.vars.length = s.vars.length + 1 ∧ Txt s' s.vars.length (t.flatMap esc) := by
  obtain ⟨s1, c1, c2, c3, c4, c5, c6, c7⟩ := copy_whole h hw hr
  unfold asJSON
  simp only
  rw [c1, res_bind_ok]
  obtain ⟨s2, d1, d2, d3, d4, d5⟩ := toJSON_ok c2 c5 c6 ht (Or.inl c7) c3 hsz
  exact ⟨s2, d1, d2, d3, by rw [d4, c4], d5⟩

end Strpp.SV
