import Verif.Proof.StrOwn
import Verif.Spec.StrVal
namespace Strpp.SV

open Spec Arr

/-! ### bytes are ordered as characters -/

theorem diff_split {α : Type} [DecidableEq α] : ∀ (x y : List α), (∃ r, y = x ++ r) ∨ (∃ a r, x = y ++ a :: r) ∨
    ∃ q a ra b rb, x = q ++ a :: ra ∧ y = q ++ b :: rb ∧ a ≠ b
  | [], y => Or.inl ⟨y, rfl⟩
  | a :: x, [] => Or.inr (Or.inl ⟨a, x, rfl⟩)
  | a :: x, b :: y => by
    by_cases h : a = b
    · subst h
      rcases diff_split x y with ⟨r, hr⟩ | ⟨c, r, hr⟩ | ⟨q, c, rc, d, rd, h1, h2, h3⟩
      · exact Or.inl ⟨r, by rw [hr]; rfl⟩
      · exact Or.inr (Or.inl ⟨c, r, by rw [hr]; rfl⟩)
      · exact Or.inr (Or.inr ⟨a :: q, c, rc, d, rd, by rw [h1]; rfl, by rw [h2]; rfl, h3⟩)
    · exact Or.inr (Or.inr ⟨[], a, x, b, y, rfl, rfl, h⟩)

theorem put_prefix (c d : UCS4) (hc : ¬ Reserved c) (hd : ¬ Reserved d) (r : List Byte) (h : utf8Put d = utf8Put c ++ r) : c = d := by
  have h1 := (C02_utf8_shape c hc).1 r
  have h2 := (C02_utf8_shape d hd).1 []
  rw [List.append_nil, h, h1] at h2
  simp only [Option.some.injEq, Prod.mk.injEq] at h2
  exact h2.1

theorem put_value (c : UCS4) (h : ¬ Reserved c) : ∃ b ds v, utf8Put c = b :: ds ∧ leadInfo b = some (ds.length, v) ∧
    (∀ e ∈ ds, isCont e = true) ∧ c.toNat = contValue v ds := by
  obtain ⟨h1, b, ds, v, h2, h3, h4⟩ := C02_utf8_shape c h
  refine ⟨b, ds, v, h2, h3, h4, ?_⟩
  have hb := leadInfo_bound b _ v h3
  have hcv := contValue_bound ds v h4
  have h5 := h1 []
  rw [List.append_nil, h2] at h5
  simp only [decode1, h3, List.take_length, true_and] at h5
  rw [if_pos (by rw [List.all_eq_true]; exact h4)] at h5
  simp only [Option.some.injEq, Prod.mk.injEq] at h5
  rw [← h5.1, BitVec.toNat_ofNat, Nat.mod_eq_of_lt (Nat.lt_of_lt_of_le hcv.2 hb.2.2)]

theorem contValue_append (v : Nat) (q r : List Byte) : contValue v (q ++ r) = contValue (contValue v q) r := by
  unfold contValue; rw [List.foldl_append]

theorem contValue_lt (v w : Nat) (cs ds : List Byte) (hl : cs.length = ds.length) (hc : ∀ c ∈ cs, isCont c = true)
    (hd : ∀ c ∈ ds, isCont c = true) (h : v < w) : contValue v cs < contValue w ds := by
  have h1 := (contValue_bound cs v hc).2
  have h2 := (contValue_bound ds w hd).1
  have h3 : (v + 1) * 64 ^ cs.length ≤ w * 64 ^ ds.length := by rw [hl]; exact Nat.mul_le_mul_right _ h
  omega

theorem leadInfo_mono (a b : Byte) (n v m w : Nat) (ha : leadInfo a = some (n, v)) (hb : leadInfo b = some (m, w)) (h : a.toNat < b.toNat) :
    n < m ∨ (n = m ∧ v < w) := by
  have := a.isLt
  have := b.isLt
  unfold leadInfo at ha hb
  (repeat' split at ha) <;> simp only [Option.some.injEq, Prod.mk.injEq, reduceCtorEq] at ha <;>
    ((repeat' split at hb) <;> simp only [Option.some.injEq, Prod.mk.injEq, reduceCtorEq] at hb <;> omega)

/-- the first different byte decides as the characters do -/
theorem put_order_aux (c d : UCS4) (hc : ¬ Reserved c) (hd : ¬ Reserved d) (q ra rb : List Byte) (a b : Byte)
    (h1 : utf8Put c = q ++ a :: ra) (h2 : utf8Put d = q ++ b :: rb) (hab : a.toNat < b.toNat) : c.toNat < d.toNat := by
  obtain ⟨l, cs, v, p1, p2, p3, p4⟩ := put_value c hc
  obtain ⟨m, ds, w, r1, r2, r3, r4⟩ := put_value d hd
  have hlc := C02_utf8_len_value c hc
  have hld := C02_utf8_len_value d hd
  rw [← put_length, p1] at hlc
  rw [← put_length, r1] at hld
  simp only [List.length_cons] at hlc hld
  cases q with
  | nil =>
    rw [p1] at h1
    rw [r1] at h2
    simp only [List.nil_append, List.cons.injEq] at h1 h2
    rw [h1.1] at p2
    rw [h2.1] at r2
    rcases leadInfo_mono a b _ _ _ _ p2 r2 hab with hn | ⟨hn, hv⟩
    · rcases Nat.lt_or_ge c.toNat d.toNat with hh | hh
      · exact hh
      · exfalso
        rw [show ds.length + 1 = ds.length + 1 from rfl] at hld
        (repeat' split at hlc) <;> (repeat' split at hld) <;> omega
    · rw [p4, r4]
      exact contValue_lt v w cs ds hn p3 r3 hv
  | cons x q =>
    rw [p1] at h1
    rw [r1] at h2
    simp only [List.cons_append, List.cons.injEq] at h1 h2
    obtain ⟨e1, e2⟩ := h1
    obtain ⟨e3, e4⟩ := h2
    subst e1; subst e3
    rw [p2] at r2
    simp only [Option.some.injEq, Prod.mk.injEq] at r2
    obtain ⟨e5, e6⟩ := r2
    subst e6
    rw [p4, r4, e2, e4, contValue_append, contValue_append]
    rw [e2, e4] at e5
    simp only [List.length_append, List.length_cons] at e5
    have ca := p3 a (by rw [e2]; simp)
    have cb := r3 b (by rw [e4]; simp)
    simp only [isCont, Bool.and_eq_true, decide_eq_true_eq] at ca cb
    have : ∀ (z : Nat) (y : Byte) (l : List Byte), contValue z (y :: l) = contValue (z * 64 + (y.toNat - 128)) l := by
      intro z y l; unfold contValue; rw [List.foldl_cons]
    rw [this, this]
    have hlt : contValue v q * 64 + (a.toNat - 128) < contValue v q * 64 + (b.toNat - 128) :=
      Nat.add_lt_add_left (by clear hlc hld; omega) _
    refine contValue_lt _ _ _ _ (by clear hlc hld; omega) (fun e he => p3 e (by rw [e2]; simp [he])) (fun e he => r3 e (by rw [e4]; simp [he])) hlt

theorem put_order (c d : UCS4) (hc : ¬ Reserved c) (hd : ¬ Reserved d) (hne : c ≠ d) : ∃ q a ra b rb,
    utf8Put c = q ++ a :: ra ∧ utf8Put d = q ++ b :: rb ∧ a ≠ b ∧ (a.toNat < b.toNat ↔ c.toNat < d.toNat) := by
  rcases diff_split (utf8Put c) (utf8Put d) with ⟨r, hr⟩ | ⟨a, r, hr⟩ | ⟨q, a, ra, b, rb, h1, h2, h3⟩
  · exact absurd (put_prefix c d hc hd r hr) hne
  · exact absurd (put_prefix d c hd hc _ hr).symm hne
  · refine ⟨q, a, ra, b, rb, h1, h2, h3, put_order_aux c d hc hd q ra rb a b h1 h2, fun h => ?_⟩
    rcases Nat.lt_trichotomy a.toNat b.toNat with hh | hh | hh
    · exact hh
    · exact absurd (BitVec.eq_of_toNat_eq hh) h3
    · have := put_order_aux d c hd hc q rb ra b a h2 h1 hh; omega

/-! ### memcmp -/

theorem memcmp_same (m1 m2 : List Byte) (R1 R2 : List Byte) : ∀ (q A B : List Byte), m1 = A ++ (q ++ R1) → m2 = B ++ (q ++ R2) →
    memcmp m1 A.length m2 B.length q.length = .ok 0 := by
  intro q
  induction q with
  | nil => intro A B _ _; rfl
  | cons x q ih =>
    intro A B h1 h2
    have r1 : rd m1 A.length = .ok x := by rw [h1]; simp
    have r2 : rd m2 B.length = .ok x := by rw [h2]; simp
    simp only [List.length_cons, memcmp]
    rw [r1, res_bind_ok, r2, res_bind_ok, if_pos (by simp)]
    have := ih (A ++ [x]) (B ++ [x]) (by rw [h1]; simp) (by rw [h2]; simp)
    simpa using this

theorem memcmp_diff (m1 m2 : List Byte) (R1 R2 : List Byte) (a b : Byte) (hab : a ≠ b) : ∀ (q A B : List Byte) (n : Nat),
    m1 = A ++ (q ++ a :: R1) → m2 = B ++ (q ++ b :: R2) → q.length < n →
    memcmp m1 A.length m2 B.length n = .ok ((a.toNat : Int) - b.toNat) := by
  intro q
  induction q with
  | nil =>
    intro A B n h1 h2 hn
    obtain ⟨n, rfl⟩ : ∃ k, n = k + 1 := ⟨n - 1, by simp at hn; omega⟩
    have r1 : rd m1 A.length = .ok a := by rw [h1]; simp
    have r2 : rd m2 B.length = .ok b := by rw [h2]; simp
    simp only [memcmp]
    rw [r1, res_bind_ok, r2, res_bind_ok, if_neg (by simpa using hab)]
  | cons x q ih =>
    intro A B n h1 h2 hn
    obtain ⟨n, rfl⟩ : ∃ k, n = k + 1 := ⟨n - 1, by simp at hn; omega⟩
    have r1 : rd m1 A.length = .ok x := by rw [h1]; simp
    have r2 : rd m2 B.length = .ok x := by rw [h2]; simp
    simp only [memcmp]
    rw [r1, res_bind_ok, r2, res_bind_ok, if_pos (by simp)]
    have := ih (A ++ [x]) (B ++ [x]) n (by rw [h1]; simp) (by rw [h2]; simp) (by simp at hn; omega)
    simpa using this

theorem put_len_lt {q ra : List Byte} {a : Byte} {c : UCS4} (h : utf8Put c = q ++ a :: ra) : q.length < (utf8Put c).length := by
  rw [h]; simp

/-! ### compare -/

theorem lt_append_left (q x y : List Nat) : q ++ x < q ++ y ↔ x < y := by
  induction q with
  | nil => simp
  | cons a q ih => simp [List.cons_lt_cons_iff, ih]

theorem charsLt_prefix (a : List UCS4) (c : UCS4) (r : List UCS4) : CharsLt a (a ++ c :: r) := by
  unfold CharsLt
  have := (lt_append_left (a.map BitVec.toNat) [] (c.toNat :: r.map BitVec.toNat)).mpr (List.nil_lt_cons _ _)
  simpa using this

theorem charsLt_diff (q : List UCS4) (c d : UCS4) (r r' : List UCS4) (h : c.toNat < d.toNat) : CharsLt (q ++ c :: r) (q ++ d :: r') := by
  unfold CharsLt
  have := (lt_append_left (q.map BitVec.toNat) (c.toNat :: r.map BitVec.toNat) (d.toNat :: r'.map BitVec.toNat)).mpr
    (List.cons_lt_cons_iff.mpr (Or.inl h))
  simpa using this

theorem charsLt_irrefl (a : List UCS4) : ¬ CharsLt a a := List.lt_irrefl _

theorem charsLt_asymm {a b : List UCS4} (h : CharsLt a b) : ¬ CharsLt b a := List.lt_asymm h

theorem sign_iff {t u : List UCS4} {r : Int} (h1 : r < 0 → CharsLt t u) (h2 : r = 0 → t = u) (h3 : 0 < r → CharsLt u t) :
    (r < 0 ↔ CharsLt t u) ∧ (r = 0 ↔ t = u) ∧ (0 < r ↔ CharsLt u t) := by
  have tri : r < 0 ∨ r = 0 ∨ 0 < r := by omega
  refine ⟨⟨h1, fun h => ?_⟩, ⟨h2, fun h => ?_⟩, ⟨h3, fun h => ?_⟩⟩
  · rcases tri with g | g | g
    · exact g
    · have := h2 g; subst this; exact absurd h (charsLt_irrefl _)
    · exact absurd h (charsLt_asymm (h3 g))
  · subst h
    rcases tri with g | g | g
    · exact absurd (h1 g) (charsLt_irrefl _)
    · exact g
    · exact absurd (h3 g) (charsLt_irrefl _)
  · rcases tri with g | g | g
    · exact absurd h (charsLt_asymm (h1 g))
    · have := h2 g; subst this; exact absurd h (charsLt_irrefl _)
    · exact g

theorem toInt_wrap_le {n m : Nat} (h : n ≤ m) (hm : m < 1073741824) : toInt (wrap ((n : Int) - m)) = (n : Int) - m := by
  unfold toInt wrap
  split <;> omega

theorem Den.compare {σ τ : Str} {p1 t q1 p2 u q2 : List UCS4} (h1 : Den σ p1 t q1) (h2 : Den τ p2 u q2)
    (hg : (q2 = [] ∧ ∀ c ∈ t, c ≠ 0#32) ∨ ¬ ∃ c w, t = u ++ c :: w) :
    ∃ r, σ.compare τ = .ok r ∧ (r < 0 ↔ CharsLt t u) ∧ (r = 0 ↔ t = u) ∧ (0 < r ↔ CharsLt u t) := by
  obtain ⟨s1, m1⟩ := h1.memAt
  obtain ⟨s2, m2⟩ := h2.memAt
  have sz1 := h1.size
  have sz2 := h2.size
  unfold Str.compare
  rw [h1.nthC 0 (by omega), res_bind_ok, h2.nthC 0 (by omega)]
  simp only [deref, res_bind_ok]
  rw [h1.numBytes, h2.numBytes]
  simp only [res_bind_ok]
  rw [bpos_mid p1 t q1 0 (by omega), bpos_zero, bpos_mid p2 u q2 0 (by omega), bpos_zero, Nat.add_zero, Nat.add_zero]
  rcases diff_split t u with ⟨r, hr⟩ | ⟨c, r, hr⟩ | ⟨q, c, ra, d, rb, e1, e2, e3⟩
  · have hm : memcmp σ.b.arr.mem (encodeAll p1).length τ.b.arr.mem (encodeAll p2).length (encodeAll t).length = .ok 0 :=
      memcmp_same _ _ _ _ _ _ _ m1 (by rw [m2, hr, encodeAll_append, List.append_assoc])
    rw [hm, res_bind_ok, if_pos (by simp)]
    have hle : (encodeAll t).length ≤ (encodeAll u).length := by rw [hr]; simp
    rw [toInt_wrap_le hle (by omega)]
    refine ⟨_, rfl, sign_iff (fun h => ?_) (fun h => ?_) (fun h => by omega)⟩
    · cases r with
      | nil => rw [hr] at h; simp at h
      | cons c r => rw [hr]; exact charsLt_prefix t c r
    · have hl : (encodeAll r).length = 0 := by
        rw [hr] at h; simp at h; omega
      have := encodeAll_length_ge r
      have : r = [] := List.eq_nil_of_length_eq_zero (by omega)
      rw [hr, this]; simp
  · rcases hg with ⟨g1, g2⟩ | g
    · subst g1
      have hc0 : c ≠ 0#32 := g2 c (by rw [hr]; simp)
      have hcr : ¬ Reserved c := h1.good c (by rw [hr]; simp)
      obtain ⟨b, ds, v, hput, -, -, -⟩ := put_value c hcr
      have hb0 : b ≠ 0#8 := put_nz c hcr hc0 b (by rw [hput]; simp)
      have hm := memcmp_diff σ.b.arr.mem τ.b.arr.mem (ds ++ (encodeAll r ++ (encodeAll q1 ++ ([0#8] ++ s1)))) s2 b 0#8 hb0
        (encodeAll u) (encodeAll p1) (encodeAll p2) (encodeAll t).length
        (by rw [m1, hr, encodeAll_append, encodeAll_cons, hput]; simp)
        (by rw [m2]; simp) (by rw [hr, encodeAll_append, encodeAll_cons, hput]; simp)
      rw [hm, res_bind_ok]
      have hbn : b.toNat ≠ 0 := fun e => hb0 (BitVec.eq_of_toNat_eq e)
      rw [if_neg (by simp; omega)]
      refine ⟨_, rfl, sign_iff (fun h => ?_) (fun h => ?_) (fun h => ?_)⟩
      · simp at h; omega
      · simp at h; omega
      · rw [hr]; exact charsLt_prefix u c r
    · exact absurd ⟨c, r, hr⟩ g
  · have hcr : ¬ Reserved c := h1.good c (by rw [e1]; simp)
    have hdr : ¬ Reserved d := h2.good d (by rw [e2]; simp)
    obtain ⟨y, a, xa, b, xb, o1, o2, o3, o4⟩ := put_order c d hcr hdr e3
    have hm := memcmp_diff σ.b.arr.mem τ.b.arr.mem (xa ++ (encodeAll ra ++ (encodeAll q1 ++ ([0#8] ++ s1))))
      (xb ++ (encodeAll rb ++ (encodeAll q2 ++ ([0#8] ++ s2)))) a b o3
      (encodeAll q ++ y) (encodeAll p1) (encodeAll p2) (encodeAll t).length
      (by rw [m1, e1, encodeAll_append, encodeAll_cons, o1]; simp)
      (by rw [m2, e2, encodeAll_append, encodeAll_cons, o2]; simp)
      (by rw [e1, encodeAll_append, encodeAll_cons, o1]; simp)
    rw [hm, res_bind_ok]
    have hn : a.toNat ≠ b.toNat := fun e => o3 (BitVec.eq_of_toNat_eq e)
    rw [if_neg (by simp; omega)]
    have hn2 : c.toNat ≠ d.toNat := fun e => e3 (BitVec.eq_of_toNat_eq e)
    refine ⟨_, rfl, sign_iff (fun h => ?_) (fun h => by omega) (fun h => ?_)⟩
    · rw [e1, e2]; exact charsLt_diff q c d ra rb (o4.mp (by omega))
    · rw [e1, e2]
      refine charsLt_diff q d c rb ra ?_
      have : ¬ c.toNat < d.toNat := fun e => by have := o4.mpr e; omega
      omega

theorem Den.eq {σ τ : Str} {p1 t q1 p2 u q2 : List UCS4} (h1 : Den σ p1 t q1) (h2 : Den τ p2 u q2) :
    σ.eq τ = .ok (decide (t = u)) := by
  unfold Str.eq
  rw [h1.num, h2.num]
  by_cases hl : t.length = u.length
  · rw [if_pos (by simpa using hl)]
    obtain ⟨r, e, -, e2, -⟩ := h1.compare h2 (Or.inr (by
      rintro ⟨c, w, rfl⟩
      simp at hl))
    rw [e, res_bind_ok]
    congr 1
    rw [Bool.eq_iff_iff]
    simpa using e2
  · rw [if_neg (by simpa using hl)]
    congr 1
    symm
    rw [decide_eq_false_iff_not]
    exact fun e => hl (by rw [e])

/-! ### find -/

/-- the character after the slice: hidden text, or the terminating NUL -/
def nextOf (post : List UCS4) : UCS4 := post.headD 0#32

theorem Den.charAt {σ : Str} {pre t post : List UCS4} (h : Den σ pre t post) (n : Nat) (hn : n ≤ t.length) :
    ∃ p, utf8Get σ.b.arr.mem (bpos (pre ++ t ++ post) (pre.length + n)) = .ok ((t ++ [nextOf post])[n]'(by simp; omega), p) := by
  rcases Nat.lt_or_ge (pre.length + n) (pre ++ t ++ post).length with hlt | hge
  · refine ⟨bpos (pre ++ t ++ post) (pre.length + n + 1), ?_⟩
    rw [h.body.get _ hlt]
    congr 2
    simp only [List.length_append] at hlt
    simp only [List.append_assoc]
    rw [List.getElem_append_right (by omega)]
    simp only [Nat.add_sub_cancel_left]
    rcases Nat.lt_or_ge n t.length with h1 | h1
    · rw [List.getElem_append_left h1, List.getElem_append_left h1]
    · have hnt : n = t.length := by omega
      subst hnt
      rw [List.getElem_append_right (by omega), List.getElem_append_right (by omega)]
      simp only [Nat.sub_self, List.getElem_cons_zero]
      cases post with
      | nil => simp at hlt
      | cons c post => rfl
  · simp only [List.length_append] at hge
    have hp : post = [] := List.eq_nil_of_length_eq_zero (by omega)
    have hnt : n = t.length := by omega
    subst hp; subst hnt
    have e : pre.length + t.length = (pre ++ t ++ []).length := by simp
    refine ⟨bpos (pre ++ t ++ []) (pre ++ t ++ []).length + 1, ?_⟩
    rw [e, h.body.get_end]
    simp [nextOf]

theorem findLoop_spec {σ : Str} {pre t post : List UCS4} (h : Den σ pre t post) (hit : UCS4 → Res Bool) (p : UCS4 → Prop) [DecidablePred p]
    (hh : ∀ c, hit c = .ok (decide (p c))) : ∀ (d fuel n : Nat), n + d = t.length + 1 → d < fuel →
    ∃ r, σ.findLoop hit fuel n = .ok r ∧ IsFirst (fun i => ∃ c, (t ++ [nextOf post])[i]? = some c ∧ p c) n (t.length + 1) r := by
  have hcap := h.cap
  intro d
  induction d with
  | zero =>
    intro fuel n hn hf
    obtain ⟨fuel, rfl⟩ : ∃ k, fuel = k + 1 := ⟨fuel - 1, by omega⟩
    unfold Str.findLoop
    rw [h.nthC_out n (by omega), res_bind_ok]
    exact ⟨-1, rfl, Or.inr ⟨rfl, fun j h1 h2 => by omega⟩⟩
  | succ d ih =>
    intro fuel n hn hf
    obtain ⟨fuel, rfl⟩ : ∃ k, fuel = k + 1 := ⟨fuel - 1, by omega⟩
    unfold Str.findLoop
    rw [h.nthC n (by omega), res_bind_ok]
    simp only
    obtain ⟨z, hz⟩ := h.charAt n (by omega)
    rw [hz, res_bind_ok]
    simp only
    rw [hh, res_bind_ok]
    have hget : (t ++ [nextOf post])[n]? = some ((t ++ [nextOf post])[n]'(by simp; omega)) := List.getElem?_eq_getElem _
    by_cases hp : p ((t ++ [nextOf post])[n]'(by simp; omega))
    · rw [if_pos (by simpa using hp)]
      refine ⟨_, rfl, Or.inl ⟨n, ?_, Nat.le_refl _, by omega, ⟨_, hget, hp⟩, fun j h1 h2 => by omega⟩⟩
      unfold toInt; rw [if_pos (by omega)]
    · rw [if_neg (by simpa using hp)]
      have hw : wrap ((n : Int) + 1) = n + 1 := by unfold wrap; omega
      rw [hw]
      obtain ⟨r, e, hr⟩ := ih fuel (n + 1) (by omega) (by omega)
      refine ⟨r, e, ?_⟩
      have hnp : ¬ ∃ c, (t ++ [nextOf post])[n]? = some c ∧ p c := by
        rintro ⟨c, h1, h2⟩
        rw [hget] at h1
        cases h1
        exact hp h2
      rcases hr with ⟨i, a1, a2, a3, a4, a5⟩ | ⟨a1, a2⟩
      · refine Or.inl ⟨i, a1, by omega, a3, a4, fun j h1 h2 => ?_⟩
        rcases Nat.eq_or_lt_of_le h1 with rfl | h1
        · exact hnp
        · exact a5 j h1 h2
      · refine Or.inr ⟨a1, fun j h1 h2 => ?_⟩
        rcases Nat.eq_or_lt_of_le h1 with rfl | h1
        · exact hnp
        · exact a2 j h1 h2

theorem findFrom {σ : Str} {pre t post : List UCS4} (h : Den σ pre t post) (hit : UCS4 → Res Bool) (p : UCS4 → Prop) [DecidablePred p]
    (hh : ∀ c, hit c = .ok (decide (p c))) (after : Int) (ha : -1 ≤ after ∧ after < 2147483647) :
    ∃ r, σ.findLoop hit (σ.num + 2) (wrap (after + 1)) = .ok r ∧
      IsFirst (fun i => ∃ c, (t ++ [nextOf post])[i]? = some c ∧ p c) (after + 1).toNat (t.length + 1) r := by
  have hw : wrap (after + 1) = (after + 1).toNat := by unfold wrap; omega
  rw [hw, h.num]
  rcases Nat.lt_or_ge (t.length + 1) (after + 1).toNat with hlt | hge
  · unfold Str.findLoop
    rw [h.nthC_out _ (by omega), res_bind_ok]
    exact ⟨-1, rfl, Or.inr ⟨rfl, fun j h1 h2 => by omega⟩⟩
  · exact findLoop_spec h hit p hh (t.length + 1 - (after + 1).toNat) _ _ (by omega) (by omega)

theorem rfindLoop_spec {σ : Str} {pre t post : List UCS4} (h : Den σ pre t post) (hit : UCS4 → Res Bool) (p : UCS4 → Prop) [DecidablePred p]
    (hh : ∀ c, hit c = .ok (decide (p c))) : ∀ (n fuel : Nat), n ≤ t.length → n + 1 < fuel →
    ∃ r, σ.rfindLoop hit fuel n = .ok r ∧ IsLast (fun i => ∃ c, (t ++ [nextOf post])[i]? = some c ∧ p c) (n + 1) r := by
  have hcap := h.cap
  intro n
  induction n with
  | zero =>
    intro fuel hn hf
    obtain ⟨fuel, rfl⟩ : ∃ k, fuel = k + 2 := ⟨fuel - 2, by omega⟩
    unfold Str.rfindLoop
    rw [h.nthC 0 (by omega), res_bind_ok]
    simp only
    obtain ⟨z, hz⟩ := h.charAt 0 (by omega)
    rw [hz, res_bind_ok]
    simp only
    rw [hh, res_bind_ok]
    have hget : (t ++ [nextOf post])[0]? = some ((t ++ [nextOf post])[0]'(by simp)) := List.getElem?_eq_getElem _
    by_cases hp : p ((t ++ [nextOf post])[0]'(by simp))
    · rw [if_pos (by simpa using hp)]
      refine ⟨_, rfl, Or.inl ⟨0, rfl, by omega, ⟨_, hget, hp⟩, fun j h1 h2 => by omega⟩⟩
    · rw [if_neg (by simpa using hp)]
      have hw : wrap (((0 : Nat) : Int) - 1) = 4294967295 := by decide
      rw [hw]
      unfold Str.rfindLoop
      rw [h.nthC_out _ (by omega), res_bind_ok]
      refine ⟨-1, rfl, Or.inr ⟨rfl, fun j h1 => ?_⟩⟩
      have : j = 0 := by omega
      subst this
      rintro ⟨c, h1, h2⟩
      rw [hget] at h1
      cases h1
      exact hp h2
  | succ n ih =>
    intro fuel hn hf
    obtain ⟨fuel, rfl⟩ : ∃ k, fuel = k + 1 := ⟨fuel - 1, by omega⟩
    unfold Str.rfindLoop
    rw [h.nthC (n + 1) (by omega), res_bind_ok]
    simp only
    obtain ⟨z, hz⟩ := h.charAt (n + 1) (by omega)
    rw [hz, res_bind_ok]
    simp only
    rw [hh, res_bind_ok]
    have hget : (t ++ [nextOf post])[n + 1]? = some ((t ++ [nextOf post])[n + 1]'(by simp; omega)) := List.getElem?_eq_getElem _
    by_cases hp : p ((t ++ [nextOf post])[n + 1]'(by simp; omega))
    · rw [if_pos (by simpa using hp)]
      refine ⟨_, rfl, Or.inl ⟨n + 1, ?_, by omega, ⟨_, hget, hp⟩, fun j h1 h2 => by omega⟩⟩
      unfold toInt; rw [if_pos (by omega)]
    · rw [if_neg (by simpa using hp)]
      have hw : wrap (((n + 1 : Nat) : Int) - 1) = n := by unfold wrap; omega
      rw [hw]
      obtain ⟨r, e, hr⟩ := ih fuel (by omega) (by omega)
      refine ⟨r, e, ?_⟩
      have hnp : ¬ ∃ c, (t ++ [nextOf post])[n + 1]? = some c ∧ p c := by
        rintro ⟨c, h1, h2⟩
        rw [hget] at h1
        cases h1
        exact hp h2
      rcases hr with ⟨i, a1, a2, a3, a4⟩ | ⟨a1, a2⟩
      · refine Or.inl ⟨i, a1, by omega, a3, fun j h1 h2 => ?_⟩
        rcases Nat.eq_or_lt_of_le (Nat.le_of_lt_succ h2) with rfl | h2
        · exact hnp
        · exact a4 j h1 h2
      · refine Or.inr ⟨a1, fun j h1 => ?_⟩
        rcases Nat.eq_or_lt_of_le (Nat.le_of_lt_succ h1) with rfl | h1
        · exact hnp
        · exact a2 j h1

/-- searching backwards from before `before` (-1: from the end): exact within the string -/
theorem rfindFrom {σ : Str} {pre t post : List UCS4} (h : Den σ pre t post) (hit : UCS4 → Res Bool) (p : UCS4 → Prop) [DecidablePred p]
    (hh : ∀ c, hit c = .ok (decide (p c))) (before : Int) (hb : before = -1 ∨ (0 ≤ before ∧ before ≤ t.length)) :
    ∃ r, σ.rfindLoop hit (σ.num + 2) (σ.rstart before) = .ok r ∧
      IsLast (fun i => ∃ c, t[i]? = some c ∧ p c) (if before = -1 then t.length else before.toNat) r := by
  have hcap := h.cap
  have hn := h.num
  have start : ∀ (m : Nat), m ≤ t.length → ∃ r, σ.rfindLoop hit (σ.num + 2) (wrap ((m : Int) - 1)) = .ok r ∧
      IsLast (fun i => ∃ c, t[i]? = some c ∧ p c) m r := by
    intro m hm
    cases m with
    | zero =>
      have hw : wrap (((0 : Nat) : Int) - 1) = 4294967295 := by decide
      rw [hw, hn]
      unfold Str.rfindLoop
      rw [h.nthC_out _ (by omega), res_bind_ok]
      exact ⟨-1, rfl, Or.inr ⟨rfl, fun j h1 => by omega⟩⟩
    | succ m =>
      have hw : wrap (((m + 1 : Nat) : Int) - 1) = m := by unfold wrap; omega
      rw [hw]
      obtain ⟨r, e, hr⟩ := rfindLoop_spec h hit p hh m (σ.num + 2) (by omega) (by omega)
      refine ⟨r, e, ?_⟩
      have hin : ∀ j, j < m + 1 → (t ++ [nextOf post])[j]? = t[j]? := fun j hj => List.getElem?_append_left (by omega)
      rcases hr with ⟨i, a1, a2, a3, a4⟩ | ⟨a1, a2⟩
      · refine Or.inl ⟨i, a1, a2, by simp only [← hin i a2]; exact a3, fun j h1 h2 => by simp only [← hin j h2]; exact a4 j h1 h2⟩
      · exact Or.inr ⟨a1, fun j h1 => by simp only [← hin j h1]; exact a2 j h1⟩
  unfold Str.rstart
  rcases hb with hb | ⟨h1, h2⟩
  · rw [if_pos (by simpa using hb), if_pos hb, hn]
    exact hn ▸ start t.length (Nat.le_refl _)
  · rw [if_neg (by simp; omega), if_neg (by omega)]
    have := start before.toNat (by omega)
    rw [show ((before.toNat : Nat) : Int) = before by omega] at this
    exact this

/-- set membership as the loops compute it -/
theorem has_spec {s1 : Str} {pre u post : List UCS4} (h : Den s1 pre u post) (ch : UCS4) : s1.has ch = .ok (decide (ch ∈ u)) := by
  have hcap := h.cap
  have key : ∀ (d fuel i : Nat), i + d = u.length → d < fuel → s1.memLoop ch fuel i = .ok (decide (ch ∈ u.drop i)) := by
    intro d
    induction d with
    | zero =>
      intro fuel i hi hf
      obtain ⟨fuel, rfl⟩ : ∃ k, fuel = k + 1 := ⟨fuel - 1, by omega⟩
      unfold Str.memLoop
      rw [if_neg (by rw [h.num]; omega), List.drop_eq_nil_of_le (by omega)]
      simp
    | succ d ih =>
      intro fuel i hi hf
      obtain ⟨fuel, rfl⟩ : ∃ k, fuel = k + 1 := ⟨fuel - 1, by omega⟩
      unfold Str.memLoop
      have hti : wrap (toInt i) = i := by
        have : toInt i = i := by unfold toInt; rw [if_pos (by omega)]
        rw [this, wrap_nat (by omega)]
      have hg : s1.get (toInt i) = .ok u[i] := by
        rw [h.get, hti, if_neg (by omega), List.getElem?_eq_getElem (by omega)]; rfl
      rw [if_pos (by rw [h.num]; omega), hg, res_bind_ok]
      have hdrop : u.drop i = u[i] :: u.drop (i + 1) := (List.getElem_cons_drop (by omega)).symm
      have hm : ch ∈ u.drop i ↔ ch = u[i] ∨ ch ∈ u.drop (i + 1) := by rw [hdrop, List.mem_cons]
      by_cases he : ch = u[i]
      · rw [if_pos (by simpa using he)]
        congr 1; symm; exact decide_eq_true (hm.2 (Or.inl he))
      · rw [if_neg (by simpa using he), ih fuel (i + 1) (by omega) (by omega)]
        congr 1
        exact decide_eq_decide.2 ⟨fun x => hm.2 (Or.inr x), fun x => (hm.1 x).resolve_left he⟩
  unfold Str.has
  rw [h.num, key u.length _ 0 (by omega) (by omega)]
  simp

theorem hasNot_spec {s1 : Str} {pre u post : List UCS4} (h : Den s1 pre u post) (ch : UCS4) : s1.hasNot ch = .ok (decide (ch ∉ u)) := by
  unfold Str.hasNot
  rw [has_spec h, res_bind_ok]
  congr 1
  by_cases hm : ch ∈ u <;> simp [hm]

/-! ### finding strings -/

/-- `u` occurs in `t` at `i` -/
def OccursAt (u t : List UCS4) (i : Nat) : Prop := (t.drop i).take u.length = u

instance (u t : List UCS4) (i : Nat) : Decidable (OccursAt u t i) := by unfold OccursAt; infer_instance

/-- comparing at a position where there are enough characters -/
theorem memcmp_at {σ s1 : Str} {p1 t q1 p2 u q2 : List UCS4} (h1 : Den σ p1 t q1) (h2 : Den s1 p2 u q2) (n : Nat) (hn : n + u.length ≤ t.length) :
    ∃ c, memcmp σ.b.arr.mem (bpos (p1 ++ t ++ q1) (p1.length + n)) s1.b.arr.mem (encodeAll p2).length (encodeAll u).length = .ok c ∧
      (c = 0 ↔ OccursAt u t n) := by
  obtain ⟨r1, m1⟩ := h1.memAt
  obtain ⟨r2, m2⟩ := h2.memAt
  rw [bpos_mid p1 t q1 n (by omega)]
  have esplit : encodeAll t = encodeAll (t.take n) ++ encodeAll (t.drop n) := encodeAll_split t n
  have hb : (encodeAll p1).length + bpos t n = (encodeAll p1 ++ encodeAll (t.take n)).length := by simp [bpos]
  rw [hb]
  have hm1 : σ.b.arr.mem = (encodeAll p1 ++ encodeAll (t.take n)) ++ (encodeAll (t.drop n) ++ (encodeAll q1 ++ ([0#8] ++ r1))) := by
    rw [m1, esplit]; simp
  rcases diff_split u (t.drop n) with ⟨r, hr⟩ | ⟨c, r, hr⟩ | ⟨q, c, ra, d, rb, e1, e2, e3⟩
  · refine ⟨0, ?_, ?_⟩
    · refine memcmp_same _ _ (encodeAll r ++ (encodeAll q1 ++ ([0#8] ++ r1))) _ _ _ _ ?_ m2
      rw [hm1, hr, encodeAll_append]; simp
    · simp [OccursAt, hr]
  · have := congrArg List.length hr
    simp at this; omega
  · have hcr : ¬ Reserved c := h2.good c (by rw [e1]; simp)
    have hdr : ¬ Reserved d := h1.good d (by
      have : d ∈ t.drop n := by rw [e2]; simp
      exact List.mem_of_mem_drop this)
    obtain ⟨y, a, xa, b, xb, o1, o2, o3, o4⟩ := put_order c d hcr hdr e3
    have hm := memcmp_diff σ.b.arr.mem s1.b.arr.mem (xb ++ (encodeAll rb ++ (encodeAll q1 ++ ([0#8] ++ r1))))
      (xa ++ (encodeAll ra ++ (encodeAll q2 ++ ([0#8] ++ r2)))) b a o3.symm
      (encodeAll q ++ y) (encodeAll p1 ++ encodeAll (t.take n)) (encodeAll p2) (encodeAll u).length
      (by rw [hm1, e2, encodeAll_append, encodeAll_cons, o2]; simp)
      (by rw [m2, e1, encodeAll_append, encodeAll_cons, o1]; simp)
      (by rw [e1, encodeAll_append, encodeAll_cons, o1]; simp)
    refine ⟨_, hm, ?_⟩
    have hnab : b.toNat ≠ a.toNat := fun e => o3 (BitVec.eq_of_toNat_eq e.symm)
    constructor
    · intro h; omega
    · intro h
      exfalso
      unfold OccursAt at h
      rw [e2, e1] at h
      have := congrArg (fun l => l[q.length]?) h
      simp at this
      exact e3 this.symm

theorem findStrLoop_spec {σ s1 : Str} {p1 t q1 p2 u q2 : List UCS4} (h1 : Den σ p1 t q1) (h2 : Den s1 p2 u q2) (hle : u.length ≤ t.length) :
    ∀ (d fuel n : Nat), n + d = t.length - u.length + 1 → d < fuel →
    ∃ r, σ.findStrLoop s1 (encodeAll p2).length (t.length - u.length) fuel n = .ok r ∧
      IsFirst (OccursAt u t) n (t.length - u.length + 1) r := by
  have hcap := h1.cap
  intro d
  induction d with
  | zero =>
    intro fuel n hn hf
    obtain ⟨fuel, rfl⟩ : ∃ k, fuel = k + 1 := ⟨fuel - 1, by omega⟩
    unfold Str.findStrLoop
    rw [if_neg (by omega)]
    exact ⟨-1, rfl, Or.inr ⟨rfl, fun j h1 h2 => by omega⟩⟩
  | succ d ih =>
    intro fuel n hn hf
    obtain ⟨fuel, rfl⟩ : ∃ k, fuel = k + 1 := ⟨fuel - 1, by omega⟩
    unfold Str.findStrLoop
    rw [if_pos (by omega), h1.nthC n (by omega), res_bind_ok]
    simp only
    rw [h2.numBytes, res_bind_ok]
    obtain ⟨c, hc, hcc⟩ := memcmp_at h1 h2 n (by omega)
    rw [hc, res_bind_ok]
    by_cases hz : c = 0
    · rw [if_pos (by simpa using hz)]
      refine ⟨_, rfl, Or.inl ⟨n, ?_, Nat.le_refl _, by omega, hcc.mp hz, fun j h1 h2 => by omega⟩⟩
      unfold toInt; rw [if_pos (by omega)]
    · rw [if_neg (by simpa using hz)]
      have hw : wrap ((n : Int) + 1) = n + 1 := by unfold wrap; omega
      rw [hw]
      obtain ⟨r, e, hr⟩ := ih fuel (n + 1) (by omega) (by omega)
      have hnp : ¬ OccursAt u t n := fun h => hz (hcc.mpr h)
      refine ⟨r, e, ?_⟩
      rcases hr with ⟨i, a1, a2, a3, a4, a5⟩ | ⟨a1, a2⟩
      · refine Or.inl ⟨i, a1, by omega, a3, a4, fun j h1 h2 => ?_⟩
        rcases Nat.eq_or_lt_of_le h1 with rfl | h1
        · exact hnp
        · exact a5 j h1 h2
      · refine Or.inr ⟨a1, fun j h1 h2 => ?_⟩
        rcases Nat.eq_or_lt_of_le h1 with rfl | h1
        · exact hnp
        · exact a2 j h1 h2

theorem Den.findStr {σ s1 : Str} {p1 t q1 p2 u q2 : List UCS4} (h1 : Den σ p1 t q1) (h2 : Den s1 p2 u q2) (hle : u.length ≤ t.length)
    (after : Int) (ha : -1 ≤ after ∧ after < 2147483647) :
    ∃ r, σ.findStr s1 after = .ok r ∧ IsFirst (OccursAt u t) (after + 1).toNat (t.length - u.length + 1) r := by
  have hcap := h1.cap
  unfold Str.findStr
  rw [h2.nthC 0 (by omega), res_bind_ok]
  simp only [deref, res_bind_ok]
  have hw : wrap (after + 1) = (after + 1).toNat := by unfold wrap; omega
  rw [bpos_mid p2 u q2 0 (by omega), bpos_zero, Nat.add_zero, h1.num, h2.num, wrap_of_nonneg hle (by omega), hw]
  rcases Nat.lt_or_ge (t.length - u.length + 1) (after + 1).toNat with hlt | hge
  · unfold Str.findStrLoop
    rw [if_neg (by omega)]
    exact ⟨-1, rfl, Or.inr ⟨rfl, fun j h1 h2 => by omega⟩⟩
  · exact findStrLoop_spec h1 h2 hle (t.length - u.length + 1 - (after + 1).toNat) _ _ (by omega) (by omega)

theorem rfindStrLoop_spec {σ s1 : Str} {p1 t q1 p2 u q2 : List UCS4} (h1 : Den σ p1 t q1) (h2 : Den s1 p2 u q2) (hle : u.length ≤ t.length) :
    ∀ (n fuel : Nat), n ≤ t.length - u.length → n + 1 < fuel →
    ∃ r, σ.rfindStrLoop s1 (encodeAll p2).length fuel n = .ok r ∧ IsLast (OccursAt u t) (n + 1) r := by
  have hcap := h1.cap
  intro n
  induction n with
  | zero =>
    intro fuel hn hf
    obtain ⟨fuel, rfl⟩ : ∃ k, fuel = k + 2 := ⟨fuel - 2, by omega⟩
    unfold Str.rfindStrLoop
    rw [h1.nthC 0 (by omega), res_bind_ok]
    simp only
    rw [h2.numBytes, res_bind_ok]
    obtain ⟨c, hc, hcc⟩ := memcmp_at h1 h2 0 (by omega)
    rw [hc, res_bind_ok]
    by_cases hz : c = 0
    · rw [if_pos (by simpa using hz)]
      exact ⟨_, rfl, Or.inl ⟨0, rfl, by omega, hcc.mp hz, fun j h1 h2 => by omega⟩⟩
    · rw [if_neg (by simpa using hz)]
      have hw : wrap (((0 : Nat) : Int) - 1) = 4294967295 := by decide
      rw [hw]
      unfold Str.rfindStrLoop
      rw [h1.nthC_out _ (by omega), res_bind_ok]
      refine ⟨-1, rfl, Or.inr ⟨rfl, fun j h1 => ?_⟩⟩
      have : j = 0 := by omega
      subst this
      exact fun h => hz (hcc.mpr h)
  | succ n ih =>
    intro fuel hn hf
    obtain ⟨fuel, rfl⟩ : ∃ k, fuel = k + 1 := ⟨fuel - 1, by omega⟩
    unfold Str.rfindStrLoop
    rw [h1.nthC (n + 1) (by omega), res_bind_ok]
    simp only
    rw [h2.numBytes, res_bind_ok]
    obtain ⟨c, hc, hcc⟩ := memcmp_at h1 h2 (n + 1) (by omega)
    rw [hc, res_bind_ok]
    by_cases hz : c = 0
    · rw [if_pos (by simpa using hz)]
      refine ⟨_, rfl, Or.inl ⟨n + 1, ?_, by omega, hcc.mp hz, fun j h1 h2 => by omega⟩⟩
      unfold toInt; rw [if_pos (by omega)]
    · rw [if_neg (by simpa using hz)]
      have hw : wrap (((n + 1 : Nat) : Int) - 1) = n := by unfold wrap; omega
      rw [hw]
      obtain ⟨r, e, hr⟩ := ih fuel (by omega) (by omega)
      have hnp : ¬ OccursAt u t (n + 1) := fun h => hz (hcc.mpr h)
      refine ⟨r, e, ?_⟩
      rcases hr with ⟨i, a1, a2, a3, a4⟩ | ⟨a1, a2⟩
      · refine Or.inl ⟨i, a1, by omega, a3, fun j h1 h2 => ?_⟩
        rcases Nat.eq_or_lt_of_le (Nat.le_of_lt_succ h2) with rfl | h2
        · exact hnp
        · exact a4 j h1 h2
      · refine Or.inr ⟨a1, fun j h1 => ?_⟩
        rcases Nat.eq_or_lt_of_le (Nat.le_of_lt_succ h1) with rfl | h1
        · exact hnp
        · exact a2 j h1

/-- `rfind` of a string that is not longer: `before` is -1 (from the end) or positive -/
theorem Den.rfindStr {σ s1 : Str} {p1 t q1 p2 u q2 : List UCS4} (h1 : Den σ p1 t q1) (h2 : Den s1 p2 u q2) (hle : u.length ≤ t.length)
    (before : Int) (hb : before = -1 ∨ 0 < before) (hb2 : before < 2147483648) :
    ∃ r, σ.rfindStr s1 before = .ok r ∧ IsLast (OccursAt u t)
      (if before = -1 then t.length - u.length + 1 else min before.toNat (t.length - u.length + 1)) r := by
  have hcap := h1.cap
  unfold Str.rfindStr
  rw [h2.nthC 0 (by omega), res_bind_ok]
  simp only [deref, res_bind_ok]
  rw [bpos_mid p2 u q2 0 (by omega), bpos_zero, Nat.add_zero, h1.num, h2.num, wrap_of_nonneg hle (by omega)]
  rcases hb with hb | hb
  · rw [hb]
    simp only [beq_self_eq_true, ↓reduceIte]
    rw [if_neg (by omega)]
    exact rfindStrLoop_spec h1 h2 hle _ _ (Nat.le_refl _) (by omega)
  · have hne : (before == -1) = false := by simp; omega
    have e0 : (if before = -1 then t.length - u.length + 1 else min before.toNat (t.length - u.length + 1)) =
        min before.toNat (t.length - u.length + 1) := if_neg (by omega)
    rw [e0]
    simp only [hne, Bool.false_eq_true, ↓reduceIte]
    have hw : wrap (before - 1) = before.toNat - 1 := by unfold wrap; omega
    rw [hw]
    by_cases hgt : before.toNat - 1 > t.length - u.length
    · rw [if_pos hgt, Nat.min_eq_right (by omega)]
      exact rfindStrLoop_spec h1 h2 hle _ _ (Nat.le_refl _) (by omega)
    · rw [if_neg hgt, Nat.min_eq_left (by omega)]
      obtain ⟨r, e, hr⟩ := rfindStrLoop_spec h1 h2 hle (before.toNat - 1) (t.length + 2) (by omega) (by omega)
      rw [show before.toNat - 1 + 1 = before.toNat by omega] at hr
      exact ⟨r, e, hr⟩

end Strpp.SV
