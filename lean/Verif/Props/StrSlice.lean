import Verif.Proof.StrSlice
import Verif.Proof.StrJson
set_option linter.unusedVariables false
set_option linter.unusedSimpArgs false
/-!
C99. What changes a string that is a part of storage which it alone refers to: exactly what insertion, `+=`, transformation and case conversion do
to it. (For a string whose storage is shared, they are right: C28, C30.)
-/
namespace Strpp.SV
open Spec Arr

/-- Every string shares its storage, or is alone with a text that has a part before and a part after what is shown. -/
theorem C99_cases {s : State} (h : Reached s) {v : Nat} {t : List UCS4} (hv : view s v = some t) :
    (∃ x, s.vars[v]? = some (some x) ∧ refCount s x.body > 1) ∨ ∃ pre post, Alone s v pre t post := by
  obtain ⟨x, b, pre, post, hx, hb, hd, he⟩ := h.inv.1.txt hv
  rcases Nat.lt_or_ge 1 (refCount s x.body) with hr | hr
  · exact .inl ⟨x, hx, hr⟩
  · exact .inr ⟨pre, post, x, b, hx, hb, hr, den_text hd.body, hd.off, hd.num⟩

/-- `v.insert(pos, w)` with any bookmark: the bytes of `w` go as many bytes after the beginning of the *storage* as the first `pos` characters of `v`
have; `v` then shows as many characters more, still from the character of the storage where it began. -/
theorem C99_insert (S : Type) {s : State} (h : Reached s) {v w : Nat} {pre t post u : List UCS4} (ha : Alone s v pre t post) (hw : view s w = some u)
    (hne : v ≠ w) (pos : Nat) (hpos : pos ≤ t.length) (hr : Roomy s (encodeAll u).length) :
    let all := encodeAll (pre ++ t ++ post)
    let r := (encodeAll (t.take pos)).length
    ∃ s', exec s (.insert v pos w : Op S) = .ok s' ∧ lengthOf s' v = some (t.length + u.length) ∧
      view s' v = some (((decodeAll (all.take r ++ encodeAll u ++ all.drop r)).drop pre.length).take (t.length + u.length)) ∧
      ∀ i, i ≠ v → view s' i = view s i := by
  intro all r
  have hi := h.inv.1
  obtain ⟨s', e, l, n, vw⟩ := insert_alone hi hne ha (hi.txt hw) pos hpos hr
  have hf := frame_exec hi.ids hi.pos (.insert v pos w : Op S) e
  have he := set_effect hi vw l hf (fun i hT => hT)
  exact ⟨s', e, n, vw, fun i hi => by rw [he i, if_neg hi]⟩

/-- In characters: if the place where the bytes go begins the `k`-th character of the storage, the text of the storage gets `u` there. -/
theorem C99_insert_chars (S : Type) {s : State} (h : Reached s) {v w : Nat} {pre t post u : List UCS4} (ha : Alone s v pre t post) (hw : view s w = some u)
    (hne : v ≠ w) (pos : Nat) (hpos : pos ≤ t.length) (hr : Roomy s (encodeAll u).length) (k : Nat) (hk : k ≤ (pre ++ t ++ post).length)
    (hb : (encodeAll ((pre ++ t ++ post).take k)).length = (encodeAll (t.take pos)).length) :
    ∃ s', exec s (.insert v pos w : Op S) = .ok s' ∧ lengthOf s' v = some (t.length + u.length) ∧
      view s' v = some ((((pre ++ t ++ post).take k ++ u ++ (pre ++ t ++ post).drop k).drop pre.length).take (t.length + u.length)) ∧
      ∀ i, i ≠ v → view s' i = view s i := by
  obtain ⟨s', e1, e2, e3, e4⟩ := C99_insert S h ha hw hne pos hpos hr
  obtain ⟨x, b, ho, _⟩ := ha.owned h.inv.1 hr
  have hgu : ∀ c ∈ u, ¬ Reserved c := (h.inv.1.txt hw).good
  have hga := ho.den.body.good
  refine ⟨s', e1, e2, ?_, e4⟩
  rw [e3]
  have hs := encodeAll_split (pre ++ t ++ post) k
  have t1 : (encodeAll (pre ++ t ++ post)).take (encodeAll (t.take pos)).length = encodeAll ((pre ++ t ++ post).take k) := by
    rw [hs, ← hb, List.take_left]
  have t2 : (encodeAll (pre ++ t ++ post)).drop (encodeAll (t.take pos)).length = encodeAll ((pre ++ t ++ post).drop k) := by
    rw [hs, ← hb, List.drop_left]
  rw [t1, t2, ← encodeAll_append, ← encodeAll_append, decode_encode]
  intro c hc
  simp only [List.mem_append] at hc
  rcases hc with (hc | hc) | hc
  · exact hga c (List.mem_of_mem_take hc)
  · exact hgu c hc
  · exact hga c (List.mem_of_mem_drop hc)

/-- A string that begins its storage is right, whatever its bookmark. -/
theorem C99_insert_front (S : Type) {s : State} (h : Reached s) {v w : Nat} {t post u : List UCS4} (ha : Alone s v [] t post) (hw : view s w = some u)
    (hne : v ≠ w) (pos : Nat) (hpos : pos ≤ t.length) (hr : Roomy s (encodeAll u).length) :
    ∃ s', exec s (.insert v pos w : Op S) = .ok s' ∧ lengthOf s' v = some (t.length + u.length) ∧
      view s' v = some (t.take pos ++ u ++ t.drop pos) ∧ ∀ i, i ≠ v → view s' i = view s i := by
  obtain ⟨s', e1, e2, e3, e4⟩ := C99_insert_chars S h ha hw hne pos hpos hr pos (by simp; omega)
    (by rw [List.nil_append, List.take_append_of_le_length hpos])
  refine ⟨s', e1, e2, ?_, e4⟩
  rw [e3]
  simp only [List.nil_append, List.length_nil, List.drop_zero]
  rw [List.take_append_of_le_length hpos, List.drop_append_of_le_length hpos, ← List.append_assoc,
    List.take_append_of_le_length (by simp; omega), List.take_of_length_le (by simp; omega)]

/-- In storage of one-byte characters the place is the `pos`-th character of the storage, not of `v`. -/
theorem C99_insert_ascii (S : Type) {s : State} (h : Reached s) {v w : Nat} {pre t post u : List UCS4} (ha : Alone s v pre t post) (hw : view s w = some u)
    (hne : v ≠ w) (pos : Nat) (hpos : pos ≤ t.length) (hr : Roomy s (encodeAll u).length) (hasc : ∀ c ∈ pre ++ t ++ post, c.toNat < 128) :
    ∃ s', exec s (.insert v pos w : Op S) = .ok s' ∧ lengthOf s' v = some (t.length + u.length) ∧
      view s' v = some ((((pre ++ t ++ post).take pos ++ u ++ (pre ++ t ++ post).drop pos).drop pre.length).take (t.length + u.length)) ∧
      ∀ i, i ≠ v → view s' i = view s i := by
  refine C99_insert_chars S h ha hw hne pos hpos hr pos (by simp; omega) ?_
  rw [ascii_encode _ (fun c hc => hasc c (List.mem_of_mem_take hc)),
    ascii_encode _ (fun c hc => hasc c (by simp [List.mem_of_mem_take hc])), List.length_take, List.length_take]
  simp; omega

/-- `v += w` for a `v` that is not empty is `insert` at its length. -/
theorem C99_append (S : Type) {s : State} (h : Reached s) {v w : Nat} {pre t post u : List UCS4} (ha : Alone s v pre t post) (hw : view s w = some u)
    (hne : v ≠ w) (ht : t ≠ []) (hr : Roomy s (encodeAll u).length) :
    let all := encodeAll (pre ++ t ++ post)
    ∃ s', exec s (.addEq v w : Op S) = .ok s' ∧ lengthOf s' v = some (t.length + u.length) ∧
      view s' v = some (((decodeAll (all.take (encodeAll t).length ++ encodeAll u ++ all.drop (encodeAll t).length)).drop pre.length).take
        (t.length + u.length)) ∧
      ∀ i, i ≠ v → view s' i = view s i := by
  intro all
  obtain ⟨s', e1, e2, e3, e4⟩ := C99_insert S h ha hw hne t.length (Nat.le_refl _) hr
  rw [List.take_length] at e3
  refine ⟨s', ?_, e2, e3, e4⟩
  rw [← e1]
  obtain ⟨x, b, hx, hb, _, _, _, hn⟩ := ha
  obtain ⟨y, c, _, _, hy, hc, _⟩ := h.inv.1.txt hw
  have hpos : 0 < t.length := List.length_pos_iff.mpr ht
  show addEq s v w = insert s v t.length w
  unfold addEq
  rw [getVar_ok hx, res_bind_ok, getVar_ok hy, res_bind_ok, getBody_ok hc, res_bind_ok,
    if_neg (by simp only [Bool.and_eq_true, beq_iff_eq]; omega), hn]

/-- `transform` works on all of the storage's text, counting `after` from its beginning; `v` then shows all from where it began, but its length is that
of the whole text. -/
theorem C99_transform {S : Type} {s : State} (h : Reached s) {v : Nat} {pre t post : List UCS4} (ha : Alone s v pre t post)
    (x : XForm S) (f : S → List UCS4 → S × List UCS4 × Nat) (I : S → Prop) (hx : Behaves I x f) (st : S) (hI : I st) (after : Int)
    (haf : -1 ≤ after ∧ after < 2147483647)
    (hgood : ∀ c ∈ transformAfter f st (after + 1).toNat (pre ++ t ++ post), ¬ Reserved c)
    (hsz : (encodeAll (transformAfter f st (after + 1).toNat (pre ++ t ++ post))).length < 1073741824) :
    let T := transformAfter f st (after + 1).toNat (pre ++ t ++ post)
    ∃ s', exec s (.transform v x st after) = .ok s' ∧ lengthOf s' v = some T.length ∧ view s' v = some (T.drop pre.length) ∧
      ∀ i, i ≠ v → view s' i = view s i := by
  intro T
  have hi := h.inv.1
  rw [← wrap_after haf.1 haf.2] at hgood hsz
  obtain ⟨s', e, l, n, vw⟩ := transform_alone hi ha I x f hx st hI after hgood h.inv.2 hsz
  rw [wrap_after haf.1 haf.2] at n vw
  have hf := frame_exec hi.ids hi.pos (.transform v x st after) e
  have he := set_effect hi vw l hf (fun i hT => hT)
  exact ⟨s', e, n, vw, fun i hi => by rw [he i, if_neg hi]⟩

/-- the `numBytes()` of a variable -/
def bytesOf (s : State) (v : Nat) : Res Nat := do
  let σ ← getStr s v
  σ.numBytes

theorem beyond {s : State} {v : Nat} {cs : List UCS4} {y : Var} {b : SBody} {p : Nat} (hy : s.vars[v]? = some (some y)) (hb : s.bodies[y.body]? = some b)
    (hd : BDen b cs) (hnc : b.nc = cs.length) (ho : y.off = p) (hn : y.num = cs.length) (hp : 0 < p) (hc : 0 < cs.length) :
    bytesOf s v = if (encodeAll cs).length = cs.length then .ok cs.length else .error .assertion := by
  have hnum := hd.num
  unfold bytesOf
  rw [getStr_ok hy hb, res_bind_ok]
  unfold Str.numBytes
  have e1 : ∀ k, 0 < k → b.nc = b.arr.num - 1 → nthChar b k y.mark = .ok (b, y.mark, some k) := by
    intro k hk ha
    unfold nthChar
    rw [if_pos (by simp [ha])]
  split
  · next he =>
    have ha : b.nc = b.arr.num - 1 := by omega
    unfold Str.nthC Str.nth
    simp only
    rw [if_neg (by omega), e1 _ (by omega) ha, if_neg (by omega), e1 _ (by omega) ha]
    simp only [res_bind_ok, Option.isSome_some, assert_true, deref]
    rw [show y.off + y.num - (y.off + 0) = cs.length by omega]
  · next he =>
    have hlen := encodeAll_length_ge cs
    unfold Str.nthC Str.nth
    simp only
    rw [if_neg (by omega)]
    have : nthChar b (y.off + y.num) y.mark = .error .assertion := by
      unfold nthChar
      rw [if_neg (by simp only [Bool.or_eq_true, beq_iff_eq]; omega)]
      have hcb : b.count = .ok b := by
        unfold SBody.count
        rw [if_neg (by intro hx; simp only [Bool.and_eq_true, beq_iff_eq] at hx; omega)]
      rw [hcb, res_bind_ok, if_pos (by omega)]
    rw [this]; rfl

/-- `toUpper` converts all of the storage; `v` then shows all from where it began, but its length is that of the whole text. If it did not begin the
storage, the size in bytes is wrong too, if all characters have one byte; otherwise asking for it fails an assertion. -/
theorem C99_toUpper (S : Type) {s : State} (h : Reached s) {v : Nat} {pre t post : List UCS4} (ha : Alone s v pre t post)
    (memo : Int) (hm : 0 ≤ memo ∧ memo < unicodeToUpper.length)
    (hsz : (encodeAll ((pre ++ t ++ post).map (convert unicodeToUpper))).length < 1073741824) :
    let T := (pre ++ t ++ post).map (convert unicodeToUpper)
    ∃ s', exec s (.toUpper v memo : Op S) = .ok s' ∧ lengthOf s' v = some T.length ∧ view s' v = some (T.drop pre.length) ∧
      (∀ i, i ≠ v → view s' i = view s i) ∧
      (pre ≠ [] → bytesOf s' v = if (encodeAll T).length = T.length then .ok T.length else .error .assertion) := by
  intro T
  have hi := h.inv.1
  have hM : (unicodeToUpper.length : Int) = 406 := by decide +kernel
  have hm2 : memo < 406 := by rw [← hM]; exact hm.2
  obtain ⟨s', e, l, n, vw, y, b, q1, q2, q3, q4, q5, q6⟩ := toCase_alone hi ha upper_conv memo hm.1 hm2 h.inv.2 hsz
  have hf := frame_exec hi.ids hi.pos (.toUpper v memo : Op S) e
  have he := set_effect hi vw l hf (fun i hT => hT)
  have hT : T.length = (pre ++ t ++ post).length := List.length_map ..
  refine ⟨s', e, by rw [hT]; exact n, vw, fun i hi => by rw [he i, if_neg hi], fun hp => ?_⟩
  have := List.length_pos_iff.mpr hp
  exact beyond q1 q2 q3 (by rw [q4]; exact hT.symm) q5 (by rw [q6]; exact hT.symm) this (by show 0 < T.length; rw [hT]; simp; omega)

/-- `toLower`, likewise -/
theorem C99_toLower (S : Type) {s : State} (h : Reached s) {v : Nat} {pre t post : List UCS4} (ha : Alone s v pre t post)
    (memo : Int) (hm : 0 ≤ memo ∧ memo < unicodeToLower.length)
    (hsz : (encodeAll ((pre ++ t ++ post).map (convert unicodeToLower))).length < 1073741824) :
    let T := (pre ++ t ++ post).map (convert unicodeToLower)
    ∃ s', exec s (.toLower v memo : Op S) = .ok s' ∧ lengthOf s' v = some T.length ∧ view s' v = some (T.drop pre.length) ∧
      (∀ i, i ≠ v → view s' i = view s i) ∧
      (pre ≠ [] → bytesOf s' v = if (encodeAll T).length = T.length then .ok T.length else .error .assertion) := by
  intro T
  have hi := h.inv.1
  have hM : (unicodeToLower.length : Int) = 396 := by decide +kernel
  have hm2 : memo < 396 := by rw [← hM]; exact hm.2
  obtain ⟨s', e, l, n, vw, y, b, q1, q2, q3, q4, q5, q6⟩ := toCase_alone hi ha lower_conv memo hm.1 hm2 h.inv.2 hsz
  have hf := frame_exec hi.ids hi.pos (.toLower v memo : Op S) e
  have he := set_effect hi vw l hf (fun i hT => hT)
  have hT : T.length = (pre ++ t ++ post).length := List.length_map ..
  refine ⟨s', e, by rw [hT]; exact n, vw, fun i hi => by rw [he i, if_neg hi], fun hp => ?_⟩
  have := List.length_pos_iff.mpr hp
  exact beyond q1 q2 q3 (by rw [q4]; exact hT.symm) q5 (by rw [q6]; exact hT.symm) this (by show 0 < T.length; rw [hT]; simp; omega)

/-! ### the hypotheses are met: "éc" of "aéc", alone -/

/-- the sample of C24-C30, after the strings "aéc" are gone -/
def aloneState : State := ⟨[nullBody, b1, b2], [none, none, some v2, some v3]⟩

theorem alone_reached : Reached aloneState := by
  refine ⟨Unit, noMeaning, sample ++ [.destroy 0, .destroy 1], ?_, by decide +kernel⟩
  have app : ∀ (ops more : List (Op Unit)) (s s' : State), SafeRun noMeaning s ops → execAll s ops = .ok s' → SafeRun noMeaning s' more →
      SafeRun noMeaning s (ops ++ more) := by
    intro ops more
    induction ops with
    | nil => intro s s' _ h1 h2; cases h1; exact h2
    | cons op ops ih =>
      intro s s' h0 h1 h2
      unfold execAll at h1
      obtain ⟨s1, g1, g2⟩ := hbind h1
      exact ⟨h0.1, fun s2 e => by rw [g1] at e; cases e; exact ih s1 s' (h0.2 s1 g1) g2 h2⟩
  refine app _ _ _ _ sample_safe sample_run ?_
  refine SafeRun.cons (s1 := ⟨[nullBody, b1, b2], [none, some v1, some v2, some v3]⟩) (by decide +kernel) (by unfold Safe; decide +kernel) ?_
  exact SafeRun.cons (s1 := aloneState) (by decide +kernel) (by unfold Safe; decide +kernel) trivial

theorem alone_sample : Alone aloneState 2 [0x61#32] [0xE9#32, 0x63#32] [] :=
  ⟨v2, b1, rfl, rfl, by decide +kernel, by decide +kernel, rfl, rfl⟩

theorem alone_roomy : Roomy aloneState 1000 := by
  intro b hb
  simp only [aloneState, List.mem_cons, List.not_mem_nil, or_false] at hb
  rcases hb with rfl | rfl | rfl <;> decide

/-- `v += "x"` puts the "x" where the third byte of the storage ends, before the "c": the string becomes "éxc". -/
example : ∃ s', exec aloneState (.addEq 2 3 : Op Unit) = .ok s' ∧ lengthOf s' 2 = some 3 ∧ view s' 2 = some [0xE9#32, 0x78#32, 0x63#32] ∧
    ∀ i, i ≠ 2 → view s' i = view aloneState i := by
  have := C99_insert_chars Unit (v := 2) (w := 3) alone_reached alone_sample (u := [0x78#32]) (by decide +kernel) (by decide) 2 (by decide)
    (fun b hb => by have := alone_roomy b hb; have e : (encodeAll [0x78#32]).length = 1 := by decide +kernel
                    omega) 2 (by decide) (by decide +kernel)
  exact this

end Strpp.SV
