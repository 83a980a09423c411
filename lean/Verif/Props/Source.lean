import Verif.Proof.Source
import Verif.Props.StrVal
import Verif.Props.Pegexp
set_option linter.unusedVariables false
set_option linter.unusedSimpArgs false
/-!
C96: sources are values. A source is the text and the reads that were made on it, or on the one it was copied from; everything that can
be asked of sources follows from those, as Verif/Spec/Source.lean says.
-/
namespace Strpp.Source
open Spec Strpp.SV

/-- What can be asked of a source that the reads `rs` have been made on; `none`: of a null source. -/
structure Answers (narrow : Bool) (t : List Byte) (x : Option (List Read)) (s : Source) : Prop where
  isNull : isNull s = x.isNone
  currentByte : currentByte s = (match x with | none => 0 | some rs => traceBytes (trace narrow t rs) : Nat)
  currentLine : currentLine s = (match x with | none => 1 | some rs => traceLine (trace narrow t rs) : Nat)
  currentColumn : currentColumn s = (match x with | none => 1 | some rs => traceCol (trace narrow t rs) : Nat)
  /-- at the end iff everything has been read -/
  atEof : atEof (t ++ [0#8]) s = .ok (match x with | none => true | some rs => decide (t.drop (traceBytes (trace narrow t rs)) = []))
  /-- at the beginning of a line iff nothing was read, or the last read gave a newline -/
  atBol : atBol s = (match x with
    | none => true
    | some rs => match (trace narrow t rs).getLast? with
      | none => true
      | some y => decide (y.1 = 0x0A#32))
  /-- get_byte gives the next byte, NUL at the end -/
  getByte : (getByte (t ++ [0#8]) s).map Prod.fst =
    .ok (match x with | none => 0#8 | some rs => (t.drop (traceBytes (trace narrow t rs))).headD 0#8)
  /-- get_char gives the next character, UCS4_NONE at the end; if characters are bytes it is get_byte -/
  getChar : (getChar narrow (t ++ [0#8]) s).map Prod.fst = .ok (match x with
    | none => if narrow then 0#32 else 0xFFFFFFFF#32
    | some rs =>
      if narrow then ((t.drop (traceBytes (trace narrow t rs))).headD 0#8).signExtend 32
      else match decode1 (t.drop (traceBytes (trace narrow t rs))) with
        | none => 0xFFFFFFFF#32
        | some y => y.1)

theorem col_one (tr : List (UCS4 × Nat)) : ((traceCol tr : Nat) : Int) = 1 ↔ (match tr.getLast? with | none => True | some y => y.1 = 0x0A#32) := by
  unfold traceCol
  rw [show ((1 + ((tr.map Prod.fst).reverse.takeWhile (· ≠ 0x0A#32)).length : Nat) : Int) = 1 ↔ ((tr.map Prod.fst).reverse.takeWhile (· ≠ 0x0A#32)).length = 0 by omega]
  rw [List.getLast?_eq_head?_reverse, ← List.map_reverse]
  cases tr.reverse with
  | nil => simp
  | cons y ys =>
    simp only [List.map_cons, List.head?_cons, List.length_eq_zero_iff]
    by_cases h : y.1 = 0x0A#32
    · simp [h]
    · simp [h]

theorem den_answers (narrow : Bool) (t : List Byte) (ht : 0#8 ∉ t) (x : Option (List Read)) : Answers narrow t x (den narrow t x) := by
  cases x with
  | none =>
    refine ⟨rfl, rfl, rfl, rfl, rfl, rfl, rfl, ?_⟩
    cases narrow <;> rfl
  | some rs =>
    have hl := trace_le narrow rs t
    refine ⟨rfl, rfl, rfl, rfl, ?_, ?_, ?_, ?_⟩
    · refine (place_eof t ht _ hl).trans ?_
      simp only
      congr 1
      rw [decide_eq_decide, List.drop_eq_nil_iff]
      omega
    · have := col_one (trace narrow t rs)
      simp only [atBol, den, place]
      rw [Bool.eq_iff_iff, beq_iff_eq, this]
      cases (trace narrow t rs).getLast? <;> simp
    · rw [den_byte narrow t ht rs]; rfl
    · cases narrow with
      | true => rw [den_narrow t ht rs]; rfl
      | false =>
        rw [den_char t ht rs]
        simp only [Except.map]
        cases decode1 (t.drop (traceBytes (trace false t rs))) <;> rfl

/-- C96. After any history of making, copying, assigning and reading sources for a text, every source answers what the reads made on it say:
nothing that is done to another source matters, and no call fails. -/
theorem C96_history (narrow : Bool) (t : List Byte) (ht : 0#8 ∉ t) (os : List SrcOp) (ws : List (Option (List Read)))
    (h : srcRun [] os = some ws) :
    ∃ ss, run narrow (t ++ [0#8]) [] os = .ok ss ∧ ss.length = ws.length ∧
      ∀ (v : Nat) s x, ss[v]? = some s → ws[v]? = some x → Answers narrow t x s := by
  refine ⟨_, run_den narrow t ht os [] ws h, by simp, ?_⟩
  intro v s x hs hx
  rw [List.getElem?_map, hx] at hs
  cases hs
  exact den_answers narrow t ht x

/-- How far a source has come -/
def far (narrow : Bool) (t : List Byte) (rs : List Read) : Nat := traceBytes (trace narrow t rs)

/-- C96. Two sources of one text compare as the numbers of bytes read, and null sources are equal; bytes_from is the number of bytes between
them if the first is not behind; comparing a null source with another one is caught by an assertion. -/
theorem C96_pairs (narrow : Bool) (t : List Byte) (ht : 0#8 ∉ t) (hsz : t.length < 18446744073709551616) (os : List SrcOp)
    (ws : List (Option (List Read))) (h : srcRun [] os = some ws) (ss : List Source) (hr : run narrow (t ++ [0#8]) [] os = .ok ss)
    (v w : Nat) (s s' : Source) (x x' : Option (List Read)) (hs : ss[v]? = some s) (hs' : ss[w]? = some s')
    (hx : ws[v]? = some x) (hx' : ws[w]? = some x') :
    match x, x' with
    | some rs, some rs' =>
      same s s' = decide (far narrow t rs = far narrow t rs') ∧ lt s s' = .ok (decide (far narrow t rs < far narrow t rs')) ∧
      minus s s' = .ok ((far narrow t rs : Int) - far narrow t rs') ∧
      (far narrow t rs' ≤ far narrow t rs → bytesFrom s s' = far narrow t rs - far narrow t rs')
    | none, none => same s s' = true ∧ lt s s' = .ok false ∧ minus s s' = .ok 0 ∧ bytesFrom s s' = 0
    | _, _ => same s s' = false ∧ lt s s' = .error .assertion ∧ minus s s' = .error .assertion := by
  rw [show run narrow (t ++ [0#8]) [] os = _ from run_den narrow t ht os [] ws h] at hr
  injection hr with hr
  subst hr
  rw [List.getElem?_map, hx] at hs
  rw [List.getElem?_map, hx'] at hs'
  cases hs
  cases hs'
  cases x with
  | none =>
    cases x' with
    | none => exact ⟨rfl, rfl, rfl, rfl⟩
    | some rs' => exact ⟨rfl, rfl, rfl⟩
  | some rs =>
    cases x' with
    | none => exact ⟨rfl, rfl, rfl⟩
    | some rs' =>
      have h1 := trace_le narrow rs t
      refine ⟨?_, ?_, rfl, ?_⟩
      · show (some _ == some _) = _
        rw [Bool.eq_iff_iff, beq_iff_eq, decide_eq_true_iff, Option.some.injEq]
        exact Iff.rfl
      · show Except.ok (decide ((traceBytes (trace narrow t rs) : Int) < traceBytes (trace narrow t rs'))) = _
        congr 1
        rw [Bool.eq_iff_iff, decide_eq_true_iff, decide_eq_true_iff]
        unfold far
        omega
      · intro hle
        unfold far at hle
        simp only [bytesFrom, den, place, far]
        omega

/-- C96. Reads made on a copy only go forwards, and what they take is the text from where the original is. -/
theorem C96_forwards (narrow : Bool) (t : List Byte) (rs more : List Read) :
    far narrow t rs ≤ far narrow t (rs ++ more) ∧ far narrow t (rs ++ more) ≤ t.length ∧
    trace narrow t (rs ++ more) = trace narrow t rs ++ trace narrow (t.drop (far narrow t rs)) more := by
  have key : trace narrow t (rs ++ more) = trace narrow t rs ++ trace narrow (t.drop (far narrow t rs)) more := by
    induction more generalizing rs with
    | nil => simp [trace]
    | cons r more ih =>
      rw [show rs ++ r :: more = (rs ++ [r]) ++ more by simp, ih, trace]
      unfold far
      rw [trace_snoc]
      cases taken narrow r (t.drop (traceBytes (trace narrow t rs))) with
      | none => simp
      | some y =>
        simp only [Option.toList_some, List.append_assoc, List.cons_append, List.nil_append, List.drop_drop, traceBytes_append]
        simp [traceBytes]
  refine ⟨?_, trace_le narrow _ t, key⟩
  unfold far
  rw [key, traceBytes_append]
  omega

/-- A source that only characters have been read from is at a character of the text. -/
theorem far_chars (cs : List UCS4) (hg : ∀ c ∈ cs, ¬ Reserved c) (k : Nat) :
    far false (encodeAll cs) (List.replicate k .char) = (encodeAll (cs.take k)).length := by
  induction k generalizing cs with
  | zero => simp [far, trace, traceBytes, encodeAll]
  | succ k ih =>
    cases cs with
    | nil =>
      have := trace_le false (List.replicate (k + 1) .char) []
      simp only [encodeAll, List.flatMap_nil, List.take_nil, far, List.length_nil] at this ⊢
      omega
    | cons c cs =>
      have hd := decode1_put c (encodeAll cs) (hg c (by simp))
      have he : encodeAll (c :: cs) = utf8Put c ++ encodeAll cs := by simp [encodeAll]
      have ht : taken false .char (utf8Put c ++ encodeAll cs) = some (c, (utf8Put c).length) := by
        have : ∀ l, taken false .char l = decode1 l := by intro l; cases l <;> rfl
        rw [this]; exact hd
      have hi := ih cs (fun c hc => hg c (by simp [hc]))
      unfold far at hi ⊢
      rw [List.replicate_succ, he, trace, ht]
      simp only [List.drop_left, List.take_succ_cons]
      have : traceBytes ((c, (utf8Put c).length) :: trace false (encodeAll cs) (List.replicate k .char)) =
        (utf8Put c).length + traceBytes (trace false (encodeAll cs) (List.replicate k .char)) := by simp [traceBytes]
      rw [this, hi]
      simp [encodeAll]

theorem encodeAll_append (a b : List UCS4) : encodeAll (a ++ b) = encodeAll a ++ encodeAll b := by simp [encodeAll]

/-- C96. string_to gives the text between two sources: if the first has come to character `i` of the text and the second to character `j`, not
before it, then a new StrVal is made that shows the characters from `i` up to `j`; no other StrVal changes. Between null sources it is empty. -/
theorem C96_text (narrow : Bool) (cs : List UCS4) (hg : ∀ c ∈ cs, ¬ Reserved c) (hz : ∀ c ∈ cs, c ≠ 0#32) (hsz : (encodeAll cs).length < 1073741824)
    (os : List SrcOp) (ws : List (Option (List Read))) (h : srcRun [] os = some ws) (ss : List Source)
    (hr : run narrow (encodeAll cs ++ [0#8]) [] os = .ok ss) (v w : Nat) (s s' : Source) (hs : ss[v]? = some s) (hs' : ss[w]? = some s')
    (st : SV.State) (hst : Reached st) :
    (∀ rs rs' i j, ws[v]? = some (some rs) → ws[w]? = some (some rs') → i ≤ j → j ≤ cs.length →
      far narrow (encodeAll cs) rs = (encodeAll (cs.take i)).length → far narrow (encodeAll cs) rs' = (encodeAll (cs.take j)).length →
      ∃ st', stringTo (encodeAll cs ++ [0#8]) st s s' = .ok st' ∧ view st' st.vars.length = some ((cs.take j).drop i) ∧
        ∀ u, u ≠ st.vars.length → view st' u = view st u) ∧
    (ws[v]? = some none → ws[w]? = some none →
      ∃ st', stringTo (encodeAll cs ++ [0#8]) st s s' = .ok st' ∧ view st' st.vars.length = some [] ∧
        ∀ u, u ≠ st.vars.length → view st' u = view st u) := by
  have ht : 0#8 ∉ encodeAll cs := by
    intro hm
    exact encodeAll_nz cs hg hz _ hm rfl
  rw [show run narrow (encodeAll cs ++ [0#8]) [] os = _ from run_den narrow _ ht os [] ws h] at hr
  injection hr with hr
  subst hr
  have fin : ∀ {st' : SV.State} {u : List UCS4}, Made st st' 0 u (fun _ => True) → Frame st st' (fun _ => False) →
      view st' st.vars.length = some u ∧ ∀ x, x ≠ st.vars.length → view st' x = view st x := by
    intro st' u hm hf
    have he := made_effect hst.inv.1 hm hf (fun _ hh => hh)
    refine ⟨?_, fun x hx => ?_⟩
    · rw [he, if_pos rfl]
    · rw [he, if_neg hx]
  constructor
  · intro rs rs' i j hx hx' hij hj h1 h2
    rw [List.getElem?_map, hx] at hs
    rw [List.getElem?_map, hx'] at hs'
    cases hs
    cases hs'
    have hcut : cs = cs.take i ++ ((cs.take j).drop i ++ cs.drop j) := by
      have a1 : cs.take j = (cs.take j).take i ++ (cs.take j).drop i := (List.take_append_drop i _).symm
      rw [List.take_take, Nat.min_eq_left hij] at a1
      rw [← List.append_assoc, ← a1, List.take_append_drop]
    have htj : encodeAll (cs.take j) = encodeAll (cs.take i) ++ encodeAll ((cs.take j).drop i) := by
      rw [← encodeAll_append]
      congr 1
      have a1 : cs.take j = (cs.take j).take i ++ (cs.take j).drop i := (List.take_append_drop i _).symm
      rw [List.take_take, Nat.min_eq_left hij] at a1
      exact a1
    have hmem : encodeAll cs = encodeAll (cs.take i) ++ (encodeAll ((cs.take j).drop i) ++ encodeAll (cs.drop j)) := by
      rw [← encodeAll_append, ← encodeAll_append, ← hcut]
    have hlen : (encodeAll ((cs.take j).drop i)).length ≤ (encodeAll cs).length := by
      rw [hmem]; simp only [List.length_append]; omega
    have hw : Arr.wrap ((far narrow (encodeAll cs) rs' : Int) - far narrow (encodeAll cs) rs) = (encodeAll ((cs.take j).drop i)).length := by
      have e : ((far narrow (encodeAll cs) rs' : Int) - far narrow (encodeAll cs) rs) = ((encodeAll ((cs.take j).drop i)).length : Int) := by
        rw [h1, h2, htj, List.length_append]; omega
      rw [e]
      unfold Arr.wrap
      omega
    obtain ⟨z, rest, hzr⟩ : ∃ z rest, encodeAll (cs.drop j) ++ [0#8] = z :: rest := by
      cases hq : encodeAll (cs.drop j) with
      | nil => exact ⟨_, _, rfl⟩
      | cons a b => exact ⟨_, _, rfl⟩
    have hm2 : encodeAll cs ++ [0#8] = encodeAll (cs.take i) ++ (encodeAll ((cs.take j).drop i) ++ z :: rest) := by
      rw [hmem, ← hzr]; simp only [List.append_assoc]
    obtain ⟨st', e1, e2⟩ := newData_made hst.inv.1 hst.inv.2 (fun _ => True) (encodeAll cs ++ [0#8]) (far narrow (encodeAll cs) rs) 0
      (encodeAll (cs.take i)) ((cs.take j).drop i) z rest hm2 h1 (fun c hc => hg c (List.mem_of_mem_take (List.mem_of_mem_drop hc))) (by omega) (by omega)
    have e1' : stringTo (encodeAll cs ++ [0#8]) st (den narrow (encodeAll cs) (some rs)) (den narrow (encodeAll cs) (some rs')) = .ok st' := by
      simp only [stringTo, den, place]
      unfold far at hw e1
      rw [hw]
      exact e1
    exact ⟨st', e1', fin e2 (frame_newData hst.inv.1.ids hst.inv.1.pos _ _ _ _ e1)⟩
  · intro hx hx'
    rw [List.getElem?_map, hx] at hs
    rw [List.getElem?_map, hx'] at hs'
    cases hs
    cases hs'
    exact ⟨_, rfl, fin (newEmpty_made hst.inv.1 hst.inv.2 _) (frame_newEmpty hst.inv.1.ids hst.inv.1.pos)⟩

theorem readN_over {E : Type} (mem : List E) (n : Nat) : ∀ p, mem.length < p + n → 0 < n → Arr.readN mem p n = .error .ub := by
  induction n with
  | zero => intro p _ h; omega
  | succ n ih =>
    intro p h _
    rw [Arr.readN]
    rcases Nat.lt_or_ge p mem.length with hp | hp
    · have : rd mem p = .ok mem[p] := by rw [rd_eq_ok, List.getElem?_eq_getElem hp]
      rw [this, res_bind_ok, ih (p + 1) (by omega) (by omega)]
      rfl
    · have : rd mem p = .error .ub := by unfold rd; rw [List.getElem?_eq_none hp]
      rw [this]; rfl

/-- C96. The other way around it is not defined: from a source to one that is behind it, string_to reads outside of the text. -/
theorem C96_text_backwards (narrow : Bool) (t : List Byte) (ht : 0#8 ∉ t) (hsz : t.length < 1073741824)
    (os : List SrcOp) (ws : List (Option (List Read))) (h : srcRun [] os = some ws) (ss : List Source)
    (hr : run narrow (t ++ [0#8]) [] os = .ok ss) (v w : Nat) (s s' : Source) (hs : ss[v]? = some s) (hs' : ss[w]? = some s')
    (st : SV.State) (rs rs' : List Read) (hx : ws[v]? = some (some rs)) (hx' : ws[w]? = some (some rs'))
    (hlt : far narrow t rs' < far narrow t rs) : stringTo (t ++ [0#8]) st s s' = .error .ub := by
  rw [show run narrow (t ++ [0#8]) [] os = _ from run_den narrow _ ht os [] ws h] at hr
  injection hr with hr
  subst hr
  rw [List.getElem?_map, hx] at hs
  rw [List.getElem?_map, hx'] at hs'
  cases hs
  cases hs'
  have h1 := trace_le narrow rs t
  unfold far at hlt
  simp only [stringTo, den, place]
  generalize traceBytes (trace narrow t rs) = p at hlt h1 ⊢
  generalize traceBytes (trace narrow t rs') = q at hlt ⊢
  have hw : 2147483648 < Arr.wrap ((q : Int) - p) := by unfold Arr.wrap; omega
  generalize Arr.wrap ((q : Int) - p) = n at hw
  unfold newData mkBody lenOr
  rw [if_neg (by simp; omega), if_neg (by simp; omega)]
  simp only [res_bind_ok]
  rw [readN_over _ _ _ (by simp; omega) (by omega)]
  rfl

/-- C96. Sources that only characters have been read from are always at a character: `string_to` is defined for any two of them. -/
theorem C96_chars (cs : List UCS4) (hg : ∀ c ∈ cs, ¬ Reserved c) (k : Nat) :
    far false (encodeAll cs) (List.replicate k .char) = (encodeAll (cs.take k)).length := far_chars cs hg k

theorem fall_le (m : List Byte) (sp : Nat) (b0 : Byte) (k : Nat) : ∀ (ch : UCS4) (cp : Nat) (r : UCS4 × Nat), sp ≤ cp →
    utf8GetFall m sp b0 k ch cp = .ok r → sp ≤ r.2 := by
  induction k using Nat.strongRecOn with
  | _ k ih =>
    intro ch cp r hle h
    match k with
    | 0 => simp only [utf8GetFall] at h; cases h; simp
    | 1 => simp only [utf8GetFall] at h; cases h; simp; omega
    | k + 2 =>
      simp only [utf8GetFall] at h
      obtain ⟨b, -, h⟩ := hbind h
      split at h
      · cases h; simp
      · exact ih (k + 1) (by omega) _ _ _ (by omega) h

theorem utf8Get_le {m : List Byte} {p : Nat} {r : UCS4 × Nat} (h : utf8Get m p = .ok r) : p ≤ r.2 := by
  unfold utf8Get at h
  obtain ⟨b, -, h⟩ := hbind h
  exact fall_le m p b _ _ _ _ (Nat.le_refl _) h

/-- the source that matching works with -/
def ofSrc (s : Pex.Src) : Source := ⟨some s.pos, s.byteCount, s.line, s.col⟩

/-- C96. This is the source that Pegexp's matching uses (C36-C41): reading from it is the same in both models. -/
theorem C96_matching (m : List Byte) (s : Pex.Src) :
    getChar false m (ofSrc s) = (Pex.getChar m s).map (fun r => (r.1, ofSrc r.2)) ∧
    getByte m (ofSrc s) = (Pex.getByte m s).map (fun r => (r.1, ofSrc r.2)) := by
  have hbump : ∀ (q : Pex.Src) c, ofSrc (Pex.bump q c) = bump (ofSrc q) c := by
    intro q c
    unfold Pex.bump bump
    split <;> simp [ofSrc]
  constructor
  · simp only [getChar, Pex.getChar, atEof, Pex.atEof, ptr, ofSrc]
    rw [if_neg (by simp)]
    cases hb : rd m s.pos with
    | error e => rfl
    | ok b =>
      simp only [res_bind_ok]
      by_cases h0 : (b == 0#8) = true
      · rw [if_pos h0, if_pos h0]; rfl
      · rw [if_neg h0, if_neg h0]
        cases hg : utf8Get m s.pos with
        | error e => rfl
        | ok r =>
          simp only [res_bind_ok, Except.map]
          have hle : s.pos ≤ r.2 := utf8Get_le hg
          have := hbump { s with pos := r.2, byteCount := s.byteCount + (r.2 - s.pos) } r.1
          simp only [ofSrc] at this
          rw [this]
          congr 4
          omega
  · simp only [getByte, Pex.getByte, atEof, Pex.atEof, ptr, ofSrc]
    cases hb : rd m s.pos with
    | error e => rfl
    | ok b =>
      simp only [res_bind_ok]
      by_cases h0 : (b == 0#8) = true
      · rw [if_pos h0, if_pos h0]; rfl
      · rw [if_neg h0, if_neg h0]
        simp only [Except.map]
        have := hbump { s with pos := s.pos + 1, byteCount := s.byteCount + 1 } (Pex.sx b)
        simp only [ofSrc] at this
        rw [this, hb]
        rfl

/-! Sources that these theorems are about exist: "é\nz" read by characters and by bytes, with copies -/

example : srcRun [] [.start, .read 0 .char, .copy 0, .read 1 .char, .read 1 .byte, .read 1 .byte, .null, .assign 0 1, .read 2 .char] =
    some [some [.char, .char, .byte, .byte], some [.char, .char, .byte, .byte], none] := by decide +kernel

example : run false [0xC3#8, 0xA9#8, 0x0A#8, 0x7A#8, 0#8] [] [.start, .read 0 .char, .copy 0, .read 1 .char, .read 1 .byte, .null, .read 2 .char] =
    .ok [⟨some 2, 2, 1, 2⟩, ⟨some 4, 4, 2, 2⟩, ⟨none, 0, 1, 1⟩] := by decide +kernel

example : far false [0xC3#8, 0xA9#8, 0x0A#8, 0x7A#8] [.byte, .char] = 2 ∧ far true [0xC3#8, 0xA9#8, 0x0A#8] [.char] = 1 := by decide +kernel

example : encodeAll ([0xE9#32, 0x0A#32, 0x7A#32].take 1) = [0xC3#8, 0xA9#8] := by decide +kernel

end Strpp.Source
