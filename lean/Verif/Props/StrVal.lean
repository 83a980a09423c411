import Verif.Proof.StrHistory
/-!
C24-C30 and C52: string values. Vocabulary: Verif/Spec/StrVal.lean and Verif/Spec/StrHistory.lean (`view` is the text a
variable shows, `effect` and `plain` are what calls do on plain lists of characters).
-/
namespace Strpp.SV

open Spec Arr

/-- Every call of the history is one the code gets right (`Safe`) in the state it is made in. -/
def SafeRun {S : Type} (F : Meaning S) (s : State) : List (Op S) → Prop
  | [] => True
  | op :: ops => Safe F s op ∧ ∀ s', exec s op = .ok s' → SafeRun F s' ops

/-- `s` is the result of a history of safe calls from the start of the program. -/
def Reached (s : State) : Prop :=
  ∃ (S : Type) (F : Meaning S) (ops : List (Op S)), SafeRun F State.init ops ∧ execAll State.init ops = .ok s

theorem init_inv : Inv State.init := ⟨rfl, fun v x hv => by simp [State.init] at hv⟩

theorem init_roomy : Roomy State.init 0 := by
  intro b hb
  simp only [State.init, List.mem_singleton] at hb
  subst hb
  decide

theorem run_refines {S : Type} (F : Meaning S) : ∀ (ops : List (Op S)) {s : State}, Inv s → Roomy s 0 → SafeRun F s ops →
    ∃ s', execAll s ops = .ok s' ∧ Inv s' ∧ Roomy s' 0 ∧ view s' = plain F (view s) s.vars.length ops := by
  intro ops
  induction ops with
  | nil => intro s h hr _; exact ⟨s, rfl, h, hr, rfl⟩
  | cons op ops ih =>
    intro s h hr hs
    obtain ⟨s1, e1, h1, r1, l1, v1⟩ := refine_step F h hr op hs.1
    obtain ⟨s2, e2, h2, r2, v2⟩ := ih h1 r1 (hs.2 s1 e1)
    refine ⟨s2, ?_, h2, r2, ?_⟩
    · rw [execAll, e1, res_bind_ok, e2]
    · rw [v2, plain, l1]
      congr 1
      funext v
      exact v1 v

theorem Reached.inv {s : State} (h : Reached s) : Inv s ∧ Roomy s 0 := by
  obtain ⟨S, F, ops, hs, e⟩ := h
  obtain ⟨s', e', h', r', -⟩ := run_refines F ops init_inv init_roomy hs
  rw [e] at e'; cases e'
  exact ⟨h', r'⟩

/-- what a member function sees of a variable in a reached state -/
theorem Reached.str {s : State} (h : Reached s) {v : Nat} {t : List UCS4} (hv : view s v = some t) :
    ∃ σ pre post, getStr s v = .ok σ ∧ Den σ pre t post ∧ (t = [] → pre ++ post = []) := by
  obtain ⟨x, b, pre, post, hx, hb, hd, he⟩ := h.inv.1.txt hv
  exact ⟨_, pre, post, getStr_ok hx hb, hd, he⟩

/-! ### C52: whole histories -/

/-- C52. A history of safe calls runs without fault, and every variable shows what the calls give on plain values. -/
theorem C52_history {S : Type} (F : Meaning S) (ops : List (Op S)) (hs : SafeRun F State.init ops) :
    ∃ s, execAll State.init ops = .ok s ∧ view s = plain F (fun _ => none) 0 ops := by
  obtain ⟨s, e, -, -, hv⟩ := run_refines F ops init_inv init_roomy hs
  refine ⟨s, e, ?_⟩
  rw [hv]
  have : view State.init = fun _ => none := by funext v; rfl
  rw [this]
  rfl

/-- C52. One more call: exactly the variable named by `effect` changes, to the text given there. -/
theorem C52_step {S : Type} (F : Meaning S) {s : State} (h : Reached s) (op : Op S) (hs : Safe F s op) :
    ∃ s', exec s op = .ok s' ∧
      ∀ v, view s' v = if v = (effect F (view s) s.vars.length op).1 then (effect F (view s) s.vars.length op).2 else view s v := by
  obtain ⟨s', e, -, -, -, hv⟩ := refine_step F h.inv.1 h.inv.2 op hs
  exact ⟨s', e, hv⟩

/-- C52. Every byte sequence that the program can read back is shown: `asUTF8(bytes)` gives the UTF-8 of the text. -/
theorem C52_bytes {s : State} (h : Reached s) {v : Nat} {t : List UCS4} (hv : view s v = some t) :
    ∃ σ, getStr s v = .ok σ ∧ σ.bytes = .ok (encodeAll t) ∧ σ.numBytes = .ok (encodeAll t).length := by
  obtain ⟨σ, pre, post, e, hd, -⟩ := h.str hv
  exact ⟨σ, e, hd.bytes, hd.numBytes⟩

/-! ### C24: isolation -/

theorem reach_ids {S : Type} : ∀ (ops : List (Op S)) {s s' : State}, Ids s → 0 < s.bodies.length → execAll s ops = .ok s' →
    Ids s' ∧ 0 < s'.bodies.length := by
  intro ops
  induction ops with
  | nil => intro s s' h h0 e; cases e; exact ⟨h, h0⟩
  | cons op ops ih =>
    intro s s' h h0 e
    rw [execAll] at e
    obtain ⟨s1, e1, e⟩ := hbind e
    have hf := frame_exec h h0 op e1
    exact ih hf.ids (Nat.lt_of_lt_of_le h0 hf.bl) e

/-- The variable a call is made on, if the call changes it. -/
def Changes {S : Type} : Op S → Nat → Prop
  | .assign v _, w | .destroy v, w | .addEq v _, w | .addEqChar v _, w | .insert v _ _, w | .asUTF8 v, w | .toLower v _, w
  | .toUpper v _, w | .transform v _ _ _, w => w = v
  | _, _ => False

/-- C24. After any history whatever, a call (right or wrong, on whatever data) leaves the text of every variable alone except
for the one it is made on. -/
theorem C24_isolation {S : Type} (ops : List (Op S)) (s : State) (h : execAll State.init ops = .ok s) (op : Op S) (s' : State)
    (e : exec s op = .ok s') (w : Nat) (hw : w < s.vars.length) (hne : ¬ Changes op w) : view s' w = view s w := by
  obtain ⟨h1, h2⟩ := reach_ids ops (fun v x hv => by simp [State.init] at hv) (by decide) h
  have hf := frame_exec h1 h2 op e
  refine (hf.same w hw ?_).view h1 hw
  cases op <;> exact hne

/-- C24. So a variable that no call of a history changes keeps its text through all of it. -/
theorem C24_isolation_history {S : Type} (ops : List (Op S)) (s : State) (h : execAll State.init ops = .ok s) (later : List (Op S)) (s' : State)
    (e : execAll s later = .ok s') (w : Nat) (hw : w < s.vars.length) (hne : ∀ op ∈ later, ¬ Changes op w) : view s' w = view s w := by
  obtain ⟨h1, h2⟩ := reach_ids ops (fun v x hv => by simp [State.init] at hv) (by decide) h
  clear h
  induction later generalizing s with
  | nil => cases e; rfl
  | cons op later ih =>
    rw [execAll] at e
    obtain ⟨s1, e1, e⟩ := hbind e
    have hf := frame_exec h1 h2 op e1
    have h3 : ¬ targets op w := by have := hne op (by simp); cases op <;> exact this
    rw [ih s1 e (Nat.lt_of_lt_of_le hw hf.vl) (fun op hop => hne op (by simp [hop])) hf.ids (Nat.lt_of_lt_of_le h2 hf.bl)]
    exact (hf.same w hw h3).view h1 hw

/-! ### observing concrete histories -/

/-- the bytes variable `v` shows after a history -/
def showsAfter (ops : List (Op Unit)) (v : Nat) : Res (List Byte) := do
  let s ← execAll State.init ops
  let σ ← getStr s v
  σ.bytes

/-- Non-vacuity of C24: variables 0, 1 and 2 share one body; 1 is appended to, then 0. -/
example : (showsAfter [.ofC [0x61#8, 0x62#8, 0x63#8, 0#8], .copy 0, .substr 0 1 2, .ofC [0x78#8, 0#8], .addEq 1 3, .addEq 0 3] 2 =
      .ok [0x62#8, 0x63#8]) ∧
    showsAfter [.ofC [0x61#8, 0x62#8, 0x63#8, 0#8], .copy 0, .substr 0 1 2, .ofC [0x78#8, 0#8], .addEq 1 3, .addEq 0 3] 1 =
      .ok [0x61#8, 0x62#8, 0x63#8, 0x78#8] := by decide +kernel

/-! ### C25: length, characters and substrings -/

/-- C25. `length()` and `operator[]`: the character at an index, NUL at the length, UCS4_NONE at any other index. -/
theorem C25_index {s : State} (h : Reached s) {v : Nat} {t : List UCS4} (hv : view s v = some t) :
    ∃ σ, getStr s v = .ok σ ∧ σ.num = t.length ∧
      (∀ (i : Nat) (hi : i < t.length), σ.get i = .ok t[i]) ∧
      σ.get t.length = .ok 0#32 ∧
      (∀ i : Int, -2147483648 ≤ i → i < 2147483648 → i < 0 ∨ (t.length : Int) < i → σ.get i = .ok 0xFFFFFFFF#32) := by
  obtain ⟨σ, pre, post, e, hd, -⟩ := h.str hv
  have hcap := hd.cap
  refine ⟨σ, e, hd.num, fun i hi => ?_, ?_, fun i h1 h2 h3 => ?_⟩
  · rw [hd.get, wrap_nat (by omega), if_neg (by omega), List.getElem?_eq_getElem hi]; rfl
  · rw [hd.get, wrap_nat (by omega), if_pos rfl]
  · have hw : t.length < wrap i := by unfold wrap; omega
    rw [hd.get, if_neg (by omega), List.getElem?_eq_none (by omega)]; rfl

/-- The new variable a call makes shows `t`, all others show what they did. -/
def Makes {S : Type} (s : State) (op : Op S) (t : List UCS4) : Prop :=
  ∃ s', exec s op = .ok s' ∧ view s' s.vars.length = some t ∧ ∀ v, v ≠ s.vars.length → view s' v = view s v

theorem makes_of {S : Type} {s : State} (h : Reached s) {op : Op S} {t : List UCS4} {P : Nat → Prop} {s' : State} (e : exec s op = .ok s')
    (hm : Made s s' 0 t P) (hT : ∀ v, ¬ targets op v) : Makes s op t := by
  have := made_effect h.inv.1 hm (frame_exec h.inv.1.ids h.inv.1.pos op e) hT
  refine ⟨s', e, ?_, fun v hv => ?_⟩
  · rw [this, if_pos rfl]
  · rw [this, if_neg hv]

/-- C25. `substr(at, len)`: at most `len` characters from `at` on; -1 means all of them, a smaller `len` none. -/
theorem C25_substr (S : Type) {s : State} (h : Reached s) {w : Nat} {t : List UCS4} (hv : view s w = some t) (at_ : Nat) (len : Int)
    (hl : -2147483648 ≤ len ∧ len < 2147483648) :
    Makes (S := S) s (.substr w at_ len) (if len < -1 then [] else if len = -1 then t.drop at_ else (t.drop at_).take len.toNat) := by
  obtain ⟨s', e, hm⟩ := substr_made h.inv.1 (h.inv.1.txt hv) at_ len h.inv.2 hl
  exact makes_of h e hm (fun _ hh => hh)

/-- C25. `head(n)`: the first `n` characters (all when there are fewer). -/
theorem C25_head (S : Type) {s : State} (h : Reached s) {w : Nat} {t : List UCS4} (hv : view s w = some t) (n : Nat)
    (hn : n < 2147483648 ∨ n = 4294967295) : Makes (S := S) s (.head w n) (t.take n) := by
  obtain ⟨s', e, hm⟩ := head_made h.inv.1 (h.inv.1.txt hv) n h.inv.2 hn
  exact makes_of h e hm (fun _ hh => hh)

/-- C25. `tail(n)`: the last `n` characters; nothing when there are fewer. -/
theorem C25_tail (S : Type) {s : State} (h : Reached s) {w : Nat} {t : List UCS4} (hv : view s w = some t) (n : Nat) (hn : n < 4294967296) :
    Makes (S := S) s (.tail w n) (if n ≤ t.length then t.drop (t.length - n) else []) := by
  obtain ⟨s', e, hm⟩ := tail_made h.inv.1 (h.inv.1.txt hv) n h.inv.2 hn
  exact makes_of h e hm (fun _ hh => hh)

/-- C25. `shorter(n)`: all but the last `n` characters. -/
theorem C25_shorter (S : Type) {s : State} (h : Reached s) {w : Nat} {t : List UCS4} (hv : view s w = some t) (n : Nat) (hn : n ≤ t.length) :
    Makes (S := S) s (.shorter w n) (t.take (t.length - n)) := by
  obtain ⟨s', e, hm⟩ := shorter_made h.inv.1 (h.inv.1.txt hv) n h.inv.2 hn
  exact makes_of h e hm (fun _ hh => hh)

/-- C25 fails for `shorter(length()+1)`, which gives the whole string: "abc".shorter(4) is "abc", though .shorter(5) is empty. -/
theorem C25_refuted_shorter :
    showsAfter [.ofC [0x61#8, 0x62#8, 0x63#8, 0#8], .shorter 0 4] 1 = .ok [0x61#8, 0x62#8, 0x63#8] ∧
    showsAfter [.ofC [0x61#8, 0x62#8, 0x63#8, 0#8], .shorter 0 5] 1 = .ok [] := by decide +kernel

/-- C25 fails for `tail(n)` of a string that has fewer characters than `n`, unlike `head(n)`. -/
theorem C25_refuted_tail :
    showsAfter [.ofC [0x61#8, 0x62#8, 0x63#8, 0#8], .tail 0 4] 1 = .ok [] ∧
    showsAfter [.ofC [0x61#8, 0x62#8, 0x63#8, 0#8], .head 0 4] 1 = .ok [0x61#8, 0x62#8, 0x63#8] := by decide +kernel

/-! ### C26: equality and comparison -/

/-- C26. `operator==`: the same characters, whatever storage is shared and whatever lies around them. -/
theorem C26_equal {s : State} (h : Reached s) {v w : Nat} {t u : List UCS4} (hv : view s v = some t) (hw : view s w = some u) :
    ∃ σ τ, getStr s v = .ok σ ∧ getStr s w = .ok τ ∧ σ.eq τ = .ok (decide (t = u)) := by
  obtain ⟨σ, p1, q1, e1, d1, -⟩ := h.str hv
  obtain ⟨τ, p2, q2, e2, d2, -⟩ := h.str hw
  exact ⟨σ, τ, e1, e2, d1.eq d2⟩

/-- C26. `compare`: the sign of its result is the dictionary order of the code points, for strings neither of which is a
slice. -/
def AtEnd (s : State) (v : Nat) : Prop :=
  ∀ (x : Var) (b : SBody), s.vars[v]? = some (some x) → s.bodies[x.body]? = some b →
    (decodeAll b.arr.elems.dropLast).length = x.off + x.num

theorem Reached.strEnd {s : State} (h : Reached s) {v : Nat} {t : List UCS4} (hv : view s v = some t) (he : AtEnd s v) :
    ∃ σ pre, getStr s v = .ok σ ∧ Den σ pre t [] := by
  obtain ⟨x, b, pre, post, hx, hb, hd, -⟩ := h.inv.1.txt hv
  have h1 := he x b hx hb
  rw [den_text hd.body] at h1
  have h2 := hd.off
  have h3 := hd.num
  simp only [List.length_append] at h1 h2 h3
  have : post = [] := List.eq_nil_of_length_eq_zero (by omega)
  subst this
  exact ⟨_, pre, getStr_ok hx hb, hd⟩

/-- C26, partial. `compare` gives the dictionary order of code points when the string compared with extends to the end of
its body and the string itself has no NUL characters. Missing: comparands that end before their body does, where it is
refuted below. -/
theorem C26_compare_partial {s : State} (h : Reached s) {v w : Nat} {t u : List UCS4} (hv : view s v = some t) (hw : view s w = some u)
    (hend : AtEnd s w) (hnz : ∀ c ∈ t, c ≠ 0#32) :
    ∃ σ τ r, getStr s v = .ok σ ∧ getStr s w = .ok τ ∧ σ.compare τ = .ok r ∧
      (r < 0 ↔ CharsLt t u) ∧ (r = 0 ↔ t = u) ∧ (0 < r ↔ CharsLt u t) := by
  obtain ⟨σ, p1, q1, e1, d1, -⟩ := h.str hv
  obtain ⟨τ, p2, e2, d2⟩ := h.strEnd hw hend
  obtain ⟨r, hr⟩ := d1.compare d2 (Or.inl ⟨rfl, hnz⟩)
  exact ⟨σ, τ, r, e1, e2, hr⟩

/-- C26, partial. It also does so for any slice that is not a proper beginning of the string. -/
theorem C26_compare_slice_partial {s : State} (h : Reached s) {v w : Nat} {t u : List UCS4} (hv : view s v = some t) (hw : view s w = some u)
    (hp : ¬ ∃ c r, t = u ++ c :: r) :
    ∃ σ τ r, getStr s v = .ok σ ∧ getStr s w = .ok τ ∧ σ.compare τ = .ok r ∧
      (r < 0 ↔ CharsLt t u) ∧ (r = 0 ↔ t = u) ∧ (0 < r ↔ CharsLt u t) := by
  obtain ⟨σ, p1, q1, e1, d1, -⟩ := h.str hv
  obtain ⟨τ, p2, q2, e2, d2, -⟩ := h.str hw
  obtain ⟨r, hr⟩ := d1.compare d2 (Or.inr hp)
  exact ⟨σ, τ, r, e1, e2, hr⟩

/-- the result of `compare` between variables after a history -/
def compareAfter (ops : List (Op Unit)) (v w : Nat) : Res Int := do
  let s ← execAll State.init ops
  let σ ← getStr s v
  let τ ← getStr s w
  σ.compare τ

/-- C26 fails: "ab" and the slice "a" of "ac" each compare less than the other (and "ab" is equal to neither). -/
theorem C26_refuted_compare :
    compareAfter [.ofC [0x61#8, 0x62#8, 0#8], .ofC [0x61#8, 0x63#8, 0#8], .head 1 1] 0 2 = .ok (-1) ∧
    compareAfter [.ofC [0x61#8, 0x62#8, 0#8], .ofC [0x61#8, 0x63#8, 0#8], .head 1 1] 2 0 = .ok (-1) := by decide +kernel

/-! ### C27: searching -/

/-- the character that follows a slice in its body (NUL at the end of the body) -/
def nextChar (s : State) (v : Nat) : UCS4 :=
  match s.vars[v]? with
  | some (some x) =>
    match s.bodies[x.body]? with
    | some b => ((decodeAll b.arr.elems.dropLast).drop (x.off + x.num)).headD 0#32
    | none => 0#32
  | _ => 0#32

theorem Reached.strNext {s : State} (h : Reached s) {v : Nat} {t : List UCS4} (hv : view s v = some t) :
    ∃ σ pre post, getStr s v = .ok σ ∧ Den σ pre t post ∧ nextOf post = nextChar s v := by
  obtain ⟨x, b, pre, post, hx, hb, hd, -⟩ := h.inv.1.txt hv
  refine ⟨_, pre, post, getStr_ok hx hb, hd, ?_⟩
  unfold nextChar
  have h2 := hd.off
  have h3 := hd.num
  simp only at h2 h3
  rw [hx]
  simp only
  rw [hb]
  simp only
  rw [den_text hd.body, h2, h3, ← List.length_append, List.drop_left]
  rfl

theorem first_shrink {p : UCS4 → Prop} {t : List UCS4} {c : UCS4} (hc : ¬ p c) {start : Nat} {r : Int}
    (h : IsFirst (fun i => ∃ d, (t ++ [c])[i]? = some d ∧ p d) start (t.length + 1) r) :
    IsFirst (fun i => ∃ d, t[i]? = some d ∧ p d) start t.length r := by
  have key : ∀ i, i < t.length → (t ++ [c])[i]? = t[i]? := fun i hi => List.getElem?_append_left hi
  rcases h with ⟨i, a1, a2, a3, ⟨d, a4, a5⟩, a6⟩ | ⟨a1, a2⟩
  · have hi : i < t.length := by
      rcases Nat.lt_or_ge i t.length with hl | hl
      · exact hl
      · exfalso
        have : i = t.length := by omega
        subst this
        simp at a4
        subst a4
        exact hc a5
    refine Or.inl ⟨i, a1, a2, hi, ⟨d, by rw [← key i hi]; exact a4, a5⟩, fun j h1 h2 => ?_⟩
    have := a6 j h1 h2
    simp only [key j (by omega)] at this
    exact this
  · refine Or.inr ⟨a1, fun j h1 h2 => ?_⟩
    have := a2 j h1 (by omega)
    simp only [key j h2] at this
    exact this

/-- C27, partial. `find(ch, after)` gives the first index after `after` where `ch` is, or -1, provided `ch` is not the
character that follows in the body (NUL at its end). Missing: that case, refuted below. -/
theorem C27_find_partial {s : State} (h : Reached s) {v : Nat} {t : List UCS4} (hv : view s v = some t) (ch : UCS4) (after : Int)
    (ha : -1 ≤ after ∧ after < 2147483647) (hn : ch ≠ nextChar s v) :
    ∃ σ r, getStr s v = .ok σ ∧ σ.find ch after = .ok r ∧ IsFirst (fun i => ∃ c, t[i]? = some c ∧ ch = c) (after + 1).toNat t.length r := by
  obtain ⟨σ, pre, post, e, hd, hp⟩ := h.strNext hv
  obtain ⟨r, e2, hr⟩ := findFrom hd (fun c => .ok (ch == c)) (fun c => ch = c) (fun c => by congr 1) after ha
  rw [hp] at hr
  exact ⟨σ, r, e, e2, first_shrink hn hr⟩

/-- C27, partial. `findAny(s, after)`, provided the character that follows in the body is not in `s`. -/
theorem C27_findAny_partial {s : State} (h : Reached s) {v w : Nat} {t u : List UCS4} (hv : view s v = some t) (hw : view s w = some u) (after : Int)
    (ha : -1 ≤ after ∧ after < 2147483647) (hn : nextChar s v ∉ u) :
    ∃ σ τ r, getStr s v = .ok σ ∧ getStr s w = .ok τ ∧ σ.findAny τ after = .ok r ∧
      IsFirst (fun i => ∃ c, t[i]? = some c ∧ c ∈ u) (after + 1).toNat t.length r := by
  obtain ⟨σ, pre, post, e, hd, hp⟩ := h.strNext hv
  obtain ⟨τ, p2, q2, e2, d2, -⟩ := h.str hw
  obtain ⟨r, e3, hr⟩ := findFrom hd τ.has (fun c => c ∈ u) (fun c => has_spec d2 c) after ha
  rw [hp] at hr
  exact ⟨σ, τ, r, e, e2, e3, first_shrink hn hr⟩

/-- C27, partial. `findNot(s, after)`, provided the character that follows in the body is in `s`. -/
theorem C27_findNot_partial {s : State} (h : Reached s) {v w : Nat} {t u : List UCS4} (hv : view s v = some t) (hw : view s w = some u) (after : Int)
    (ha : -1 ≤ after ∧ after < 2147483647) (hn : nextChar s v ∈ u) :
    ∃ σ τ r, getStr s v = .ok σ ∧ getStr s w = .ok τ ∧ σ.findNot τ after = .ok r ∧
      IsFirst (fun i => ∃ c, t[i]? = some c ∧ c ∉ u) (after + 1).toNat t.length r := by
  obtain ⟨σ, pre, post, e, hd, hp⟩ := h.strNext hv
  obtain ⟨τ, p2, q2, e2, d2, -⟩ := h.str hw
  obtain ⟨r, e3, hr⟩ := findFrom hd τ.hasNot (fun c => c ∉ u) (fun c => hasNot_spec d2 c) after ha
  rw [hp] at hr
  exact ⟨σ, τ, r, e, e2, e3, first_shrink (p := fun c => c ∉ u) (fun hh => hh hn) hr⟩

/-- C27. In every case: the searches forward look at one more character, the one that follows in the body. -/
theorem C27_find_exact {s : State} (h : Reached s) {v : Nat} {t : List UCS4} (hv : view s v = some t) (ch : UCS4) (after : Int)
    (ha : -1 ≤ after ∧ after < 2147483647) :
    ∃ σ r, getStr s v = .ok σ ∧ σ.find ch after = .ok r ∧
      IsFirst (fun i => ∃ c, (t ++ [nextChar s v])[i]? = some c ∧ ch = c) (after + 1).toNat (t.length + 1) r := by
  obtain ⟨σ, pre, post, e, hd, hp⟩ := h.strNext hv
  obtain ⟨r, e2, hr⟩ := findFrom hd (fun c => .ok (ch == c)) (fun c => ch = c) (fun c => by congr 1) after ha
  rw [hp] at hr
  exact ⟨σ, r, e, e2, hr⟩

/-- C27. `rfind(ch, before)`: the last index before `before` (-1: in the whole string) where `ch` is, or -1. -/
theorem C27_rfind {s : State} (h : Reached s) {v : Nat} {t : List UCS4} (hv : view s v = some t) (ch : UCS4) (before : Int)
    (hb : before = -1 ∨ (0 ≤ before ∧ before ≤ t.length)) :
    ∃ σ r, getStr s v = .ok σ ∧ σ.rfind ch before = .ok r ∧
      IsLast (fun i => ∃ c, t[i]? = some c ∧ ch = c) (if before = -1 then t.length else before.toNat) r := by
  obtain ⟨σ, pre, post, e, hd, -⟩ := h.str hv
  obtain ⟨r, e2, hr⟩ := rfindFrom hd (fun c => .ok (ch == c)) (fun c => ch = c) (fun c => by congr 1) before hb
  exact ⟨σ, r, e, e2, hr⟩

/-- C27. `rfindAny(s, before)` -/
theorem C27_rfindAny {s : State} (h : Reached s) {v w : Nat} {t u : List UCS4} (hv : view s v = some t) (hw : view s w = some u) (before : Int)
    (hb : before = -1 ∨ (0 ≤ before ∧ before ≤ t.length)) :
    ∃ σ τ r, getStr s v = .ok σ ∧ getStr s w = .ok τ ∧ σ.rfindAny τ before = .ok r ∧
      IsLast (fun i => ∃ c, t[i]? = some c ∧ c ∈ u) (if before = -1 then t.length else before.toNat) r := by
  obtain ⟨σ, pre, post, e, hd, -⟩ := h.str hv
  obtain ⟨τ, p2, q2, e2, d2, -⟩ := h.str hw
  obtain ⟨r, e3, hr⟩ := rfindFrom hd τ.has (fun c => c ∈ u) (fun c => has_spec d2 c) before hb
  exact ⟨σ, τ, r, e, e2, e3, hr⟩

/-- C27. `rfindNot(s, before)` -/
theorem C27_rfindNot {s : State} (h : Reached s) {v w : Nat} {t u : List UCS4} (hv : view s v = some t) (hw : view s w = some u) (before : Int)
    (hb : before = -1 ∨ (0 ≤ before ∧ before ≤ t.length)) :
    ∃ σ τ r, getStr s v = .ok σ ∧ getStr s w = .ok τ ∧ σ.rfindNot τ before = .ok r ∧
      IsLast (fun i => ∃ c, t[i]? = some c ∧ c ∉ u) (if before = -1 then t.length else before.toNat) r := by
  obtain ⟨σ, pre, post, e, hd, -⟩ := h.str hv
  obtain ⟨τ, p2, q2, e2, d2, -⟩ := h.str hw
  obtain ⟨r, e3, hr⟩ := rfindFrom hd τ.hasNot (fun c => c ∉ u) (fun c => hasNot_spec d2 c) before hb
  exact ⟨σ, τ, r, e, e2, e3, hr⟩

/-- C27, partial. `find(s, after)`: the first index after `after` where `s` is, for an `s` that is not longer. Missing: a
longer `s`, refuted below. -/
theorem C27_findStr_partial {s : State} (h : Reached s) {v w : Nat} {t u : List UCS4} (hv : view s v = some t) (hw : view s w = some u) (after : Int)
    (ha : -1 ≤ after ∧ after < 2147483647) (hle : u.length ≤ t.length) :
    ∃ σ τ r, getStr s v = .ok σ ∧ getStr s w = .ok τ ∧ σ.findStr τ after = .ok r ∧
      IsFirst (fun i => (t.drop i).take u.length = u) (after + 1).toNat (t.length - u.length + 1) r := by
  obtain ⟨σ, p1, q1, e1, d1, -⟩ := h.str hv
  obtain ⟨τ, p2, q2, e2, d2, -⟩ := h.str hw
  obtain ⟨r, e3, hr⟩ := d1.findStr d2 hle after ha
  exact ⟨σ, τ, r, e1, e2, e3, hr⟩

/-- C27, partial. `rfind(s, before)`: the last index before `before` (-1: in the whole string) where `s` is, for an `s` that
is not longer. Missing: a longer `s`, and `before` = 0, refuted below. -/
theorem C27_rfindStr_partial {s : State} (h : Reached s) {v w : Nat} {t u : List UCS4} (hv : view s v = some t) (hw : view s w = some u) (before : Int)
    (hb : before = -1 ∨ 0 < before) (hb2 : before < 2147483648) (hle : u.length ≤ t.length) :
    ∃ σ τ r, getStr s v = .ok σ ∧ getStr s w = .ok τ ∧ σ.rfindStr τ before = .ok r ∧
      IsLast (fun i => (t.drop i).take u.length = u)
        (if before = -1 then t.length - u.length + 1 else min before.toNat (t.length - u.length + 1)) r := by
  obtain ⟨σ, p1, q1, e1, d1, -⟩ := h.str hv
  obtain ⟨τ, p2, q2, e2, d2, -⟩ := h.str hw
  obtain ⟨r, e3, hr⟩ := d1.rfindStr d2 hle before hb hb2
  exact ⟨σ, τ, r, e1, e2, e3, hr⟩

/-- the result of a search after a history -/
def findAfter (ops : List (Op Unit)) (v w : Nat) (f : Str → Str → Res Int) : Res Int := do
  let s ← execAll State.init ops
  let σ ← getStr s v
  let τ ← getStr s w
  f σ τ

/-- C27 fails: the slice "a" of "ab" finds "b" at index 1; "a" finds a NUL at index 1; "a" finds a character other than "a"
at index 1. -/
theorem C27_refuted_find :
    findAfter [.ofC [0x61#8, 0x62#8, 0#8], .head 0 1] 1 1 (fun σ _ => σ.find 0x62#32 (-1)) = .ok 1 ∧
    findAfter [.ofC [0x61#8, 0#8]] 0 0 (fun σ _ => σ.find 0#32 (-1)) = .ok 1 ∧
    findAfter [.ofC [0x61#8, 0#8]] 0 0 (fun σ τ => σ.findNot τ (-1)) = .ok 1 := by decide +kernel

/-- C27 fails: the slice "a" of "ab" finds "ab" at index 0. -/
theorem C27_refuted_findStr :
    findAfter [.ofC [0x61#8, 0x62#8, 0#8], .head 0 1] 1 0 (fun σ τ => σ.findStr τ (-1)) = .ok 0 := by decide +kernel

/-- C27 fails: "aa".rfind("a", 0) is 1: before 0 means before nothing for a character, but anywhere for a string. -/
theorem C27_refuted_rfindStr :
    findAfter [.ofC [0x61#8, 0x61#8, 0#8], .ofC [0x61#8, 0#8]] 0 1 (fun σ τ => σ.rfindStr τ 0) = .ok 1 ∧
    findAfter [.ofC [0x61#8, 0x61#8, 0#8], .ofC [0x61#8, 0#8]] 0 1 (fun σ _ => σ.rfind 0x61#32 0) = .ok (-1) := by decide +kernel

/-! ### C28: concatenation and insertion -/

/-- The text of variable `u` becomes `t`, that of all others stays. -/
def Sets {S : Type} (s : State) (op : Op S) (u : Nat) (t : List UCS4) : Prop :=
  ∃ s', exec s op = .ok s' ∧ view s' u = some t ∧ ∀ v, v ≠ u → view s' v = view s v

theorem sets_of {S : Type} (F : Meaning S) {s : State} (h : Reached s) (op : Op S) (hs : Safe F s op) {u : Nat} {t : List UCS4}
    (he : effect F (view s) s.vars.length op = (u, some t)) : Sets s op u t := by
  obtain ⟨s', e, hv⟩ := C52_step F h op hs
  rw [he] at hv
  exact ⟨s', e, by rw [hv, if_pos rfl], fun v hne => by rw [hv, if_neg hne]⟩

theorem text_eq {s : State} {v : Nat} {t : List UCS4} (hv : view s v = some t) : text (view s) v = t := by unfold text; rw [hv]; rfl

theorem live {s : State} {v : Nat} {t : List UCS4} (hv : view s v = some t) : view s v ≠ none := by rw [hv]; simp

/-- C28. `v + w`: a new string with the characters of both, for any two strings, slices or not, of any storage. -/
theorem C28_plus (S : Type) {s : State} (h : Reached s) {v w : Nat} {t u : List UCS4} (hv : view s v = some t) (hw : view s w = some u)
    (hr : Roomy s (encodeAll u).length) : Makes (S := S) s (.plus v w) (t ++ u) := by
  obtain ⟨s', e, hm⟩ := plus_made (k := 0) h.inv.1 (h.inv.1.txt hv) (h.inv.1.txt hw) (by rw [Nat.zero_add]; exact hr)
  exact makes_of h e hm (fun _ hh => hh)

/-- C28, partial. `v += w`, for a `v` that is not a slice out of the middle of storage that it alone refers to. Missing:
those, refuted below, and `v += v`, which uses freed memory. -/
theorem C28_append_partial (S : Type) {s : State} (h : Reached s) {v w : Nat} {t u : List UCS4} (hv : view s v = some t) (hw : view s w = some u)
    (hne : v ≠ w) (hf : AtFront s v) (hr : Roomy s (encodeAll u).length) : Sets (S := S) s (.addEq v w) v (t ++ u) := by
  refine sets_of (fun _ st _ => (st, [], 0)) h (.addEq v w) ⟨live hv, live hw, hne, hf, by rw [text_eq hw]; exact hr⟩ ?_
  simp only [effect, text_eq hv, text_eq hw]

/-- C28, partial. `v += ch` -/
theorem C28_append_char_partial (S : Type) {s : State} (h : Reached s) {v : Nat} {t : List UCS4} (hv : view s v = some t) (c : UCS4)
    (hc : ¬ Reserved c) (hf : AtFront s v) (hr : Roomy s 12) : Sets (S := S) s (.addEqChar v c) v (t ++ [c]) := by
  refine sets_of (fun _ st _ => (st, [], 0)) h (.addEqChar v c) ⟨live hv, hc, hf, hr⟩ ?_
  simp only [effect, text_eq hv]

/-- C28, partial. `v.insert(pos, w)`, for a `v` as for `+=`, without a bookmark past `pos`. Missing: a bookmark after `pos`
becomes wrong, see below. -/
theorem C28_insert_partial (S : Type) {s : State} (h : Reached s) {v w : Nat} {t u : List UCS4} (hv : view s v = some t) (hw : view s w = some u)
    (pos : Nat) (hpos : pos ≤ t.length) (hne : v ≠ w) (hf : AtFront s v) (hm : MarkBefore s v pos) (hr : Roomy s (encodeAll u).length) :
    Sets (S := S) s (.insert v pos w) v (t.take pos ++ u ++ t.drop pos) := by
  refine sets_of (fun _ st _ => (st, [], 0)) h (.insert v pos w)
    ⟨live hv, live hw, hne, hf, hm, by rw [text_eq hv]; exact hpos, by rw [text_eq hw]; exact hr⟩ ?_
  simp only [effect, text_eq hv, text_eq hw, splice]

/-- C28. At the end of the string bookmarks never matter: `append(w)`. -/
theorem C28_insert_end_partial (S : Type) {s : State} (h : Reached s) {v w : Nat} {t u : List UCS4} (hv : view s v = some t) (hw : view s w = some u)
    (hne : v ≠ w) (hf : AtFront s v) (hr : Roomy s (encodeAll u).length) :
    Sets (S := S) s (.insert v t.length w) v (t ++ u) := by
  have := C28_insert_partial S h hv hw t.length (Nat.le_refl _) hne hf (markBefore_end h.inv.1 (h.inv.1.txt hv)) hr
  simpa using this

/-- C28 fails: `s = s.substr(1); s += "x"` for "abc" gives "bxc" instead of "bcx". -/
theorem C28_refuted_append_to_slice :
    showsAfter [.ofC [0x61#8, 0x62#8, 0x63#8, 0#8], .substr 0 1 (-1), .assign 0 1, .destroy 1, .ofC [0x78#8, 0#8], .addEq 0 2] 0 =
      .ok [0x62#8, 0x78#8, 0x63#8] := by decide +kernel

/-- C28 fails: inserting "XYZ" at 6, at 2 and at 8 in "abcdéfghijklmn" gives "abXYZcdéfXYZXYZghijklmn" instead of
"abXYZcdéXYZfXYZghijklmn": the first call leaves a bookmark, which the second makes wrong and the third uses. -/
theorem C28_refuted_insert_bookmark :
    showsAfter [.ofC [0x61#8, 0x62#8, 0x63#8, 0x64#8, 0xC3#8, 0xA9#8, 0x66#8, 0x67#8, 0x68#8, 0x69#8, 0x6A#8, 0x6B#8, 0x6C#8, 0x6D#8, 0x6E#8, 0#8],
      .ofC [0x58#8, 0x59#8, 0x5A#8, 0#8], .insert 0 6 1, .insert 0 2 1, .insert 0 8 1] 0 =
    .ok [0x61#8, 0x62#8, 0x58#8, 0x59#8, 0x5A#8, 0x63#8, 0x64#8, 0xC3#8, 0xA9#8, 0x66#8, 0x58#8, 0x59#8, 0x5A#8, 0x58#8, 0x59#8, 0x5A#8,
      0x67#8, 0x68#8, 0x69#8, 0x6A#8, 0x6B#8, 0x6C#8, 0x6D#8, 0x6E#8] := by decide +kernel

/-- C28 fails: `s += s` reads storage that was released. -/
theorem C28_refuted_self_append :
    showsAfter [.ofC [0x61#8, 0#8], .addEq 0 0] 0 = .error .ub := by decide +kernel

/-! ### C30: transformations -/

/-- C30, partial. `transform`: the closure, which does `f` on characters, is applied from character `after`+1 on. For a `v`
that shows all of its body, or shares it. Missing: other slices, refuted below. -/
theorem C30_transform_partial {S : Type} {s : State} (h : Reached s) {v : Nat} {t : List UCS4} (hv : view s v = some t) (hw : Whole s v)
    (x : XForm S) (f : S → List UCS4 → S × List UCS4 × Nat) (I : S → Prop) (hx : Behaves I x f) (st : S) (hI : I st) (after : Int)
    (ha : -1 ≤ after ∧ after < 2147483647)
    (hgood : ∀ c ∈ transformAfter f st (after + 1).toNat t, ¬ Reserved c)
    (hsz : (encodeAll (transformAfter f st (after + 1).toNat t)).length + 1 ≤ 1073741824) :
    Sets s (.transform v x st after) v (transformAfter f st (after + 1).toNat t) := by
  refine sets_of (fun _ => f) h (.transform v x st after) ⟨live hv, hw, ha.1, ha.2, ⟨I, hx, hI⟩, by rw [text_eq hv]; exact hgood, by rw [text_eq hv]; exact hsz⟩ ?_
  simp only [effect, text_eq hv]

/-- C30, partial. `toUpper` converts every character as the table says (C07); `memo` is where the last conversion ended. For
a `v` as for `transform`, with no bookmark unless all characters keep their size. -/
theorem C30_toUpper_partial (S : Type) {s : State} (h : Reached s) {v : Nat} {t : List UCS4} (hv : view s v = some t) (hw : Whole s v)
    (memo : Int) (hm : 0 ≤ memo ∧ memo < unicodeToUpper.length) (hmk : MarkFits s v t (t.map (convert unicodeToUpper)))
    (hsz : (encodeAll (t.map (convert unicodeToUpper))).length + 1 ≤ 1073741824) :
    Sets (S := S) s (.toUpper v memo) v (t.map (convert unicodeToUpper)) := by
  refine sets_of (fun _ st _ => (st, [], 0)) h (.toUpper v memo) ⟨live hv, hw, hm.1, hm.2, by rw [text_eq hv]; exact hmk, by rw [text_eq hv]; exact hsz⟩ ?_
  simp only [effect, text_eq hv]

/-- C30, partial. `toLower`, likewise -/
theorem C30_toLower_partial (S : Type) {s : State} (h : Reached s) {v : Nat} {t : List UCS4} (hv : view s v = some t) (hw : Whole s v)
    (memo : Int) (hm : 0 ≤ memo ∧ memo < unicodeToLower.length) (hmk : MarkFits s v t (t.map (convert unicodeToLower)))
    (hsz : (encodeAll (t.map (convert unicodeToLower))).length + 1 ≤ 1073741824) :
    Sets (S := S) s (.toLower v memo) v (t.map (convert unicodeToLower)) := by
  refine sets_of (fun _ st _ => (st, [], 0)) h (.toLower v memo) ⟨live hv, hw, hm.1, hm.2, by rw [text_eq hv]; exact hmk, by rw [text_eq hv]; exact hsz⟩ ?_
  simp only [effect, text_eq hv]

/-- C30. `v * n`: the text repeated (a negative `n` counts as 0). -/
theorem C30_times (S : Type) {s : State} (h : Reached s) {v : Nat} {t : List UCS4} (hv : view s v = some t) (n : Int)
    (hr : Roomy s (n.toNat * (encodeAll t).length)) : Makes (S := S) s (.times v n) (List.replicate n.toNat t).flatten := by
  obtain ⟨s', e, hm⟩ := times_made (k := 0) h.inv.1 (h.inv.1.txt hv) n (by rw [Nat.zero_add]; exact hr)
  exact makes_of h e hm (fun _ hh => hh)

/-- C30. `join`: the elements with the delimiter between them. The result is the second new variable. -/
theorem C30_join (S : Type) {s : State} (h : Reached s) {j w : Nat} {ws : List Nat} {d : List UCS4} (hj : view s j = some d)
    (hws : ∀ u ∈ w :: ws, view s u ≠ none)
    (hr : Roomy s ((ws.map (fun u => (encodeAll d).length + 2 * (encodeAll (text (view s) u)).length)).sum)) :
    Sets (S := S) s (.join j (w :: ws)) (s.vars.length + 1) (text (view s) w ++ (ws.map (fun u => d ++ text (view s) u)).flatten) := by
  refine sets_of (fun _ st _ => (st, [], 0)) h (.join j (w :: ws)) ⟨live hj, hws, ?_⟩ ?_
  · rw [text_eq hj, List.map_cons, List.drop_succ_cons, List.drop_zero, joinCost, List.map_map]
    exact hr
  · simp only [effect, text_eq hj, List.map_cons, joined, List.map_map]
    rfl

/-- C30 fails: `s = s.head(1); s.toUpper()` for "abc" gives "ABC". -/
theorem C30_refuted_reveal :
    showsAfter [.ofC [0x61#8, 0x62#8, 0x63#8, 0#8], .head 0 1, .assign 0 1, .destroy 1, .toUpper 0 0] 0 = .ok [0x41#8, 0x42#8, 0x43#8] := by
  decide +kernel

/-! ### the hypotheses are met: a history with three variables on one body, one of them a slice with an offset -/

theorem SafeRun.cons {S : Type} {F : Meaning S} {s s1 : State} {op : Op S} {ops : List (Op S)} (e : exec s op = .ok s1) (h : Safe F s op)
    (hr : SafeRun F s1 ops) : SafeRun F s (op :: ops) := ⟨h, fun s' e' => by rw [e] at e'; cases e'; exact hr⟩

/-- no transformation in the sample -/
def noMeaning : Meaning Unit := fun _ st _ => (st, [], 0)

/-- "aéc", a copy, its substr(1, 2), and "x" -/
def sample : List (Op Unit) := [.ofC [0x61#8, 0xC3#8, 0xA9#8, 0x63#8, 0#8], .copy 0, .substr 0 1 2, .ofC [0x78#8, 0#8]]

def b1 : SBody := ⟨⟨[0x61#8, 0xC3#8, 0xA9#8, 0x63#8, 0#8, 0#8, 0#8, 0#8], 5, 8, false⟩, 3⟩
def b2 : SBody := ⟨⟨[0x78#8, 0#8, 0#8, 0#8, 0#8, 0#8, 0#8, 0#8], 2, 8, false⟩, 1⟩
def v1 : Var := ⟨1, 0, 3, ⟨0, 0⟩⟩
def v2 : Var := ⟨1, 1, 2, ⟨0, 0⟩⟩
def v3 : Var := ⟨2, 0, 1, ⟨0, 0⟩⟩
def sampleState : State := ⟨[nullBody, b1, b2], [some v1, some v1, some v2, some v3]⟩

theorem sample_run : execAll State.init sample = .ok sampleState := by decide +kernel

theorem small_good (cs : List UCS4) (h : ∀ c ∈ cs, c.toNat < 1000) : ∀ c ∈ cs, ¬ Reserved c := by
  intro c hc hr
  have := h c hc
  rcases hr with hr | hr
  · omega
  · subst hr; revert this; decide

theorem sample_safe : SafeRun noMeaning State.init sample := by
  refine SafeRun.cons (s1 := ⟨[nullBody, b1], [some v1]⟩) (by decide +kernel)
    ⟨[0x61#32, 0xE9#32, 0x63#32], [], by decide +kernel, small_good _ (by simp), by simp, by decide +kernel⟩ ?_
  refine SafeRun.cons (s1 := ⟨[nullBody, b1], [some v1, some v1]⟩) (by decide +kernel) (by unfold Safe; decide +kernel) ?_
  refine SafeRun.cons (s1 := ⟨[nullBody, b1], [some v1, some v1, some v2]⟩) (by decide +kernel) (by unfold Safe; decide +kernel) ?_
  exact SafeRun.cons (s1 := sampleState) (by decide +kernel)
    ⟨[0x78#32], [], by decide +kernel, small_good _ (by simp), by simp, by decide +kernel⟩ trivial

theorem sample_reached : Reached sampleState := ⟨Unit, noMeaning, sample, sample_safe, sample_run⟩

example : view sampleState 0 = some [0x61#32, 0xE9#32, 0x63#32] ∧ view sampleState 2 = some [0xE9#32, 0x63#32] ∧
    view sampleState 3 = some [0x78#32] := by decide +kernel

/-- room for 1000 more bytes -/
theorem sample_roomy : Roomy sampleState 1000 := by
  intro b hb
  simp only [sampleState, List.mem_cons, List.not_mem_nil, or_false] at hb
  rcases hb with rfl | rfl | rfl <;> decide

/-- `+=` and `insert` may be used on the slice with the offset: its body is shared -/
theorem sample_front : AtFront sampleState 2 ∧ MarkBefore sampleState 2 1 ∧ Whole sampleState 2 ∧
    MarkFits sampleState 2 [0xE9#32, 0x63#32] ([0xE9#32, 0x63#32].map (convert unicodeToUpper)) := by
  have hv : ∀ x, sampleState.vars[2]? = some (some x) → x = v2 := by
    intro x hx; simp only [sampleState] at hx; cases hx; rfl
  refine ⟨fun x hx => ?_, fun x hx => ?_, fun x b hx _ => ?_, Or.inl fun x hx => ?_⟩ <;> (have := hv x hx; subst this)
  · right; decide
  · left; decide
  · left; decide
  · rfl

/-- C28 in the sample: inserting "x" in the slice "éc" of a shared body -/
example : Sets (S := Unit) sampleState (.insert 2 1 3) 2 [0xE9#32, 0x78#32, 0x63#32] :=
  C28_insert_partial Unit sample_reached (t := [0xE9#32, 0x63#32]) (u := [0x78#32]) (by decide +kernel) (by decide +kernel) 1 (by decide)
    (by decide) sample_front.1 sample_front.2.1 (sample_roomy.mono (by decide))

/-- C30 in the sample: the slice in upper case, the others as they were -/
example : Sets (S := Unit) sampleState (.toUpper 2 0) 2 [0xC9#32, 0x43#32] := by
  have := C30_toUpper_partial Unit sample_reached (v := 2) (t := [0xE9#32, 0x63#32]) (by decide +kernel) sample_front.2.2.1 0
    (by decide +kernel) sample_front.2.2.2 (by decide +kernel)
  have e : [0xE9#32, 0x63#32].map (convert unicodeToUpper) = [0xC9#32, 0x43#32] := by decide +kernel
  rw [e] at this
  exact this

/-- C30 in the sample: joining the three with "x" -/
example : Sets (S := Unit) sampleState (.join 3 [0, 2]) 5 [0x61#32, 0xE9#32, 0x63#32, 0x78#32, 0xE9#32, 0x63#32] := by
  have := C30_join Unit sample_reached (j := 3) (w := 0) (ws := [2]) (d := [0x78#32]) (by decide +kernel) (by decide +kernel)
    (sample_roomy.mono (by decide +kernel))
  have e : text (view sampleState) 0 ++ ([2].map (fun u => [0x78#32] ++ text (view sampleState) u)).flatten =
    [0x61#32, 0xE9#32, 0x63#32, 0x78#32, 0xE9#32, 0x63#32] := by decide +kernel
  rw [e] at this
  exact this

/-- C26 and C27 in the sample: the slice extends to the end of its body, which "x" and "é" do not follow -/
example : AtEnd sampleState 2 ∧ 0xE9#32 ≠ nextChar sampleState 2 ∧ nextChar sampleState 2 ∉ [0x78#32] := by
  refine ⟨fun x b hx hb => ?_, by decide +kernel, by decide +kernel⟩
  simp only [sampleState] at hx
  cases hx
  simp only [sampleState, v2] at hb
  cases hb
  decide +kernel

/-- C30: a closure that behaves (the one `toUpper` gives to `transform`) -/
example : Behaves (fun st : Bool × Int => 0 ≤ st.2 ∧ st.2 < 406) (caseX ucs4ToUpper) (caseF ucs4ToUpper) := case_behaves upper_conv

end Strpp.SV
