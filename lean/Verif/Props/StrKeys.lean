import Verif.Proof.StrKeys
/-!
C100: strings as the keys of a map. `IsKey s v t` (Verif/Proof/StrKeys.lean): variable `v` shows `t`, to the end of its
storage, and `t` has no NUL. Maps from texts to values are in Verif/Spec/StrKeys.lean.
-/
set_option linter.unusedVariables false
namespace Strpp.SV

open Spec Arr

/-- what all the comparison operators give, for texts `t` and `u` -/
structure Compares (σ τ : Str) (t u : List UCS4) : Prop where
  eq : ∃ b, σ.eq τ = .ok b ∧ (b = true ↔ t = u)
  ne : ∃ b, σ.ne τ = .ok b ∧ (b = true ↔ t ≠ u)
  lt : ∃ b, σ.lt τ = .ok b ∧ (b = true ↔ CharsLt t u)
  le : ∃ b, σ.le τ = .ok b ∧ (b = true ↔ CharsLt t u ∨ t = u)
  ge : ∃ b, σ.ge τ = .ok b ∧ (b = true ↔ CharsLt u t ∨ t = u)
  gt : ∃ b, σ.gt τ = .ok b ∧ (b = true ↔ CharsLt u t)
  before : ∃ b, σ.before τ = .ok b ∧ (b = true ↔ CharsLt u t)
  equiv : ∃ b, σ.equiv τ = .ok b ∧ (b = true ↔ t = u)

/-- C100. For keys the operators all agree with one order, the dictionary order of code points: `==`, `!=`, `<`, `<=`,
`>=`, `>`, the static `equiv`, and the static `compare`, which says that its *second* argument comes first. -/
theorem C100_operators {s : State} (h : Reached s) {v w : Nat} {t u : List UCS4} (hv : IsKey s v t) (hw : IsKey s w u) :
    ∃ σ τ, getStr s v = .ok σ ∧ getStr s w = .ok τ ∧ Compares σ τ t u := by
  obtain ⟨σ, τ, r, e1, e2, e3, h1, h2, h3⟩ := hv.compare h hw
  obtain ⟨σ', τ', f1, f2, f3⟩ := C26_equal h hv.shows hw.shows
  rw [e1] at f1; cases f1
  rw [e2] at f2; cases f2
  refine ⟨σ, τ, e1, e2, ⟨_, f3, by simp⟩, ⟨!decide (t = u), by unfold Str.ne; rw [f3, res_bind_ok], by simp⟩,
    ⟨decide (r < 0), by unfold Str.lt; rw [e3, res_bind_ok], ?_⟩,
    ⟨decide (r ≤ 0), by unfold Str.le; rw [e3, res_bind_ok], ?_⟩,
    ⟨decide (0 ≤ r), by unfold Str.ge; rw [e3, res_bind_ok], ?_⟩,
    ⟨decide (0 < r), by unfold Str.gt; rw [e3, res_bind_ok], ?_⟩,
    ⟨decide (0 < r), by unfold Str.before; rw [e3, res_bind_ok], ?_⟩,
    ⟨decide (r = 0), by unfold Str.equiv; rw [e3, res_bind_ok], ?_⟩⟩ <;>
    rw [decide_eq_true_iff]
  · exact h1
  · rw [← h1, ← h2]; omega
  · rw [← h3, ← h2]; omega
  · exact h3
  · exact h3
  · exact h2

/-- C100. `<` on keys is what std::map requires of it: no key is before itself, what comes before what comes before comes
before, and of two keys one comes before the other unless they are equal. -/
theorem C100_order {s : State} (h : Reached s) {a b : Nat} {t u : List UCS4} (ha : IsKey s a t) (hb : IsKey s b u) :
    lessKey s a a = .ok false ∧
    (∀ c w, IsKey s c w → lessKey s a b = .ok true → lessKey s b c = .ok true → lessKey s a c = .ok true) ∧
    (lessKey s a b = .ok true ∨ lessKey s b a = .ok true ∨ t = u) ∧
    ¬ (lessKey s a b = .ok true ∧ lessKey s b a = .ok true) := by
  refine ⟨?_, fun c w hc h1 h2 => ?_, ?_, fun hh => ?_⟩
  · rw [IsKey.less h ha ha]; simp [charsLt_irrefl]
  · rw [IsKey.less h ha hb] at h1
    rw [IsKey.less h hb hc] at h2
    rw [IsKey.less h ha hc]
    simp at h1 h2
    simp [charsLt_trans h1 h2]
  · rw [IsKey.less h ha hb, IsKey.less h hb ha]
    rcases ha.tri h hb with g | g | g
    · left; simp [g]
    · right; right; exact g
    · right; left; simp [g]
  · rw [IsKey.less h ha hb, IsKey.less h hb ha] at hh
    simp at hh
    exact charsLt_asymm hh.1 hh.2

/-- C100. After any calls on an empty map, whatever the shape its tree was given after each, looking for a key gives the
value last put at a key of that text, wherever either string is stored, and nothing if there is none; the entries are in
the order of their texts, one for each text. -/
theorem C100_map {V : Type} {s : State} (h : Reached s) (text : Nat → List UCS4) (ops : List (KOp V))
    (hk : ∀ op ∈ ops, IsKey s op.key (text op.key)) {t : KTree V} (hr : KRun s .leaf ops t) :
    (∀ q u, IsKey s q u → t.find s q = .ok (KOp.applyAll text ops (fun _ => none) u)) ∧
    t.entries.Pairwise (fun a b => ∀ x y, IsKey s a.1 x → IsKey s b.1 y → CharsLt x y) := by
  have hm := run_spec h text ops .leaf t (fun _ => none) hr hk (holds_empty s)
  exact ⟨fun q u hq => find_spec h hq t hm, hm.ok.sorted⟩

/-- C100. No such run of calls fails. -/
theorem C100_runs {V : Type} {s : State} (h : Reached s) (text : Nat → List UCS4) (ops : List (KOp V))
    (hk : ∀ op ∈ ops, IsKey s op.key (text op.key)) : ∃ t, KRun s .leaf ops t :=
  run_exists h text ops .leaf (fun _ => none) hk (holds_empty s)

/-- C100. A call on a map, whatever the shape of its tree: it does not fail, and does to the map of texts what it says. -/
theorem C100_call {V : Type} {s : State} (h : Reached s) (op : KOp V) {u : List UCS4} (hq : IsKey s op.key u) (t : KTree V)
    {m : TextMap V} (hm : Holds s t.entries m) : ∃ es, t.step s op = .ok es ∧ Holds s es (op.apply u m) :=
  step_spec h op hq t hm

/-! ### the hypotheses are met, and the limits -/

/-- a key by evaluation -/
def keyCheck (ops : List (Op Unit)) (v : Nat) : Bool :=
  match execAll State.init ops with
  | .ok s =>
    match s.vars[v]? with
    | some (some x) =>
      match s.bodies[x.body]? with
      | some b => (decodeAll b.arr.elems.dropLast).length == x.off + x.num && (decodeAll b.arr.elems.dropLast).all (· != 0#32)
      | none => false
    | _ => false
  | .error _ => false

/-- whether a key is found in a tree, after a history -/
def foundAfter (ops : List (Op Unit)) (q : Nat) (t : KTree Nat) : Res (Option Nat) := do
  let s ← execAll State.init ops
  t.find s q

/-- the keys of a tree after a call, after a history -/
def keysAfter (ops : List (Op Unit)) (t : KTree Nat) (op : KOp Nat) : Res (List Nat) := do
  let s ← execAll State.init ops
  let es ← t.step s op
  .ok (es.map Prod.fst)

/-- "ab", "abc", a tail of "xabc", their comparison in a tree: the tail is found as the key "abc", "ab" is not -/
example :
    let ops : List (Op Unit) := [.ofC [0x61#8, 0x62#8, 0#8], .ofC [0x61#8, 0x62#8, 0x63#8, 0#8], .ofC [0x78#8, 0x61#8, 0x62#8, 0x63#8, 0#8], .tail 2 3, .ofC [0xC3#8, 0xA9#8, 0#8]]
    keyCheck ops 0 = true ∧ keyCheck ops 1 = true ∧ keyCheck ops 3 = true ∧
    foundAfter ops 3 (.node .leaf 1 7 (.node .leaf 4 8 .leaf)) = .ok (some 7) ∧
    foundAfter ops 0 (.node .leaf 1 7 (.node .leaf 4 8 .leaf)) = .ok none ∧
    keysAfter ops (.node .leaf 1 7 (.node .leaf 4 8 .leaf)) (.put 0 9) = .ok [0, 1, 4] := by decide +kernel

theorem sample_key0 : IsKey sampleState 0 [0x61#32, 0xE9#32, 0x63#32] :=
  ⟨by decide +kernel, fun x b hx hb => by cases hx; cases hb; decide +kernel, by simp⟩

theorem sample_key2 : IsKey sampleState 2 [0xE9#32, 0x63#32] :=
  ⟨by decide +kernel, fun x b hx hb => by cases hx; cases hb; decide +kernel, by simp⟩

/-- a run on `sampleState`'s variables "aéc" and "éc" -/
example : ∃ t : KTree Nat, KRun sampleState .leaf [.put 2 5, .put 0 6, .erase 2, .insert 0 7] t ∧
    t.find sampleState 0 = .ok (some 6) ∧ t.find sampleState 2 = .ok none := by
  have hk : ∀ op ∈ ([.put 2 5, .put 0 6, .erase 2, .insert 0 7] : List (KOp Nat)),
      IsKey sampleState op.key ((fun k : Nat => if k = 0 then [0x61#32, 0xE9#32, 0x63#32] else [0xE9#32, 0x63#32]) op.key) := by
    intro op ho
    rcases List.mem_cons.mp ho with rfl | ho
    · exact sample_key2
    rcases List.mem_cons.mp ho with rfl | ho
    · exact sample_key0
    rcases List.mem_cons.mp ho with rfl | ho
    · exact sample_key2
    rcases List.mem_cons.mp ho with rfl | ho
    · exact sample_key0
    · exact nomatch ho
  obtain ⟨t, ht⟩ := C100_runs sample_reached (fun k : Nat => if k = 0 then [0x61#32, 0xE9#32, 0x63#32] else [0xE9#32, 0x63#32]) _ hk
  refine ⟨t, ht, ?_, ?_⟩
  · exact (C100_map sample_reached (fun k : Nat => if k = 0 then [0x61#32, 0xE9#32, 0x63#32] else [0xE9#32, 0x63#32]) _ hk ht).1 0 _ sample_key0
  · exact (C100_map sample_reached (fun k : Nat => if k = 0 then [0x61#32, 0xE9#32, 0x63#32] else [0xE9#32, 0x63#32]) _ hk ht).1 2 _ sample_key2

/-- Why the key must extend to the end of its storage: "ab" and the slice "a" of "ac" come each before the other, so that a
map with those two entries in order finds the slice or not, depending on the shape of its tree; where it does not, putting
it again makes a second entry of that text. -/
theorem C100_limit_slice :
    let ops : List (Op Unit) := [.ofC [0x61#8, 0x62#8, 0#8], .ofC [0x61#8, 0x63#8, 0#8], .head 1 1]
    keysAfter ops .leaf (.put 2 5) = .ok [2] ∧
    keysAfter ops (.node .leaf 2 5 .leaf) (.put 0 6) = .ok [2, 0] ∧
    foundAfter ops 2 (.node .leaf 2 5 (.node .leaf 0 6 .leaf)) = .ok (some 5) ∧
    foundAfter ops 2 (.node (.node .leaf 2 5 .leaf) 0 6 .leaf) = .ok none ∧
    keysAfter ops (.node (.node .leaf 2 5 .leaf) 0 6 .leaf) (.put 2 7) = .ok [2, 0, 2] := by decide +kernel

/-- Why the key must have no NUL: looking for the key "a\0b" in a map that has "a" reads past the end of "a"'s storage. -/
theorem C100_limit_nul :
    foundAfter [.ofC [0x61#8, 0#8], .ofData [0x61#8, 0#8, 0x62#8] 3 0] 1 (.node .leaf 0 5 .leaf) = .error .ub := by decide +kernel

end Strpp.SV
