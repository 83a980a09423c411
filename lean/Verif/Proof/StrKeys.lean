import Verif.Model.StrKeys
import Verif.Spec.StrKeys
import Verif.Props.StrVal
/-!
Proofs about strings as keys of a std::map (C100).
-/
set_option linter.unusedSimpArgs false
set_option linter.unusedVariables false
namespace Strpp.SV

open Spec Arr

/-- Variable `v` can be a key: it shows `t`, to the end of its storage, and `t` has no NUL. -/
structure IsKey (s : State) (v : Nat) (t : List UCS4) : Prop where
  shows : view s v = some t
  atEnd : AtEnd s v
  noNul : ∀ c ∈ t, c ≠ 0#32

theorem IsKey.unique {s : State} {v : Nat} {t u : List UCS4} (h1 : IsKey s v t) (h2 : IsKey s v u) : t = u :=
  Option.some.inj (h1.shows.symm.trans h2.shows)

theorem charsLt_trans {a b c : List UCS4} (h1 : CharsLt a b) (h2 : CharsLt b c) : CharsLt a c := List.lt_trans h1 h2

theorem IsKey.compare {s : State} (h : Reached s) {v w : Nat} {t u : List UCS4} (hv : IsKey s v t) (hw : IsKey s w u) :
    ∃ σ τ r, getStr s v = .ok σ ∧ getStr s w = .ok τ ∧ σ.compare τ = .ok r ∧
      (r < 0 ↔ CharsLt t u) ∧ (r = 0 ↔ t = u) ∧ (0 < r ↔ CharsLt u t) :=
  C26_compare_partial h hv.shows hw.shows hw.atEnd hv.noNul

theorem IsKey.tri {s : State} (h : Reached s) {v w : Nat} {t u : List UCS4} (hv : IsKey s v t) (hw : IsKey s w u) :
    CharsLt t u ∨ t = u ∨ CharsLt u t := by
  obtain ⟨σ, τ, r, -, -, -, h1, h2, h3⟩ := hv.compare h hw
  rcases (show r < 0 ∨ r = 0 ∨ 0 < r by omega) with g | g | g
  · exact Or.inl (h1.mp g)
  · exact Or.inr (Or.inl (h2.mp g))
  · exact Or.inr (Or.inr (h3.mp g))

open Classical in
theorem IsKey.less {s : State} (h : Reached s) {v w : Nat} {t u : List UCS4} (hv : IsKey s v t) (hw : IsKey s w u) :
    lessKey s v w = .ok (decide (CharsLt t u)) := by
  obtain ⟨σ, τ, r, e1, e2, e3, h1, h2, h3⟩ := hv.compare h hw
  unfold lessKey
  rw [e1, res_bind_ok, e2, res_bind_ok]
  unfold Str.lt
  rw [e3, res_bind_ok]
  congr 1
  rw [Bool.eq_iff_iff, decide_eq_true_iff, decide_eq_true_iff]
  exact h1

variable {V : Type}

/-- The keys of the entries are keys, and their texts increase. -/
structure KeysOk (s : State) (es : List (Nat × V)) : Prop where
  keys : ∀ e ∈ es, ∃ t, IsKey s e.1 t
  sorted : es.Pairwise (fun a b => ∀ t u, IsKey s a.1 t → IsKey s b.1 u → CharsLt t u)

/-- the entry's text is before `u` -/
def Before (s : State) (u : List UCS4) (e : Nat × V) : Prop := ∀ t, IsKey s e.1 t → CharsLt t u

theorem lower_spec {s : State} (h : Reached s) {q : Nat} {u : List UCS4} (hq : IsKey s q u) :
    ∀ (t : KTree V), KeysOk s t.entries →
      ∃ A B, t.entries = A ++ B ∧ t.lower s q = .ok A.length ∧ (∀ e ∈ A, Before s u e) ∧ (∀ e ∈ B, ¬ Before s u e)
  | .leaf => fun _ => ⟨[], [], rfl, rfl, fun e he => (nomatch he), fun e he => (nomatch he)⟩
  | .node l k v r => fun hk => by
    have hk' : KeysOk s (l.entries ++ (k, v) :: r.entries) := hk
    obtain ⟨hk1, hk2⟩ := hk'
    have hs := List.pairwise_append.mp hk2
    obtain ⟨s1, s2, s3⟩ := hs
    obtain ⟨s4, s5⟩ := List.pairwise_cons.mp s2
    have hkm : ((k, v) : Nat × V) ∈ l.entries ++ (k, v) :: r.entries := List.mem_append_right _ (List.mem_cons_self ..)
    obtain ⟨tk, htk⟩ := hk1 _ hkm
    have e0 : (KTree.node l k v r).lower s q = (do
        let c ← lessKey s k q
        if c then do
          let n ← r.lower s q
          .ok (l.entries.length + 1 + n)
        else l.lower s q) := rfl
    rw [e0, IsKey.less h htk hq, res_bind_ok]
    by_cases hlt : CharsLt tk u
    · obtain ⟨A, B, a1, a2, a3, a4⟩ := lower_spec h hq r
        ⟨fun e he => hk1 e (List.mem_append_right _ (List.mem_cons_of_mem _ he)), s5⟩
      rw [if_pos (by simpa using hlt), a2, res_bind_ok]
      refine ⟨l.entries ++ (k, v) :: A, B, ?_, ?_, ?_, a4⟩
      · show l.entries ++ (k, v) :: r.entries = _
        rw [a1, List.append_assoc]; rfl
      · congr 1; simp only [List.length_append, List.length_cons]; omega
      · intro e he
        rcases List.mem_append.mp he with g | g
        · intro t ht
          exact charsLt_trans (s3 e g (k, v) (List.mem_cons_self ..) t tk ht htk) hlt
        · rcases List.mem_cons.mp g with g | g
          · subst g; intro t ht; rw [ht.unique htk]; exact hlt
          · exact a3 e g
    · obtain ⟨A, B, a1, a2, a3, a4⟩ := lower_spec h hq l
        ⟨fun e he => hk1 e (List.mem_append_left _ he), s1⟩
      rw [if_neg (by simpa using hlt), a2]
      refine ⟨A, B ++ (k, v) :: r.entries, ?_, rfl, a3, ?_⟩
      · show l.entries ++ (k, v) :: r.entries = _
        rw [a1, List.append_assoc]
      · intro e he
        rcases List.mem_append.mp he with g | g
        · exact a4 e g
        · rcases List.mem_cons.mp g with g | g
          · subst g; intro hb; exact hlt (hb tk htk)
          · intro hb
            obtain ⟨te, hte⟩ := hk1 e (List.mem_append_right _ (List.mem_cons_of_mem _ g))
            exact hlt (charsLt_trans (s4 e g tk te htk hte) (hb te hte))

/-- The entries are those of the map `m`, in the order of their texts. -/
structure Holds (s : State) (es : List (Nat × V)) (m : TextMap V) : Prop where
  ok : KeysOk s es
  gives : ∀ q u, IsKey s q u → ∀ v, m u = some v ↔ ∃ e ∈ es, IsKey s e.1 u ∧ e.2 = v

/-- what a search ends with -/
theorem found {s : State} (h : Reached s) {q : Nat} {u : List UCS4} (hq : IsKey s q u) (t : KTree V) {m : TextMap V}
    (hm : Holds s t.entries m) :
    ∃ A B, t.entries = A ++ B ∧ t.lower s q = .ok A.length ∧ (∀ e ∈ A, Before s u e) ∧
      ((B = [] ∧ m u = none) ∨
       (∃ k v B', B = (k, v) :: B' ∧ lessKey s q k = .ok true ∧ m u = none ∧
          (∀ e ∈ B, ∀ t', IsKey s e.1 t' → CharsLt u t')) ∨
       (∃ k v B', B = (k, v) :: B' ∧ lessKey s q k = .ok false ∧ IsKey s k u ∧ m u = some v ∧
          (∀ e ∈ B', ∀ t', IsKey s e.1 t' → CharsLt u t'))) := by
  obtain ⟨A, B, a1, a2, a3, a4⟩ := lower_spec h hq t hm.ok
  refine ⟨A, B, a1, a2, a3, ?_⟩
  have hk := hm.ok
  rw [a1] at hk
  have hg := hm.gives q u hq
  rw [a1] at hg
  obtain ⟨hk1, hk2⟩ := hk
  obtain ⟨s1, s2, s3⟩ := List.pairwise_append.mp hk2
  have none_of : (∀ e ∈ B, ¬ IsKey s e.1 u) → m u = none := by
    intro hb
    cases hmu : m u with
    | none => rfl
    | some v =>
      obtain ⟨e, he, h1, h2⟩ := (hg v).mp hmu
      rcases List.mem_append.mp he with g | g
      · exact absurd (a3 e g u h1) (charsLt_irrefl _)
      · exact absurd h1 (hb e g)
  cases B with
  | nil => exact Or.inl ⟨rfl, none_of (fun e he => nomatch he)⟩
  | cons e B' =>
    obtain ⟨k, v⟩ := e
    have hkm : ((k, v) : Nat × V) ∈ A ++ (k, v) :: B' := List.mem_append_right _ (List.mem_cons_self ..)
    obtain ⟨tk, htk⟩ := hk1 _ hkm
    obtain ⟨s4, s5⟩ := List.pairwise_cons.mp s2
    have nlt : ¬ CharsLt tk u := fun g => a4 (k, v) (List.mem_cons_self ..) (fun t ht => by rw [ht.unique htk]; exact g)
    right
    by_cases hlt : CharsLt u tk
    · left
      have hb : ∀ e ∈ (k, v) :: B', ∀ t', IsKey s e.1 t' → CharsLt u t' := by
        intro e he t' ht'
        rcases List.mem_cons.mp he with g | g
        · subst g; rw [ht'.unique htk]; exact hlt
        · exact charsLt_trans hlt (s4 e g tk t' htk ht')
      refine ⟨k, v, B', rfl, ?_, none_of (fun e he h1 => charsLt_irrefl _ (hb e he u h1)), hb⟩
      rw [IsKey.less h hq htk]; congr 1; simpa using hlt
    · right
      have htu : tk = u := by
        rcases htk.tri h hq with g | g | g
        · exact absurd g nlt
        · exact g
        · exact absurd g hlt
      subst htu
      refine ⟨k, v, B', rfl, ?_, htk, ?_, fun e he t' ht' => s4 e he tk t' htk ht'⟩
      · rw [IsKey.less h hq htk]; congr 1; simpa using hlt
      · exact (hg v).mpr ⟨(k, v), hkm, htk, rfl⟩

theorem find_spec {s : State} (h : Reached s) {q : Nat} {u : List UCS4} (hq : IsKey s q u) (t : KTree V) {m : TextMap V}
    (hm : Holds s t.entries m) : t.find s q = .ok (m u) := by
  obtain ⟨A, B, a1, a2, a3, hc⟩ := found h hq t hm
  unfold KTree.find
  rw [a2, res_bind_ok, a1]
  rcases hc with ⟨rfl, h1⟩ | ⟨k, v, B', rfl, h1, h2, -⟩ | ⟨k, v, B', rfl, h1, h2, h3, -⟩
  · simp [h1]
  · simp [h1, h2, res_bind_ok]
  · simp [h1, h3, res_bind_ok]

theorem keysOk_add {s : State} {A B : List (Nat × V)} {q : Nat} {u : List UCS4} (v : V) (hq : IsKey s q u)
    (hk : KeysOk s (A ++ B)) (ha : ∀ e ∈ A, Before s u e) (hb : ∀ e ∈ B, ∀ t', IsKey s e.1 t' → CharsLt u t') :
    KeysOk s (A ++ (q, v) :: B) := by
  obtain ⟨hk1, hk2⟩ := hk
  obtain ⟨s1, s2, s3⟩ := List.pairwise_append.mp hk2
  constructor
  · intro e he
    rcases List.mem_append.mp he with g | g
    · exact hk1 e (List.mem_append_left _ g)
    · rcases List.mem_cons.mp g with g | g
      · subst g; exact ⟨u, hq⟩
      · exact hk1 e (List.mem_append_right _ g)
  · refine List.pairwise_append.mpr ⟨s1, List.pairwise_cons.mpr ⟨?_, s2⟩, ?_⟩
    · intro b hb' t1 t2 h1 h2
      rw [h1.unique hq]; exact hb b hb' t2 h2
    · intro a ha' b hb' t1 t2 h1 h2
      rcases List.mem_cons.mp hb' with g | g
      · subst g; rw [h2.unique hq]; exact ha a ha' t1 h1
      · exact s3 a ha' b g t1 t2 h1 h2

theorem keysOk_drop {s : State} {A B : List (Nat × V)} {e : Nat × V} (hk : KeysOk s (A ++ e :: B)) : KeysOk s (A ++ B) := by
  obtain ⟨hk1, hk2⟩ := hk
  obtain ⟨s1, s2, s3⟩ := List.pairwise_append.mp hk2
  constructor
  · intro x hx
    rcases List.mem_append.mp hx with g | g
    · exact hk1 x (List.mem_append_left _ g)
    · exact hk1 x (List.mem_append_right _ (List.mem_cons_of_mem _ g))
  · exact List.pairwise_append.mpr ⟨s1, (List.pairwise_cons.mp s2).2, fun a ha b hb => s3 a ha b (List.mem_cons_of_mem _ hb)⟩

/-- an entry of text `u` goes in: at the place where no other has that text -/
theorem holds_add {s : State} {A B : List (Nat × V)} {q : Nat} {u : List UCS4} {v : V} {m m' : TextMap V} (hq : IsKey s q u)
    (hk : KeysOk s (A ++ B)) (ha : ∀ e ∈ A, Before s u e) (hb : ∀ e ∈ B, ∀ t', IsKey s e.1 t' → CharsLt u t')
    (hg : ∀ q w, IsKey s q w → w ≠ u → ∀ v, m w = some v ↔ ∃ e ∈ A ++ B, IsKey s e.1 w ∧ e.2 = v)
    (h1 : m' u = some v) (h2 : ∀ w, w ≠ u → m' w = m w) : Holds s (A ++ (q, v) :: B) m' := by
  refine ⟨keysOk_add v hq hk ha hb, fun q' w hq' v' => ?_⟩
  by_cases hw : w = u
  · subst hw
    rw [h1]
    constructor
    · intro hv
      exact ⟨(q, v), List.mem_append_right _ (List.mem_cons_self ..), hq, Option.some.inj hv⟩
    · rintro ⟨e, he, h3, h4⟩
      rcases List.mem_append.mp he with g | g
      · exact absurd (ha e g w h3) (charsLt_irrefl _)
      · rcases List.mem_cons.mp g with g | g
        · subst g; rw [← h4]
        · exact absurd (hb e g w h3) (charsLt_irrefl _)
  · rw [h2 w hw, hg q' w hq' hw v']
    constructor
    · rintro ⟨e, he, h3⟩
      refine ⟨e, ?_, h3⟩
      rcases List.mem_append.mp he with g | g
      · exact List.mem_append_left _ g
      · exact List.mem_append_right _ (List.mem_cons_of_mem _ g)
    · rintro ⟨e, he, h3, h4⟩
      refine ⟨e, ?_, h3, h4⟩
      rcases List.mem_append.mp he with g | g
      · exact List.mem_append_left _ g
      · rcases List.mem_cons.mp g with g | g
        · subst g; exact absurd (h3.unique hq) hw
        · exact List.mem_append_right _ g

theorem step_spec {s : State} (h : Reached s) (op : KOp V) {u : List UCS4} (hq : IsKey s op.key u) (t : KTree V) {m : TextMap V}
    (hm : Holds s t.entries m) : ∃ es, t.step s op = .ok es ∧ Holds s es (op.apply u m) := by
  obtain ⟨A, B, a1, a2, a3, hc⟩ := found h hq t hm
  have hk := hm.ok
  have hg := hm.gives
  rw [a1] at hk hg
  unfold KTree.step
  rw [a2, res_bind_ok, a1]
  have hdrop : ∀ (X Y : List (Nat × V)), (X ++ Y).take X.length = X ∧ (X ++ Y).drop X.length = Y := by
    intro X Y; exact ⟨List.take_left, List.drop_left⟩
  have hab : (∀ e ∈ B, ∀ t', IsKey s e.1 t' → CharsLt u t') → m u = none →
      Holds s (op.absent (A ++ B) A.length) (op.apply u m) := by
    intro hb hmu
    cases op with
    | put q v =>
      show Holds s ((A ++ B).take A.length ++ (q, v) :: (A ++ B).drop A.length) _
      rw [(hdrop A B).1, (hdrop A B).2]
      exact holds_add hq hk a3 hb (fun q w h1 _ => hg q w h1) (by simp [KOp.apply, TextMap.put]) (fun w hw => by simp [KOp.apply, TextMap.put, hw])
    | insert q v =>
      show Holds s ((A ++ B).take A.length ++ (q, v) :: (A ++ B).drop A.length) _
      rw [(hdrop A B).1, (hdrop A B).2]
      exact holds_add hq hk a3 hb (fun q w h1 _ => hg q w h1) (by simp [KOp.apply, TextMap.insert, hmu]) (fun w hw => by simp [KOp.apply, TextMap.insert, hw])
    | erase q =>
      refine ⟨hk, fun q' w hq' v' => ?_⟩
      have : (KOp.erase q : KOp V).apply u m = m := by
        funext w
        simp only [KOp.apply, TextMap.erase]
        split
        · rename_i g; rw [g, hmu]
        · rfl
      rw [this]
      exact hg q' w hq' v'
  rcases hc with ⟨rfl, h1⟩ | ⟨k, v, B', rfl, h1, h2, h3⟩ | ⟨k, v, B', rfl, h1, h2, h3, h4⟩
  · exact ⟨op.absent (A ++ []) A.length, by simp, hab (fun e he => nomatch he) h1⟩
  · exact ⟨_, by simp [h1, res_bind_ok], hab h3 h2⟩
  · refine ⟨op.present (A ++ (k, v) :: B') A.length k, by simp [h1, res_bind_ok], ?_⟩
    have hd1 : (A ++ (k, v) :: B').drop (A.length + 1) = B' := by
      have : A ++ (k, v) :: B' = (A ++ [(k, v)]) ++ B' := by simp
      rw [this]
      have h5 := (hdrop (A ++ [(k, v)]) B').2
      simpa using h5
    have hg' : ∀ q w, IsKey s q w → w ≠ u → ∀ v, m w = some v ↔ ∃ e ∈ A ++ B', IsKey s e.1 w ∧ e.2 = v := by
      intro q w hqw hw v'
      rw [hg q w hqw v']
      constructor
      · rintro ⟨e, he, h5, h6⟩
        refine ⟨e, ?_, h5, h6⟩
        rcases List.mem_append.mp he with g | g
        · exact List.mem_append_left _ g
        · rcases List.mem_cons.mp g with g | g
          · subst g; exact absurd (h5.unique h2) hw
          · exact List.mem_append_right _ g
      · rintro ⟨e, he, h5⟩
        refine ⟨e, ?_, h5⟩
        rcases List.mem_append.mp he with g | g
        · exact List.mem_append_left _ g
        · exact List.mem_append_right _ (List.mem_cons_of_mem _ g)
    cases op with
    | put q v' =>
      show Holds s ((A ++ (k, v) :: B').take A.length ++ (k, v') :: (A ++ (k, v) :: B').drop (A.length + 1)) _
      rw [(hdrop A _).1, hd1]
      exact holds_add h2 (keysOk_drop hk) a3 h4 hg' (by simp [KOp.apply, TextMap.put]) (fun w hw => by simp [KOp.apply, TextMap.put, hw])
    | insert q v' =>
      show Holds s (A ++ (k, v) :: B') _
      exact holds_add h2 (keysOk_drop hk) a3 h4 hg' (by simp [KOp.apply, TextMap.insert, h3]) (fun w hw => by simp [KOp.apply, TextMap.insert, hw])
    | erase q =>
      show Holds s ((A ++ (k, v) :: B').take A.length ++ (A ++ (k, v) :: B').drop (A.length + 1)) _
      rw [(hdrop A _).1, hd1]
      refine ⟨keysOk_drop hk, fun q' w hq' v' => ?_⟩
      by_cases hw : w = u
      · subst hw
        simp only [KOp.apply, TextMap.erase, if_true]
        constructor
        · intro g; exact nomatch g
        · rintro ⟨e, he, h5, -⟩
          rcases List.mem_append.mp he with g | g
          · exact absurd (a3 e g w h5) (charsLt_irrefl _)
          · exact absurd (h4 e g w h5) (charsLt_irrefl _)
      · simp only [KOp.apply, TextMap.erase, if_neg hw]
        exact hg' q' w hq' hw v'

theorem holds_empty (s : State) : Holds s ([] : List (Nat × V)) (fun _ => none) :=
  ⟨⟨fun e he => (nomatch he), List.Pairwise.nil⟩, fun q u _ v => ⟨fun g => (nomatch g), fun ⟨e, he, _⟩ => (nomatch he)⟩⟩

theorem run_spec {s : State} (h : Reached s) (text : Nat → List UCS4) :
    ∀ (ops : List (KOp V)) (t t' : KTree V) (m : TextMap V), KRun s t ops t' → (∀ op ∈ ops, IsKey s op.key (text op.key)) →
      Holds s t.entries m → Holds s t'.entries (KOp.applyAll text ops m)
  | [], t, t', m => fun hr _ hm => by cases hr; exact hm
  | op :: ops, t, t', m => fun hr hk hm => by
    cases hr with
    | call h1 h2 =>
      obtain ⟨es, e1, e2⟩ := step_spec h op (hk op (List.mem_cons_self ..)) t hm
      rw [e1] at h1
      cases h1
      exact run_spec h text ops _ t' _ h2 (fun o ho => hk o (List.mem_cons_of_mem _ ho)) e2

/-- a tree with given entries -/
def spine : List (Nat × V) → KTree V
  | [] => .leaf
  | (k, v) :: es => .node .leaf k v (spine es)

theorem spine_entries (es : List (Nat × V)) : (spine es).entries = es := by
  induction es with
  | nil => rfl
  | cons e es ih => obtain ⟨k, v⟩ := e; simp [spine, KTree.entries, ih]

theorem run_exists {s : State} (h : Reached s) (text : Nat → List UCS4) :
    ∀ (ops : List (KOp V)) (t : KTree V) (m : TextMap V), (∀ op ∈ ops, IsKey s op.key (text op.key)) →
      Holds s t.entries m → ∃ t', KRun s t ops t'
  | [], t, m => fun _ _ => ⟨t, .done t⟩
  | op :: ops, t, m => fun hk hm => by
    obtain ⟨es, e1, e2⟩ := step_spec h op (hk op (List.mem_cons_self ..)) t hm
    obtain ⟨t', ht'⟩ := run_exists h text ops (spine es) (op.apply (text op.key) m) (fun o ho => hk o (List.mem_cons_of_mem _ ho))
      (by rw [spine_entries]; exact e2)
    exact ⟨t', .call (by rw [spine_entries]; exact e1) ht'⟩

end Strpp.SV
