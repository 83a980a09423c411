import Verif.Proof.RxNumber
import Verif.Model.RxCompile
import Verif.Proof.RxTop
import Verif.Spec.RxText
/-! The scanner and the compiler on arbitrary text. -/
set_option linter.unusedSimpArgs false
set_option linter.unusedVariables false
namespace Strpp.Rx
open Spec SV

/-! ### The scanner -/

/-- Not the last token -/
def noAccept : Ev → Bool
  | .tok .accept => false
  | _ => true

@[simp] theorem flush_noAccept (d : List UCS4) : (flush d).all noAccept = true := by
  unfold flush; split <;> rfl

@[simp] theorem rejects_noAccept (cfg : Cfg) (f : Feature) : (rejects cfg f).all noAccept = true := by
  unfold rejects; split <;> rfl

/-- What a step of the scanner leaves: a rest of the text -/
def StepOk (r : List UCS4) (x : Res Step) : Prop :=
  match x with
  | .ok s => s.2.1 <:+ r ∧ s.1.all noAccept = true
  | .error e => e = .ub ∧ ∃ p, p <:+: r ∧ LongMin p

theorem drop_suffix (n : Nat) (r : List UCS4) : r.drop n <:+ r := List.drop_suffix n r

theorem literal_rest (ch : UCS4) (r d : List UCS4) : (literal ch r d).2.1 = r := by
  unfold literal; split <;> rfl

theorem literal_noAccept (ch : UCS4) (r d : List UCS4) : (literal ch r d).1.all noAccept = true := by
  unfold literal; split
  · exact flush_noAccept d
  · rfl

theorem literal_ok (ch : UCS4) {r q d : List UCS4} (h : q <:+ r) : StepOk r (.ok (literal ch q d)) := by
  show (literal ch q d).2.1 <:+ r ∧ _
  rw [literal_rest]; exact ⟨h, literal_noAccept ch q d⟩

theorem special_ok (cfg : Cfg) (f : Feature) (ch : UCS4) (r d : List UCS4) (st : Res Step) (h : StepOk r st) :
    StepOk r (special cfg f ch r d st) := by
  unfold special
  split
  · show (literal ch r d).2.1 <:+ r ∧ (rejects cfg f ++ (literal ch r d).1).all noAccept = true
    rw [literal_rest, List.all_append, literal_noAccept, rejects_noAccept]
    exact ⟨List.suffix_refl r, rfl⟩
  · split
    · exact h
    · exact literal_ok ch (List.suffix_refl r)

theorem Fits.suffix {r q : List UCS4} (h : Fits r) (hq : q <:+: r) : Fits q :=
  ⟨fun c hc => h.1 c (hq.subset hc), Nat.lt_of_le_of_lt hq.length_le h.2⟩

theorem take_infix (n : Nat) (r : List UCS4) : r.take n <:+: r := (List.take_prefix n r).isInfix

/-- A number in a text -/
theorem number_ten {r p : List UCS4} (hr : Fits r) (hp : p <:+: r) :
    (∃ n, number p 10 = .ok n) ∨ (number p 10 = .error .ub ∧ LongMin p) := by
  rcases number_cases p (hr.suffix hp) 10 (by omega) (by omega) with h | ⟨h, ds, rest, vs, h1, h2, h3, h4⟩
  · exact .inl h
  · exact .inr ⟨h, ds, rest, vs, h1, h2, h3, h4⟩

theorem number_short {p : List UCS4} (radix : Nat) (h2 : 2 ≤ radix) (h16 : radix ≤ 16) (hp : Fits p) (h5 : p.length ≤ 5) :
    ∃ n, number p radix = .ok n := by
  rcases number_cases p hp radix (by omega) (by omega) with h | ⟨h, ds, rest, vs, h1, hd, -, h4⟩
  · exact h
  · exfalso
    have hl := (start_length (by omega) h1).2
    have hlt := numeral_lt radix h2 ds vs hd
    have : radix ^ ds.length ≤ 16 ^ 5 :=
      Nat.le_trans (Nat.pow_le_pow_left h16 _) (Nat.pow_le_pow_right (by omega) (by simp at hl; omega))
    omega

theorem leaf {r q : List UCS4} {evs : List Ev} {d : List UCS4} (h : q <:+ r) (he : evs.all noAccept = true) : StepOk r (.ok (evs, q, d)) :=
  ⟨h, he⟩

theorem scanCode_ok (radix : Nat) (h2 : 2 ≤ radix) (h16 : radix ≤ 16) (msg : String) {digits q r : List UCS4} (d : List UCS4)
    (hd : Fits digits) (h5 : digits.length ≤ 5) (hq : q <:+ r) : StepOk r (scanCode radix msg digits q d) := by
  obtain ⟨n, hn⟩ := number_short radix h2 h16 hd h5
  unfold scanCode
  rw [hn, res_bind_ok]
  split
  · exact leaf ((drop_suffix 1 q).trans hq) rfl
  · exact literal_ok _ ((drop_suffix _ q).trans hq)

theorem firstCount_cases {r : List UCS4} (hr : Fits r) (close : Nat) :
    (∃ o, firstCount r close = .ok o) ∨ (firstCount r close = .error .ub ∧ LongMin (r.take close)) := by
  unfold firstCount
  split
  · rcases number_ten hr (take_infix close r) with ⟨n, h⟩ | ⟨h, hm⟩
    · rw [h]; exact .inl ⟨_, rfl⟩
    · rw [h]; exact .inr ⟨rfl, hm⟩
  · exact .inl ⟨_, rfl⟩

theorem scanCount_ok {r : List UCS4} (hr : Fits r) (d : List UCS4) : StepOk r (scanCount r d) := by
  unfold scanCount
  simp only
  split
  · exact leaf (drop_suffix 1 r) (by simp [noAccept, repTok])
  · rename_i close _
    rcases firstCount_cases hr close with ⟨o, h⟩ | ⟨h, hm⟩
    · rw [h, res_bind_ok]
      cases o with
      | none => exact leaf (drop_suffix 1 r) (by simp [noAccept, repTok])
      | some mn =>
        simp only
        split
        · split
          · exact leaf ((drop_suffix 1 _).trans (drop_suffix _ r)) (by simp [noAccept, repTok])
          · rename_i close2 _
            have hi : (r.drop (close + 1)).take close2 <:+: r := (take_infix close2 _).trans (drop_suffix _ r).isInfix
            rcases number_ten hr hi with ⟨n, h⟩ | ⟨h, hm⟩
            · rw [h, res_bind_ok]
              split
              · exact leaf ((drop_suffix 1 _).trans (drop_suffix _ r)) (by simp [noAccept, repTok])
              · exact leaf ((drop_suffix _ _).trans (drop_suffix _ r)) (by simp [noAccept, repTok])
            · rw [h]; exact ⟨rfl, _, hi, hm⟩
        · exact leaf (drop_suffix _ r) (by simp [noAccept, repTok])
    · rw [h]; exact ⟨rfl, _, take_infix close r, hm⟩

theorem scanProp_ok (r d : List UCS4) : StepOk r (.ok (scanProp r d)) := by
  unfold scanProp
  split
  · exact leaf (drop_suffix 2 r) (by simp [noAccept, repTok])
  · split
    · exact leaf ((drop_suffix _ _).trans (drop_suffix 2 r)) (by simp [noAccept, repTok])
    · exact leaf (drop_suffix 2 r) (by simp [noAccept, repTok])

theorem scanEscape_ok (cfg : Cfg) {r : List UCS4} (hr : Fits r) (d : List UCS4) : StepOk r (scanEscape cfg r d) := by
  have hs : StepOk r (.ok (literal (peek r 0) (r.drop 1) d)) := literal_ok _ (drop_suffix 1 r)
  have hf : ∀ q n, q <:+ r → Fits (q.take n) := fun q n hq => hr.suffix ((take_infix n q).trans hq.isInfix)
  unfold scanEscape
  simp only
  split
  · split
    · exact literal_ok _ (drop_suffix 1 r)
    · exact hs
  · split
    · split
      · exact scanCode_ok 8 (by omega) (by omega) _ d (hf r 3 (List.suffix_refl r)) (by simp) (List.suffix_refl r)
      · exact hs
    · split
      · split
        · exact scanCode_ok 16 (by omega) (by omega) _ d (hf _ 2 (drop_suffix 1 r)) (by simp) (drop_suffix 1 r)
        · exact hs
      · split
        · split
          · exact scanCode_ok 16 (by omega) (by omega) _ d (hf _ 5 (drop_suffix 1 r)) (by simp) (drop_suffix 1 r)
          · exact hs
        · split
          · split
            · exact leaf (drop_suffix 1 r) (by simp [noAccept])
            · exact hs
          · split
            · split
              · exact scanProp_ok r d
              · exact hs
            · exact hs

theorem ite_suffix {c : Prop} [Decidable c] {q r : List UCS4} (n : Nat) (h : q <:+ r) : (if c then q.drop n else q) <:+ r := by
  split
  · exact (drop_suffix n q).trans h
  · exact h

theorem classLoop_suffix : ∀ (fuel : Nat) (param s : List UCS4), (classLoop fuel param s).2.2 <:+ s := by
  intro fuel
  induction fuel with
  | zero => intro param s; exact List.suffix_refl s
  | succ fuel ih =>
    intro param s
    unfold classLoop
    simp only
    have e1 : (if (peek s 0 == 0x5C#32) = true then s.drop 1 else s) <:+ s := ite_suffix 1 (List.suffix_refl s)
    generalize (if (peek s 0 == 0x5C#32) = true then s.drop 1 else s) = s1 at e1 ⊢
    split
    · exact List.suffix_refl s
    · split
      · exact List.suffix_refl s
      · split
        · exact e1
        · split
          · have e2 : s1.drop 2 <:+ s := (drop_suffix 2 s1).trans e1
            generalize s1.drop 2 = s2 at e2 ⊢
            have e3 : (if (peek s2 0 == 0x5C#32) = true then s2.drop 1 else s2) <:+ s := ite_suffix 1 e2
            generalize (if (peek s2 0 == 0x5C#32) = true then s2.drop 1 else s2) = s3 at e3 ⊢
            split
            · exact e2
            · split
              · exact e3
              · exact (ih _ _).trans ((drop_suffix 1 s3).trans e3)
          · exact (ih _ _).trans ((drop_suffix 1 s1).trans e1)

theorem scanClass_ok (r d : List UCS4) : StepOk r (.ok (scanClass r d)) := by
  have hc : (classStart r).2.2 <:+ r := by
    unfold classStart
    simp only
    have e1 : (if (peek r 0 == 0x5E#32) = true then r.drop 1 else r) <:+ r := ite_suffix 1 (List.suffix_refl r)
    generalize (if (peek r 0 == 0x5E#32) = true then r.drop 1 else r) = s1 at e1 ⊢
    split
    · exact (drop_suffix 1 s1).trans e1
    · exact e1
  have hl := (classLoop_suffix (r.length + 1) (classStart r).2.1 (classStart r).2.2).trans hc
  show (scanClass r d).2.1 <:+ r ∧ (scanClass r d).1.all noAccept = true
  unfold scanClass
  simp only
  generalize classLoop (r.length + 1) (classStart r).2.1 (classStart r).2.2 = l at hl ⊢
  split
  · exact ⟨(drop_suffix 1 _).trans hl, by simp [noAccept]⟩
  · exact ⟨(drop_suffix 1 _).trans hl, by simp [noAccept]⟩

theorem scanOpen_ok (cfg : Cfg) (r d : List UCS4) : StepOk r (.ok (scanOpen cfg r d)) := by
  have hp : ∀ s : List UCS4, (scanParen cfg s).2 <:+ s ∧ (scanParen cfg s).1.all noAccept = true := by
    intro s
    unfold scanParen
    split
    · split
      · exact ⟨(drop_suffix _ _).trans (drop_suffix 1 s), rfl⟩
      · exact ⟨drop_suffix 2 s, rfl⟩
    · split
      · exact ⟨drop_suffix 1 s, by simp [noAccept]⟩
      · split <;> exact ⟨drop_suffix 1 s, by simp [noAccept]⟩
  unfold scanOpen
  split
  · exact leaf (List.suffix_refl r) (by simp [noAccept])
  · exact leaf ((hp _).1.trans (drop_suffix 1 r)) (by rw [List.all_append, flush_noAccept, (hp _).2]; rfl)

theorem scanWhite_ok (r d : List UCS4) : StepOk r (.ok (scanWhite r d)) := by
  unfold scanWhite
  split
  · exact leaf ((drop_suffix 1 _).trans (List.dropWhile_suffix _)) rfl
  · exact leaf (List.suffix_refl r) rfl

theorem stepOk_here (r d : List UCS4) (evs : List Ev) (h : evs.all noAccept = true) : StepOk r (.ok (evs, r, d)) := ⟨List.suffix_refl r, h⟩

theorem step_ite {c : Prop} [Decidable c] {r : List UCS4} {a b : Res Step} (ha : StepOk r a) (hb : StepOk r b) :
    StepOk r (if c then a else b) := by
  split
  · exact ha
  · exact hb

/-- Each step leaves a rest of the text after its character -/
theorem scanStep_ok (cfg : Cfg) (ch : UCS4) {r : List UCS4} (hr : Fits r) (d : List UCS4) : StepOk r (scanStep cfg ch r d) := by
  have h0 : r <:+ r := List.suffix_refl r
  unfold scanStep
  simp only
  repeat' with_reducible refine step_ite ?_ ?_
  all_goals first
    | with_reducible exact special_ok _ _ _ _ _ _ (scanCount_ok hr d)
    | with_reducible exact scanEscape_ok cfg hr d
    | with_reducible exact special_ok _ _ _ _ _ _ (scanClass_ok r d)
    | with_reducible exact special_ok _ _ _ _ _ _ (scanOpen_ok cfg r d)
    | with_reducible exact scanWhite_ok r d
    | with_reducible exact literal_ok _ h0
    | (with_reducible refine special_ok _ _ _ _ _ _ (stepOk_here _ _ _ ?_)
       first
         | (simp [noAccept, repTok]; done)
         | (split <;> simp [noAccept, repTok]))
    | (with_reducible refine stepOk_here _ _ _ ?_
       first
         | (simp [noAccept, repTok]; done)
         | (split <;> simp [noAccept, repTok]))

theorem scanLoop_total (cfg : Cfg) : ∀ (fuel : Nat) (re d : List UCS4), Fits re → re.length ≤ fuel →
    (∃ evs, scanLoop cfg fuel re d = .ok evs ∧ evs.all noAccept = true) ∨
    (scanLoop cfg fuel re d = .error .ub ∧ ∃ p, p <:+: re ∧ LongMin p) := by
  intro fuel
  induction fuel with
  | zero =>
    intro re d hr hl
    cases re with
    | nil => exact .inl ⟨flush d, by unfold scanLoop; rfl, flush_noAccept d⟩
    | cons c r => simp at hl
  | succ fuel ih =>
    intro re d hr hl
    cases re with
    | nil => exact .inl ⟨flush d, by unfold scanLoop; rfl, flush_noAccept d⟩
    | cons c r =>
      have hsuf : r <:+ c :: r := List.suffix_cons c r
      have hr' : Fits r := hr.suffix hsuf.isInfix
      have h := scanStep_ok cfg c hr' d
      unfold scanLoop
      cases hs : scanStep cfg c r d with
      | error e =>
        rw [hs] at h
        obtain ⟨he, p, hp, hm⟩ := h
        exact .inr ⟨by rw [he]; rfl, p, hp.trans hsuf.isInfix, hm⟩
      | ok s =>
        rw [hs] at h
        obtain ⟨h, hna⟩ : s.2.1 <:+ r ∧ s.1.all noAccept = true := h
        rw [res_bind_ok]
        rcases ih s.2.1 s.2.2 (hr'.suffix h.isInfix) (by have := h.length_le; simp at hl; omega) with ⟨evs, he, hn⟩ | ⟨he, p, hp, hm⟩
        · rw [he]; exact .inl ⟨_, rfl, by rw [List.all_append, hna, hn]; rfl⟩
        · rw [he]; exact .inr ⟨rfl, p, hp.trans (h.trans hsuf).isInfix, hm⟩

/-- The tokens of a text: the first, others, and perhaps the last -/
theorem scan_total (cfg : Cfg) (re : List UCS4) (hr : Fits re) :
    (∃ evs, scan cfg re = .ok (.tok .start :: evs ++ if evs.any Ev.isErr then [] else [.tok .accept]) ∧ evs.all noAccept = true) ∨
    (scan cfg re = .error .ub ∧ ∃ p, p <:+: re ∧ LongMin p) := by
  unfold scan
  rcases scanLoop_total cfg re.length re [] hr (Nat.le_refl _) with ⟨evs, he, hn⟩ | ⟨he, h⟩
  · rw [he]; exact .inl ⟨evs, rfl, hn⟩
  · rw [he]; exact .inr ⟨rfl, h⟩

/-! ### The first pass -/

/-- The first entry of the stack is that of the whole expression -/
def Rooted (st : List (GKind × Bool)) : Prop := ∃ top b, st = top ++ [(GKind.start, b)]

theorem Rooted.cons {st : List (GKind × Bool)} (h : Rooted st) (x : GKind × Bool) : Rooted (x :: st) := by
  obtain ⟨top, b, rfl⟩ := h
  exact ⟨x :: top, b, rfl⟩

theorem Rooted.tail {k : GKind} {f : Bool} {st : List (GKind × Bool)} (h : Rooted ((k, f) :: st)) (hk : k ≠ .start) : Rooted st := by
  obtain ⟨top, b, h⟩ := h
  cases top with
  | nil => simp at h; exact absurd h.1.1 hk
  | cons x top =>
    simp only [List.cons_append, List.cons.injEq] at h
    exact ⟨top, b, h.2⟩

theorem Rooted.flag {k : GKind} {f g : Bool} {st : List (GKind × Bool)} (h : Rooted ((k, f) :: st)) : Rooted ((k, g) :: st) := by
  obtain ⟨top, b, h⟩ := h
  cases top with
  | nil => simp at h; exact ⟨[], g, by simp [h]⟩
  | cons x top =>
    simp only [List.cons_append, List.cons.injEq] at h
    exact ⟨(k, g) :: top, b, by rw [h.2]; rfl⟩

/-- One token: no fault, and the stack stays rooted -/
def Kept (x : Res (Option P1)) : Prop := ∃ o, x = .ok o ∧ ∀ s', o = some s' → Rooted s'.stack

theorem kept_some {s' : P1} (h : Rooted s'.stack) : Kept (.ok (some s')) := ⟨_, rfl, fun _ e => by cases e; exact h⟩
theorem kept_none : Kept (.ok none) := ⟨none, rfl, nofun⟩

theorem push_rooted {s s' : P1} {k : GKind} (hs : Rooted s.stack) (h : s.push k = some s') : Rooted s'.stack := by
  unfold P1.push at h
  split at h
  · cases h
  · cases h; exact hs.cons _

theorem kept_push {s : P1} {k : GKind} (hs : Rooted s.stack) (f : P1 → P1) (hf : ∀ x, (f x).stack = x.stack) :
    Kept (.ok ((s.push k).map f)) := by
  refine ⟨_, rfl, fun s' e => ?_⟩
  cases hp : s.push k with
  | none => rw [hp] at e; cases e
  | some x =>
    rw [hp] at e
    have e : some (f x) = some s' := e
    cases e
    rw [hf]; exact push_rooted hs hp

theorem kept_ite {c : Prop} [Decidable c] {a b : Res (Option P1)} (ha : Kept a) (hb : Kept b) : Kept (if c then a else b) := by
  split
  · exact ha
  · exact hb

theorem firstPass_kept {s : P1} (hs : Rooted s.stack) (t : Tok) (ht : t ≠ .accept) : Kept (firstPass s t) := by
  cases t with
  | accept => exact absurd rfl ht
  | start =>
    unfold firstPass
    simp only
    refine kept_some ?_
    cases hp : P1.push _ _ with
    | none => exact hs
    | some x => exact push_rooted (by exact hs) hp
  | lit _ => exact kept_some hs
  | bol => exact kept_some hs
  | eol => exact kept_some hs
  | any => exact kept_some hs
  | cls _ _ => exact kept_some hs
  | prop _ => exact kept_some hs
  | group => exact ⟨_, rfl, fun s' e => push_rooted (by exact hs) e⟩
  | negLook => exact kept_push (by exact hs) _ fun _ => rfl
  | capture name =>
    unfold firstPass
    simp only
    exact kept_ite kept_none (kept_ite kept_none (kept_push (by exact hs) _ fun _ => rfl))
  | endGroup =>
    unfold firstPass
    simp only
    split
    · exact kept_none
    · exact kept_none
    · rename_i h; rw [h] at hs; exact kept_some (hs.tail (by simp))
    · rename_i h; rw [h] at hs; exact kept_some (hs.tail (by simp))
    · rename_i h; rw [h] at hs; exact kept_some (hs.tail (by simp))
  | alternate =>
    unfold firstPass
    simp only
    split
    · rename_i h; rw [h] at hs; obtain ⟨top, b, h⟩ := hs; cases top <;> cases h
    · rename_i h; rw [h] at hs; exact kept_some hs.flag
    · exact kept_some hs
  | rep mn mx =>
    unfold firstPass
    simp only
    exact kept_ite kept_none (kept_ite kept_none (kept_ite (kept_some hs) (kept_ite (kept_some hs) (kept_ite (kept_some hs) (kept_some hs)))))

/-- The last token, and nothing after it -/
theorem firstPass_accept (s : P1) : ∃ s', firstPass s .accept = .ok (some s') := ⟨_, rfl⟩

theorem runPass_kept : ∀ (evs : List Ev) (s : P1), evs.all noAccept = true → Rooted s.stack → ∀ (post : List Ev),
    (∃ x, runPass firstPass post s = .ok x) → (∀ s', Rooted s'.stack → ∃ x, runPass firstPass post s' = .ok x) →
    ∃ x, runPass firstPass (evs ++ post) s = .ok x := by
  intro evs
  induction evs with
  | nil => intro s _ _ post hp _; exact hp
  | cons ev evs ih =>
    intro s hn hs post hp hq
    rw [List.all_cons, Bool.and_eq_true] at hn
    cases ev with
    | err m =>
      obtain ⟨x, hx⟩ := ih s hn.2 hs post hp hq
      refine ⟨(x.1, false), ?_⟩
      rw [List.cons_append]
      unfold runPass
      rw [hx]; rfl
    | tok t =>
      obtain ⟨o, ho, hk⟩ := firstPass_kept hs t (by rintro rfl; cases hn.1)
      rw [List.cons_append]
      unfold runPass
      rw [ho, res_bind_ok]
      cases o with
      | none => exact ⟨_, rfl⟩
      | some s' => exact ih s' hn.2 (hk s' rfl) post (hq s' (hk s' rfl)) hq

/-- The first pass over the tokens of any text returns -/
theorem first_total (evs : List Ev) (hn : evs.all noAccept = true) :
    ∃ x, runPass firstPass (.tok .start :: evs ++ if evs.any Ev.isErr then [] else [.tok .accept]) P1.init = .ok x := by
  have hstart : ∃ s1, firstPass P1.init .start = .ok (some s1) ∧ Rooted s1.stack := ⟨_, rfl, [], true, rfl⟩
  obtain ⟨s1, h1, hr⟩ := hstart
  rw [List.cons_append]
  unfold runPass
  rw [h1, res_bind_ok]
  have hpost : ∀ s', ∃ x, runPass firstPass (if evs.any Ev.isErr then [] else [.tok .accept]) s' = .ok x := by
    intro s'
    split
    · exact ⟨_, rfl⟩
    · obtain ⟨s2, h2⟩ := firstPass_accept s'
      refine ⟨(s2, true), ?_⟩
      unfold runPass
      rw [h2]; rfl
  exact runPass_kept evs s1 hn hr _ (hpost s1) fun s' _ => hpost s'

/-! ### The second pass ends -/

/-- The outcome is not that the steps ran out -/
def Ends {α : Type} (x : Res α) : Prop := x ≠ .error .fuel

theorem ends_ok {α : Type} (a : α) : Ends (.ok a : Res α) := nofun
theorem ends_ub {α : Type} : Ends (.error .ub : Res α) := by intro h; cases h
theorem ends_assertion {α : Type} : Ends (.error .assertion : Res α) := by intro h; cases h

theorem Ends.bind {α β : Type} {x : Res α} {f : α → Res β} (h : Ends x) (hf : ∀ a, x = .ok a → Ends (f a)) : Ends (x >>= f) := by
  cases x with
  | error e => intro he; exact h (by cases he; rfl)
  | ok a => exact hf a rfl

theorem ends_ite {α : Type} {c : Prop} [Decidable c] {a b : Res α} (ha : c → Ends a) (hb : ¬ c → Ends b) : Ends (if c then a else b) := by
  split
  · exact ha ‹_›
  · exact hb ‹_›

theorem ends_rd {α : Type} (m : List α) (i : Nat) : Ends (rd m i) := by
  unfold rd; split
  · exact ends_ok _
  · exact ends_ub

theorem ends_rdI {α : Type} (m : List α) (i : Int) : Ends (rdI m i) := ends_ite (fun _ => ends_ub) fun _ => ends_rd m _

theorem ends_assert (b : Bool) : Ends (assert b) := ends_ite (fun _ => ends_ok _) fun _ => ends_assertion

theorem ends_getFall (m : List Byte) (sp : Nat) (b0 : Byte) : ∀ (k : Nat) (ch : UCS4) (cp : Nat), Ends (utf8GetFall m sp b0 k ch cp) := by
  intro k
  induction k with
  | zero => intro ch cp; exact ends_ok _
  | succ k ih =>
    intro ch cp
    cases k with
    | zero => exact ends_ok _
    | succ k =>
      unfold utf8GetFall
      exact (ends_rd _ _).bind fun b _ => ends_ite (fun _ => ends_ok _) fun _ => ih _ _

theorem ends_getOffset (m : List Byte) (p : Nat) : Ends (getOffset m p) := by
  unfold getOffset utf8Get
  refine Ends.bind ((ends_rd _ _).bind fun b _ => ends_getFall _ _ _ _ _ _) fun _ _ => ends_ok _

theorem ends_emit (e : Env) (b bs : List Byte) : Ends (emit e b bs) := ends_ite (fun _ => ends_ok _) fun _ => ends_ub
theorem ends_insertAt (e : Env) (b : List Byte) (l : Nat) (bs : List Byte) : Ends (insertAt e b l bs) := ends_ite (fun _ => ends_ok _) fun _ => ends_ub
theorem ends_insertSplit (e : Env) (b : List Byte) (l : Nat) : Ends (insertSplit e b l) := ends_insertAt e b l _
theorem ends_patch (e : Env) (b : List Byte) (l t : Nat) : Ends (patchOffset e b l t) := ends_ite (fun _ => ends_ok _) fun _ => ends_ub

theorem ends_fixupLoop (e : Env) (contents : Nat) : ∀ (fuel : Nat) (b : List Byte) (jump : Nat), jump < fuel → Ends (fixupLoop e contents fuel b jump) := by
  intro fuel
  induction fuel with
  | zero => intro b jump h; omega
  | succ fuel ih =>
    intro b jump h
    unfold fixupLoop
    refine (ends_getOffset _ _).bind fun prev _ => (ends_rdI _ _).bind fun op hop => (ends_assert _).bind fun _ _ =>
      (ends_patch _ _ _ _).bind fun p _ => (ends_rdI _ _).bind fun _ _ => (ends_assert _).bind fun _ _ =>
      (ends_patch _ _ _ _).bind fun q _ => ends_ite (fun _ => ends_ok _) fun _ => (ends_assert _).bind fun _ ha => ih _ _ ?_
    have hneg : prev.1 < 0 := by
      unfold assert at ha
      split at ha
      · rename_i hc; simpa using hc
      · cases ha
    have hj : 0 < jump := by
      apply Decidable.byContradiction
      intro hj
      have : jump = 0 := by omega
      subst this
      unfold rdI at hop
      rw [if_pos (by omega)] at hop
      cases hop
    omega

theorem ends_fixup (e : Env) (b : List Byte) (f : Frame) : Ends (fixup e b f) :=
  ends_ite (fun _ => ends_ok _) fun _ => ends_fixupLoop e _ _ _ _ (by omega)

theorem ends_starLoop (e : Env) (n : Nat) : ∀ (fuel rev : Nat), rev < fuel → Ends (starLoop e n fuel rev) := by
  intro fuel
  induction fuel with
  | zero => intro rev h; omega
  | succ fuel ih =>
    intro rev h
    unfold starLoop
    simp only
    exact ends_ite (fun hr => ih _ (by omega)) fun _ => ends_ok _

theorem ends_emitStrings (e : Env) : ∀ (ns : List (List UCS4)) (b : List Byte), Ends (emitStrings e b ns) := by
  intro ns
  induction ns with
  | nil => intro b; exact ends_ok _
  | cons n ns ih => intro b; exact (ends_emit _ _ _).bind fun _ _ => ih _

theorem ends_genStart (e : Env) (s : P2) : Ends (genStart e s) := by
  unfold genStart
  exact (ends_emit _ _ _).bind fun _ _ => (ends_emit _ _ _).bind fun _ _ => (ends_emit _ _ _).bind fun _ _ => (ends_emit _ _ _).bind fun _ _ =>
    (ends_emit _ _ _).bind fun _ _ => (ends_emitStrings _ _ _).bind fun _ _ => (ends_patch _ _ _ _).bind fun _ _ =>
    (ends_emit _ _ _).bind fun _ _ => ends_ok _

theorem ends_genAccept (e : Env) (s : P2) : Ends (genAccept e s) := by
  unfold genAccept
  split
  · exact ends_ub
  · exact (ends_fixup _ _ _).bind fun _ _ => (ends_emit _ _ _).bind fun _ _ => (ends_patch _ _ _ _).bind fun _ _ =>
      (ends_getOffset _ _).bind fun _ _ => (ends_emit _ _ _).bind fun _ _ => (ends_emit _ _ _).bind fun _ _ =>
      (ends_emit _ _ _).bind fun _ _ => (ends_emit _ _ _).bind fun _ _ => ends_ok _

theorem ends_genEnd (e : Env) (s : P2) : Ends (genEnd e s) := by
  unfold genEnd
  split
  · exact ends_ub
  · split
    · exact ends_assertion
    · exact (ends_fixup _ _ _).bind fun _ _ => (ends_emit _ _ _).bind fun _ _ => (ends_patch _ _ _ _).bind fun _ _ => ends_ok _
    · exact (ends_fixup _ _ _).bind fun _ _ => ends_ok _
    · exact (ends_fixup _ _ _).bind fun _ _ => (ends_emit _ _ _).bind fun _ _ => ends_ok _

theorem ends_genAlternate (e : Env) (s : P2) : Ends (genAlternate e s) := by
  unfold genAlternate
  split
  · exact ends_ub
  · exact ends_ite
      (fun _ => (ends_insertSplit _ _ _).bind fun _ _ => (ends_emit _ _ _).bind fun _ _ => (ends_emit _ _ _).bind fun _ _ => ends_ok _)
      fun _ => (ends_insertSplit _ _ _).bind fun _ _ => (ends_emit _ _ _).bind fun _ _ => (ends_emit _ _ _).bind fun _ _ => ends_ok _

theorem ends_genRep (e : Env) (he : e.omb < 8) (s : P2) (mn mx : Nat) : Ends (genRep e s mn mx) := by
  unfold genRep
  simp only
  exact ends_ite
    (fun _ => (ends_insertSplit _ _ _).bind fun _ _ => (ends_emit _ _ _).bind fun _ _ => (ends_starLoop _ _ _ _ he).bind fun _ _ =>
      (ends_patch _ _ _ _).bind fun _ _ => (ends_emit _ _ _).bind fun _ _ => ends_ok _)
    fun _ => ends_ite (fun _ => (ends_insertSplit _ _ _).bind fun _ _ => (ends_patch _ _ _ _).bind fun _ _ => ends_ok _)
    fun _ => ends_ite (fun _ => (ends_emit _ _ _).bind fun _ _ => (ends_emit _ _ _).bind fun _ _ => ends_ok _)
    fun _ => (ends_insertAt _ _ _ _).bind fun _ _ => (ends_emit _ _ _).bind fun _ _ => (ends_emit _ _ _).bind fun _ _ => ends_ok _

theorem ends_gen (e : Env) (he : e.omb < 8) (s : P2) (t : Tok) : Ends (gen e s t) := by
  cases t with
  | start => exact (ends_genStart _ _).bind fun _ _ => ends_ok _
  | accept => exact ends_genAccept _ _
  | bol => exact (ends_emit _ _ _).bind fun _ _ => ends_ok _
  | eol => exact (ends_emit _ _ _).bind fun _ _ => ends_ok _
  | any => exact (ends_emit _ _ _).bind fun _ _ => ends_ok _
  | lit str => exact (ends_emit _ _ _).bind fun _ _ => ends_ok _
  | prop str => exact (ends_emit _ _ _).bind fun _ _ => ends_ok _
  | cls neg str => exact (ends_emit _ _ _).bind fun _ _ => ends_ok _
  | group => exact ends_ok _
  | capture n => exact (ends_emit _ _ _).bind fun _ _ => ends_ok _
  | negLook => exact (ends_emit _ _ _).bind fun _ _ => ends_ok _
  | endGroup => exact ends_genEnd _ _
  | alternate => exact ends_genAlternate _ _
  | rep mn mx => exact (ends_genRep e he _ _ _).bind fun _ _ => ends_ok _

theorem ends_second (e : Env) (he : e.omb < 8) : ∀ (evs : List Ev) (s : P2), Ends (runPass (secondPass e) evs s) := by
  intro evs
  induction evs with
  | nil => intro s; exact ends_ok _
  | cons ev evs ih =>
    intro s
    cases ev with
    | err m => exact (ih s).bind fun _ _ => ends_ok _
    | tok t =>
      unfold runPass
      refine Ends.bind ((ends_gen e he s t).bind fun _ _ => (ends_assert _).bind fun _ _ => ends_ok _) fun o _ => ?_
      cases o with
      | none => exact ends_ok _
      | some s' => exact ih s'

theorem omb_small (s : P1) : (Env.of s).omb < 8 := by
  unfold Env.of lenOf
  have := (C02_utf8_len (BitVec.ofNat 32 (2 * (s.bytes + s.offsets * utf8LenCh (BitVec.ofNat 32 (2 * (s.bytes + s.offsets * 4))))))).2.2
  simp only
  omega

/-- Compiling any text ends -/
theorem compile_ends (cfg : Cfg) (re : List UCS4) (hr : Fits re) : Ends (compile cfg re) := by
  unfold compile
  rcases scan_total cfg re hr with ⟨evs, h, hn⟩ | ⟨h, -⟩
  · rw [h, res_bind_ok]
    obtain ⟨x, hx⟩ := first_total evs hn
    rw [hx, res_bind_ok]
    refine ends_ite (fun _ => ends_ok _) fun _ => ?_
    refine (ends_second _ (omb_small _) _ _).bind fun p2 _ => ends_ite (fun _ => (ends_emit _ _ _).bind fun _ _ => ends_ok _) fun _ => ends_ok _
  · rw [h]; exact ends_ub

end Strpp.Rx
