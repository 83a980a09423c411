import Verif.Proof.RefCount
/-!
C17 and C51: reference counting with any number of threads, for every schedule.

A schedule is a list of events: starting a call on some `Ref` variables (ignored when it would be a data race), or
running the next atomic action of one of the calls in progress. `run init es` is the state it leads to, or a fault (use
of a deleted object, a failed assertion).
-/
namespace Strpp.RC

/-- variable `v` refers to object `o` -/
def Refers (s : State) (v o : Nat) : Prop := s.vars[v]? = some (some (some o))

/-- C17. No schedule leads to a fault: no use of a deleted object, no double deletion, no failed assertion. -/
theorem C17_no_fault (es : List Event) : ∃ s, run init es = .ok s := by
  obtain ⟨s, h, _⟩ := run_inv es init init_inv
  exact ⟨s, h⟩

theorem reach_inv {es : List Event} {s : State} (h : run init es = .ok s) : Inv s := by
  obtain ⟨s', h1, h2⟩ := run_inv es init init_inv
  rw [h] at h1; cases h1; exact h2

/-- C17. Never early: whatever is running, an object some variable refers to has not been deleted. -/
theorem C17_not_early (es : List Event) (s : State) (h : run init es = .ok s) (v o : Nat) (hv : Refers s v o) :
    ∃ x, s.objs[o]? = some x ∧ x.live = true ∧ 0 < x.count := by
  have hp := V_pos hv
  obtain ⟨x, h1, h2, _, h3, _⟩ := obj_ok (reach_inv h) o (by omega)
  exact ⟨x, h1, h2, by omega⟩

/-- C17. No leak: when no call is in progress the objects not deleted are exactly those some variable refers to, and
their count is the number of variables that do. -/
theorem C17_quiescent (es : List Event) (s : State) (h : run init es = .ok s) (hq : s.jobs = []) (o : Nat) (x : Obj)
    (hx : s.objs[o]? = some x) :
    (x.live = true ↔ ∃ v, Refers s v o) ∧ x.count = (s.vars.countP (· == some (some o)) : Nat) := by
  have h1 := (reach_inv h).objs o
  rw [hx, hq] at h1
  obtain ⟨a, b, c⟩ := h1
  simp only [P, Z, List.countP_nil, Nat.add_zero] at a b c
  refine ⟨⟨fun hl => ?_, fun ⟨v, hv⟩ => ?_⟩, a⟩
  · have hpos : 0 < V s.vars o := by
      rcases Nat.eq_zero_or_pos (V s.vars o) with e | e
      · have := (b hl).1 e; omega
      · exact e
    unfold V at hpos
    rw [List.countP_pos_iff] at hpos
    obtain ⟨w, hw, hwe⟩ := hpos
    rw [beq_iff_eq] at hwe
    subst hwe
    obtain ⟨v, hv⟩ := List.mem_iff_getElem?.1 hw
    exact ⟨v, hv⟩
  · cases hl : x.live with
    | true => rfl
    | false => have := (c hl).1; have := V_pos hv; omega

/-- how many more actions a call can take -/
def rank : Pc → Nat
  | .unshare _ _ => 7
  | .write _ _ => 1
  | .addRef _ _ => 6
  | .chk _ _ => 5
  | .store _ _ => 4
  | .relAssert _ => 3
  | .relDec _ => 2
  | .del _ => 1

/-- work left in the calls in progress -/
def work (s : State) : Nat := (s.jobs.map (fun j => rank j.pc)).sum

/-- C17. Every call ends: each action of a call in progress uses up some of the work left, which starting a call
increases by at most 7. So once no more calls are started, running the ones in progress reaches a quiescent state. -/
theorem C17_calls_end (s s' : State) (i : Nat) (hi : i < s.jobs.length) (h : tick s i = .ok s') : work s' < work s := by
  unfold tick at h
  have hj : s.jobs[i]? = some s.jobs[i] := List.getElem?_eq_getElem hi
  generalize s.jobs[i] = j at hj
  obtain ⟨objs, vars, jobs⟩ := s
  simp only at hj
  obtain ⟨pre, post, rfl, rfl⟩ := split_at hj
  rw [hj] at h
  simp only [goto, finish, set_mid, erase_mid] at h
  have key1 : ∀ (o : List Obj) (v : List (Option (Option Nat))) (k : Job), rank k.pc < rank j.pc →
      work ⟨o, v, pre ++ k :: post⟩ < work ⟨objs, vars, pre ++ j :: post⟩ := by
    intro o v k hk; simp [work]; omega
  have key2 : ∀ (o : List Obj) (v : List (Option (Option Nat))),
      work ⟨o, v, pre ++ post⟩ < work ⟨objs, vars, pre ++ j :: post⟩ := by
    intro o v
    have : 0 < rank j.pc := by cases j.pc <;> simp [rank]
    simp [work]; omega
  obtain ⟨reads, writes, pc⟩ := j
  have hbind : ∀ {α β : Type} {m : Res α} {f : α → Res β} {b : β}, (m >>= f) = .ok b → ∃ a, m = .ok a ∧ f a = .ok b := by
    intro α β m f b hh
    cases m with
    | error e => cases hh
    | ok a => exact ⟨a, rfl, hh⟩
  cases pc with
  | addRef dst o =>
    obtain ⟨x, _, h⟩ := hbind h
    cases h; exact key1 _ _ _ (by simp [rank])
  | chk dst o =>
    obtain ⟨x, _, h⟩ := hbind h
    obtain ⟨_, _, h⟩ := hbind h
    cases h; exact key1 _ _ _ (by simp [rank])
  | store dst p =>
    simp only at h
    split at h
    · split at h
      · cases h; exact key1 _ _ _ (by simp [rank])
      · cases h; exact key2 _ _
    · cases h
  | relAssert o =>
    obtain ⟨x, _, h⟩ := hbind h
    obtain ⟨_, _, h⟩ := hbind h
    cases h; exact key1 _ _ _ (by simp [rank])
  | relDec o =>
    obtain ⟨x, _, h⟩ := hbind h
    simp only at h
    split at h
    · cases h; exact key1 _ _ _ (by simp [rank])
    · cases h; exact key2 _ _
  | del o =>
    obtain ⟨x, _, h⟩ := hbind h
    cases h; exact key2 _ _
  | unshare dst o =>
    obtain ⟨x, _, h⟩ := hbind h
    split at h
    · cases h; exact key1 _ _ _ (by simp [rank])
    · cases h; exact key1 _ _ _ (by simp [rank])
  | write dst o =>
    obtain ⟨x, _, h⟩ := hbind h
    cases h; exact key2 _ _

/-- running the first call in progress again and again -/
def drain : Nat → List Event
  | 0 => []
  | n + 1 => .tick 0 :: drain n

/-- C17. After any history, finishing the calls in progress gives a state with none in progress (where
`C17_quiescent` applies): nothing is leaked because a call cannot get stuck. -/
theorem C17_can_finish (es : List Event) (s : State) (h : run init es = .ok s) :
    ∃ n s', run s (drain n) = .ok s' ∧ s'.jobs = [] := by
  have key : ∀ w s, Inv s → work s ≤ w → ∃ n s', run s (drain n) = .ok s' ∧ s'.jobs = [] := by
    intro w
    induction w with
    | zero =>
      intro s _ hw
      refine ⟨0, s, rfl, ?_⟩
      cases hj : s.jobs with
      | nil => rfl
      | cons j js =>
        have : 0 < rank j.pc := by cases j.pc <;> simp [rank]
        simp [work, hj] at hw; omega
    | succ w ih =>
      intro s hs hw
      cases hj : s.jobs with
      | nil => exact ⟨0, s, rfl, hj⟩
      | cons j js =>
        obtain ⟨s1, h1, h2⟩ := tick_inv hs 0
        have := C17_calls_end s s1 0 (by simp [hj]) h1
        obtain ⟨n, s', h3, h4⟩ := ih s1 h2 (by omega)
        refine ⟨n + 1, s', ?_, h4⟩
        simp only [drain, run, step, h1, res_bind_ok, h3]
  exact key _ s (reach_inv h) (Nat.le_refl _)

/-- the object a position of a call is about -/
def Pc.mentions (o : Nat) : Pc → Prop
  | .addRef _ x => x = o
  | .chk _ x => x = o
  | .store _ p => p = some o
  | .relAssert x => x = o
  | .relDec x => x = o
  | .del x => x = o
  | .unshare _ x => x = o
  | .write _ x => x = o

/-- the job alone, with the lock on its variable, refers to an object of count at most one -/
theorem exclusive {s : State} (hi : Inv s) {i : Nat} {j : Job} {v o : Nat} (hj : s.jobs[i]? = some j)
    (hw : j.writes = some v) (hv : Refers s v o) (x : Obj) (hx : s.objs[o]? = some x) (hc : x.count ≤ 1) :
    (∀ w, Refers s w o → w = v) ∧ ∀ k l, s.jobs[k]? = some l → k ≠ i → ¬ l.pc.mentions o := by
  have hobj := hi.objs o
  rw [hx] at hobj
  have hVpos := V_pos hv
  obtain ⟨hcount, hlive, hdead⟩ := hobj
  have hl : x.live = true := by
    cases hl : x.live with
    | true => rfl
    | false => have := hdead hl; omega
  have hP : P s.jobs o = 0 := by omega
  have hV : V s.vars o = 1 := by omega
  have hZ : Z s.jobs o = 0 := (hlive hl).2 (by omega)
  have huniq : ∀ w, Refers s w o → w = v := by
    intro w hw'
    rcases Decidable.em (w = v) with e | hne
    · exact e
    · exfalso
      have h2 := V_set (w' := none) hw' o
      have h3 : 0 < V (s.vars.set w none) o := by
        refine V_pos (d := v) ?_
        rw [List.getElem?_set_ne hne]; exact hv
      simp at h2
      omega
  refine ⟨huniq, ?_⟩
  intro k l hl' hne hm
  have hlm := List.mem_of_getElem? hl'
  have hnh : holds l o = false := by
    unfold P at hP
    rw [List.countP_eq_zero] at hP
    simpa using hP l hlm
  have hna : alone l o = false := by
    unfold Z at hZ
    rw [List.countP_eq_zero] at hZ
    simpa using hZ l hlm
  have hcm : Compat j l := by
    obtain ⟨pre, post, he, hlen⟩ := split_at hj
    have hlk := hi.locks
    rw [he] at hlk hl'
    refine (locks_mid hlk).2 l ?_
    subst hlen
    rcases Nat.lt_or_ge k pre.length with hlt | hge
    · rw [List.getElem?_append_left hlt] at hl'
      exact List.mem_append_left _ (List.mem_of_getElem? hl')
    · rw [List.getElem?_append_right hge] at hl'
      have : k - pre.length = (k - pre.length - 1) + 1 := by omega
      rw [this, List.getElem?_cons_succ] at hl'
      exact List.mem_append_right _ (List.mem_of_getElem? hl')
  have hlok := hi.jobs l hlm
  unfold JobOk at hlok
  unfold holds at hnh
  unfold alone at hna
  cases hlp : l.pc with
  | addRef d y =>
    rw [hlp] at hlok hm hna
    simp only [Pc.mentions] at hm
    subst hm
    obtain ⟨-, -, hrd⟩ := hlok
    rcases hrd with hrd | ⟨src, hrd, hsrc⟩
    · simp [hrd] at hna
    · have := huniq src hsrc
      subst this
      exact (hcm.1 src hw).2 hrd
  | unshare d y =>
    rw [hlp] at hlok hm
    simp only [Pc.mentions] at hm
    subst hm
    have := huniq d hlok.2.2
    subst this
    exact (hcm.1 d hw).1 hlok.1
  | write d y =>
    rw [hlp] at hlok hm
    simp only [Pc.mentions] at hm
    subst hm
    have := huniq d hlok.2.2
    subst this
    exact (hcm.1 d hw).1 hlok.1
  | chk d y => rw [hlp] at hm hnh; simp_all [Pc.mentions]
  | store d y => rw [hlp] at hm hnh; simp_all [Pc.mentions]
  | relAssert y => rw [hlp] at hm hnh; simp_all [Pc.mentions]
  | relDec y => rw [hlp] at hm hnh; simp_all [Pc.mentions]
  | del y => rw [hlp] at hm hna; simp_all [Pc.mentions]

/-- a call that goes on to write without copying has an object of count at most one -/
def Excl (s : State) : Prop :=
  ∀ (l : Job) (v o : Nat) (x : Obj), l ∈ s.jobs → l.pc = .write v o → s.objs[o]? = some x → x.count ≤ 1

theorem mem_set_or {α : Type} {l : List α} {i : Nat} {x y : α} (h : y ∈ l.set i x) : y ∈ l ∨ y = x := by
  rcases List.mem_or_eq_of_mem_set h with h | h
  · exact Or.inl h
  · exact Or.inr h

theorem tick_excl {s s' : State} (hi : Inv s) (he : Excl s) {i : Nat} (h : tick s i = .ok s') : Excl s' := by
  have hbind : ∀ {α β : Type} {m : Res α} {f : α → Res β} {b : β}, (m >>= f) = .ok b → ∃ a, m = .ok a ∧ f a = .ok b := by
    intro α β m f b hh
    cases m with
    | error e => cases hh
    | ok a => exact ⟨a, rfl, hh⟩
  have hobj : ∀ {o : Nat} {x : Obj}, obj s o = .ok x → s.objs[o]? = some x := by
    intro o x hh
    unfold obj at hh
    split at hh
    · split at hh
      · cases hh; assumption
      · cases hh
    · cases hh
  unfold tick at h
  split at h
  · cases h; exact he
  · rename_i j hj
    have hjm := List.mem_of_getElem? hj
    split at h
    · -- addRef
      rename_i dst o hpc
      obtain ⟨x0, hx0, h⟩ := hbind h
      have hx0 := hobj hx0
      cases h
      intro l v p x hl hlp hx
      simp only [goto] at hl hx
      have hls : l ∈ s.jobs := by
        rcases mem_set_or hl with h | h
        · exact h
        · subst h; cases hlp
      have hlok := hi.jobs l hls
      unfold JobOk at hlok
      rw [hlp] at hlok
      rw [List.getElem?_set] at hx
      split at hx
      · -- the job being incremented would be a second reference
        rename_i heq
        subst heq
        exfalso
        have hc := he l v o x0 hls hlp hx0
        obtain ⟨k, hk⟩ := List.getElem?_of_mem hls
        have hx := (exclusive hi hk hlok.1 hlok.2.2 x0 hx0 hc).2 i j hj
        have hne : i ≠ k := by
          rintro rfl
          rw [hj] at hk
          cases hk
          rw [hpc] at hlp
          cases hlp
        exact hx hne (by rw [hpc]; rfl)
      · exact he l v p x hls hlp hx
    · -- chk
      obtain ⟨x0, hx0, h⟩ := hbind h
      obtain ⟨_, _, h⟩ := hbind h
      cases h
      intro l v p x hl hlp hx
      simp only [goto] at hl hx
      rcases mem_set_or hl with h | h
      · exact he l v p x h hlp hx
      · subst h; cases hlp
    · -- store
      split at h
      · split at h
        · cases h
          intro l v p x hl hlp hx
          simp only [goto] at hl hx
          rcases mem_set_or hl with h | h
          · exact he l v p x h hlp hx
          · subst h; cases hlp
        · cases h
          intro l v p x hl hlp hx
          exact he l v p x (List.mem_of_mem_eraseIdx hl) hlp hx
      · cases h
    · -- relAssert
      obtain ⟨x0, hx0, h⟩ := hbind h
      obtain ⟨_, _, h⟩ := hbind h
      cases h
      intro l v p x hl hlp hx
      simp only [goto] at hl hx
      rcases mem_set_or hl with h | h
      · exact he l v p x h hlp hx
      · subst h; cases hlp
    · -- relDec
      rename_i o hpc
      obtain ⟨x0, hx0, h⟩ := hbind h
      have hx0 := hobj hx0
      have key : ∀ (l : Job) (v p : Nat) (x : Obj), l ∈ s.jobs → l.pc = .write v p →
          (s.objs.set o { x0 with count := x0.count - 1 })[p]? = some x → x.count ≤ 1 := by
        intro l v p x hl hlp hx
        rw [List.getElem?_set] at hx
        split at hx
        · rename_i heq
          subst heq
          have := he l v o x0 hl hlp hx0
          split at hx
          · cases hx; simp only; omega
          · cases hx
        · exact he l v p x hl hlp hx
      simp only at h
      split at h
      · cases h
        intro l v p x hl hlp hx
        simp only [goto] at hl hx
        rcases mem_set_or hl with h | h
        · exact key l v p x h hlp hx
        · subst h; cases hlp
      · cases h
        intro l v p x hl hlp hx
        exact key l v p x (List.mem_of_mem_eraseIdx hl) hlp hx
    · -- del
      rename_i o hpc
      obtain ⟨x0, hx0, h⟩ := hbind h
      have hx0 := hobj hx0
      cases h
      intro l v p x hl hlp hx
      have hls := List.mem_of_mem_eraseIdx hl
      simp only [finish] at hx
      rw [List.getElem?_set] at hx
      split at hx
      · rename_i heq
        subst heq
        have := he l v o x0 hls hlp hx0
        split at hx
        · cases hx; exact this
        · cases hx
      · exact he l v p x hls hlp hx
    · -- unshare
      rename_i dst o hpc
      obtain ⟨x0, hx0, h⟩ := hbind h
      have hx0 := hobj hx0
      split at h
      · rename_i hc
        cases h
        intro l v p x hl hlp hx
        simp only [goto] at hl hx
        rcases mem_set_or hl with h | h
        · exact he l v p x h hlp hx
        · subst h
          cases hlp
          rw [hx0] at hx
          cases hx
          exact hc
      · cases h
        intro l v p x hl hlp hx
        simp only [goto] at hl hx
        rcases mem_set_or hl with h | h
        · rw [List.getElem?_append] at hx
          split at hx
          · exact he l v p x h hlp hx
          · have : x = ⟨0, true⟩ := by
              have := List.mem_of_getElem? hx
              simpa using this
            subst this; simp
        · subst h; cases hlp
    · -- write
      obtain ⟨x0, hx0, h⟩ := hbind h
      cases h
      intro l v p x hl hlp hx
      exact he l v p x (List.mem_of_mem_eraseIdx hl) hlp hx

theorem start_excl {s : State} (hi : Inv s) (he : Excl s) (c : Call) : Excl (start s c) := by
  have push : ∀ (objs : List Obj) (vars : List (Option (Option Nat))) (j : Job), (∀ v o, j.pc ≠ .write v o) →
      (∀ (o : Nat) (x : Obj), objs[o]? = some x → s.objs[o]? = some x ∨ x = ⟨0, true⟩) → Excl ⟨objs, vars, s.jobs ++ [j]⟩ := by
    intro objs vars j hj ho l v o x hl hlp hx
    simp only at hl hx
    rcases List.mem_append.mp hl with h | h
    · rcases ho o x hx with h1 | h1
      · exact he l v o x h hlp h1
      · subst h1; simp
    · simp only [List.mem_singleton] at h
      subst h
      exact absurd hlp (hj v o)
  have same : ∀ (o : Nat) (x : Obj), s.objs[o]? = some x → s.objs[o]? = some x ∨ x = ⟨0, true⟩ := fun _ _ h => Or.inl h
  have more : ∀ (o : Nat) (x : Obj), (s.objs ++ [⟨0, true⟩])[o]? = some x → s.objs[o]? = some x ∨ x = ⟨0, true⟩ := by
    intro o x hx
    rw [List.getElem?_append] at hx
    split at hx
    · exact Or.inl hx
    · right
      have := List.mem_of_getElem? hx
      simpa using this
  cases c with
  | null => exact he
  | construct => exact push _ _ _ nofun more
  | copy src =>
    simp only [start]
    split
    · split
      · split
        · exact push _ _ _ nofun same
        · exact he
      · exact he
    · exact he
  | assign dst src =>
    simp only [start]
    split
    · split
      · split
        · exact push _ _ _ nofun same
        · exact push _ _ _ nofun same
      · exact he
    · exact he
  | assignNew dst =>
    simp only [start]
    split
    · split
      · exact push _ _ _ nofun more
      · exact he
    · exact he
  | assignNull dst =>
    simp only [start]
    split
    · split
      · exact push _ _ _ nofun same
      · exact he
    · exact he
  | destroy v =>
    simp only [start]
    split
    · split
      · split
        · exact push _ _ _ nofun same
        · exact he
      · exact he
    · exact he
  | unshare dst =>
    simp only [start]
    split
    · split
      · exact push _ _ _ nofun same
      · exact he
    · exact he

/-- C51. Under any schedule: from the moment a call finds a count of at most one, so that it will write to the object
without copying it, until it has written, its variable is the only one that refers to the object, and no other call in
progress uses the object or is about to add a reference to it. -/
theorem C51_unshare_exclusive (es : List Event) (s : State) (h : run init es = .ok s) (i : Nat) (j : Job) (v o : Nat)
    (hj : s.jobs[i]? = some j) (hpc : j.pc = .write v o) :
    Refers s v o ∧ (∀ w, Refers s w o → w = v) ∧ ∀ k l, s.jobs[k]? = some l → k ≠ i → ¬ l.pc.mentions o := by
  have key : ∀ (es : List Event) (s s' : State), Inv s → Excl s → run s es = .ok s' → Excl s' := by
    intro es
    induction es with
    | nil => intro s s' _ he h; cases h; exact he
    | cons e es ih =>
      intro s s' hi he h
      cases e with
      | start c => exact ih _ _ (start_inv hi c) (start_excl hi he c) h
      | tick k =>
        obtain ⟨s1, h1, h2⟩ := tick_inv hi k
        simp only [run, step, h1, res_bind_ok] at h
        exact ih _ _ h2 (tick_excl hi he h1) h
  have hi := reach_inv h
  have he := key es init s init_inv (by intro l v o x hl; simp [init] at hl) h
  have hm := List.mem_of_getElem? hj
  have hok := hi.jobs j hm
  unfold JobOk at hok
  rw [hpc] at hok
  have hpos := V_pos hok.2.2
  obtain ⟨x, hx, _⟩ := obj_ok hi o (by omega)
  obtain ⟨a, b⟩ := exclusive hi hj hok.1 hok.2.2 x hx (he j v o x hm hpc hx)
  exact ⟨hok.2.2, a, b⟩

/-- Non-vacuity: two threads copy the same reference and drop the copies, interleaved; the object survives with one
reference, then goes with the last. -/
example : run init ([.start .construct, .tick 0, .tick 0, .tick 0, .start (.copy 0), .start (.copy 0), .tick 0, .tick 1,
    .tick 0, .tick 1, .tick 1, .tick 0, .start (.destroy 1), .start (.destroy 2), .tick 1, .tick 0, .tick 0, .tick 0]) =
    .ok ⟨[⟨1, true⟩], [some (some 0), none, none], []⟩ := by decide

example : run init ([.start .construct, .tick 0, .tick 0, .tick 0, .start (.destroy 0), .tick 0, .tick 0, .tick 0]) =
    .ok ⟨[⟨0, false⟩], [none], []⟩ := by decide

/-- Non-vacuity of C51: a reachable state in which a call is about to write without copying; and when the object is
shared, Unshare makes a copy instead. -/
example : run init [.start .construct, .tick 0, .tick 0, .tick 0, .start (.unshare 0), .tick 0] =
    .ok ⟨[⟨1, true⟩], [some (some 0)], [⟨none, some 0, .write 0 0⟩]⟩ := by decide

example : run init [.start .construct, .tick 0, .tick 0, .tick 0, .start (.copy 0), .tick 0, .tick 0, .tick 0,
    .start (.unshare 0), .tick 0, .tick 0, .tick 0, .tick 0, .tick 0, .tick 0] =
    .ok ⟨[⟨1, true⟩, ⟨1, true⟩], [some (some 1), some (some 0)], []⟩ := by decide

end Strpp.RC
