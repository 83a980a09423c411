import Verif.Proof.RxTerm
/-! Matching of steady expressions never fails an assertion. -/
set_option linter.unusedSimpArgs false
set_option linter.unusedVariables false
namespace Strpp.Rx
open Spec

theorem nodup_length : ∀ {l K : List Nat}, l.Nodup → (∀ x ∈ l, x ∈ K) → l.length ≤ K.length := by
  intro l
  induction l with
  | nil => intro K _ _; simp
  | cons a l ih =>
    intro K hn hs
    rw [List.nodup_cons] at hn
    have ha := hs a (by simp)
    have := ih (K := K.erase a) hn.2 (fun x hx => by
      have hne : x ≠ a := by rintro rfl; exact hn.1 hx
      exact (List.mem_erase_of_ne hne).2 (hs x (List.mem_cons_of_mem _ hx)))
    rw [List.length_erase_of_mem ha] at this
    have : 0 < K.length := List.length_pos_of_mem ha
    rw [List.length_cons]; omega

/-- a station that leads to a place in `T` -/
def Src (P : Prog) (T : Nat → Prop) (c : Nat) : Prop := ∃ i, P.decode c = .ok i ∧ i.isStation = true ∧ ∃ n ∈ i.succs, T n

theorem src_of_not {P T c} (h : NotSrc P T c) : ¬ Src P T c := by
  rintro ⟨i, h1, h2, n, h3, h4⟩
  exact h i h1 h2 n h3 h4

/-- The code of an expression: its stations where threads wait `W`, and the other ends of its branches `K` -/
structure SteadyCode (P : Prog) (R T : Nat → Prop) (q : Nat) (W K : List Nat) : Prop where
  closed : ∀ s, R s → ∃ i, P.decode s = .ok i ∧ OkI P s i ∧ TameI P T q s i ∧ ∀ n ∈ i.succs, R n
  last : NotSrc P T q
  waits : ∀ s, R s → Station P s → s ∈ W
  kids : ∀ s a n, R s → P.decode s = .ok (.split a n) → (a ∈ K ∨ Station P a) ∧ (n ∈ K ∨ Station P n)

theorem SteadyCode.not_station {P R T q W K} (h : SteadyCode P R T q W K) {s} (hr : R s) (ht : T s) : ¬ Station P s := by
  rintro ⟨i, hi, hs⟩
  obtain ⟨i', h1, -, h3, -⟩ := h.closed s hr
  rw [hi] at h1; cases h1
  cases i <;> first | exact h3 ht | cases hs

theorem SteadyCode.not_start {P R T q W K st b} (h : SteadyCode P R T q W K) (hst : P.decode st = .ok (.capStart 0 b)) : ¬ R st := by
  intro hr
  obtain ⟨i, hi, -, h3, -⟩ := h.closed st hr
  rw [hst] at hi; cases hi
  exact h3

/-- A list of threads: those at the stations `D` were looked for, the others were added blindly, one for each of `G` -/
structure Held (P : Prog) (R T : Nat → Prop) (Ws : List Nat) (ns : List Thr) (G : List Nat) : Prop where
  looked : ∃ D : List Nat, D.Nodup ∧ (∀ d ∈ D, d ∈ ns.map Thr.station) ∧ ns.length = D.length + G.length
  nodup : G.Nodup
  sub : ∀ g ∈ G, g ∈ Ws
  mem : ∀ x ∈ ns, R x.station ∧ Station P x.station
  once : ∀ c, Src P T c → (ns.map Thr.station).count c ≤ 1

theorem Held.nil {P R T Ws} : Held P R T Ws [] [] :=
  ⟨⟨[], by simp, by simp, rfl⟩, by simp, by simp, by simp, by simp⟩

theorem Held.length {P R T q W K Ws ns G} (h : Held P R T Ws ns G) (hc : SteadyCode P R T q W K) : ns.length ≤ W.length + Ws.length := by
  obtain ⟨D, h1, h2, h3⟩ := h.looked
  have h4 := nodup_length h1 (K := W) (by
    intro s hs
    obtain ⟨x, hx, rfl⟩ := List.mem_map.1 (h2 s hs)
    exact hc.waits _ (h.mem x hx).1 (h.mem x hx).2)
  have h5 := nodup_length h.nodup h.sub
  omega

theorem Held.snoc {P R T Ws ns G} {th : Thr} (h : Held P R T Ws ns G) (hr : R th.station) (hs : Station P th.station)
    (hn : th.station ∉ ns.map Thr.station) : Held P R T Ws (ns ++ [th]) G := by
  obtain ⟨D, h1, h2, h3⟩ := h.looked
  refine ⟨⟨D ++ [th.station], ?_, ?_, ?_⟩, h.nodup, h.sub, ?_, ?_⟩
  · exact List.nodup_append.2 ⟨h1, by simp, by
      intro a ha b hb
      cases List.mem_singleton.1 hb
      rintro rfl
      exact hn (h2 _ ha)⟩
  · intro d hd
    rw [List.map_append, List.mem_append]
    rcases List.mem_append.1 hd with h | h
    · exact .inl (h2 d h)
    · cases List.mem_singleton.1 h; right; simp
  · simp only [List.length_append, List.length_singleton]; omega
  · intro x hx
    rcases List.mem_append.1 hx with hx | hx
    · exact h.mem x hx
    · cases List.mem_singleton.1 hx
      exact ⟨hr, hs⟩
  · intro c hc
    rw [List.map_append, List.count_append, List.map_cons, List.map_nil, List.count_singleton]
    have := h.once c hc
    by_cases he : th.station = c
    · subst he
      rw [List.count_eq_zero.2 hn]
      split <;> omega
    · rw [if_neg (by simpa using he)]; omega

theorem Held.blind {P R T Ws ns G} {th : Thr} {c : Nat} (h : Held P R T Ws ns G) (hr : R th.station) (hs : Station P th.station)
    (hn : NotSrc P T th.station) (hc : c ∈ Ws) (hg : c ∉ G) : Held P R T Ws (ns ++ [th]) (c :: G) := by
  obtain ⟨D, h1, h2, h3⟩ := h.looked
  refine ⟨⟨D, h1, ?_, ?_⟩, List.nodup_cons.2 ⟨hg, h.nodup⟩, ?_, ?_, ?_⟩
  · intro d hd
    rw [List.map_append, List.mem_append]
    exact .inl (h2 d hd)
  · simp only [List.length_append, List.length_cons, List.length_nil]; omega
  · intro g hg
    rcases List.mem_cons.1 hg with rfl | hg
    · exact hc
    · exact h.sub g hg
  · intro x hx
    rcases List.mem_append.1 hx with hx | hx
    · exact h.mem x hx
    · cases List.mem_singleton.1 hx
      exact ⟨hr, hs⟩
  · intro c' hc'
    rw [List.map_append, List.count_append, List.map_cons, List.map_nil, List.count_singleton]
    have := h.once c' hc'
    have he : th.station ≠ c' := by rintro rfl; exact src_of_not hn hc'
    rw [if_neg (by simpa using he)]; omega

/-- what `addthread` does: `tg` tells that it may add a thread blindly, for which there is room as that of `c` -/
theorem addthread_steady {P : Prog} {t : List UCS4} {junk : Nat} {R T : Nat → Prop} {q : Nat} {W Ws K : List Nat} (hP : SteadyCode P R T q W K)
    (hmax : W.length + Ws.length ≤ P.maxStation) {K' : List Nat} (hK : ∀ x ∈ K, x ∈ K') (hK' : K'.length ≤ 11) (off c : Nat) :
    ∀ (fuel : Nat) (entry tg : Bool) (th : Thr) (shunts : List Nat) (ns : List Thr) (G : List Nat), R th.station → Held P R T Ws ns G →
      (entry = true ∨ ¬ Station P th.station → shunts.Nodup ∧ ∀ x ∈ shunts, x ∈ K') →
      (entry = true → th.station ∈ K' ∨ Station P th.station) →
      (tg = true → c ∈ Ws ∧ c ∉ G ∧ (Station P th.station → NotSrc P T th.station)) →
      (tg = false → ¬ T th.station ∧ (entry = false → Station P th.station → th.station ∉ ns.map Thr.station)) → shunts.length ≤ 12 →
      need P entry shunts.length th.station ≤ fuel →
      ∃ out G', addthread P t junk fuel entry th off shunts 0 ns = .ok out ∧ Held P R T Ws out G' ∧ (G' = G ∨ (tg = true ∧ G' = c :: G)) := by
  intro fuel
  induction fuel with
  | zero => intro entry tg th shunts ns G _ _ _ _ _ _ _ h; unfold need at h; omega
  | succ fuel ih =>
    intro entry tg th shunts ns G hr hns hsh hen htg hex hshl hf
    have hrank := rank_le P th.station
    cases entry with
    | true =>
      obtain ⟨hnd, hsub⟩ := hsh (.inl rfl)
      have hl : shunts.length ≤ 11 := Nat.le_trans (nodup_length hnd hsub) hK'
      rw [addthread]
      split
      · exact ⟨ns, G, rfl, hns, .inl rfl⟩
      · rename_i hin
        rw [show decide (shunts.length < maxNesting) = true from decide_eq_true (by show _ < 12; omega), assert_true, res_bind_ok,
          isDuplicate_zero, res_bind_ok]
        split
        · exact ⟨ns, G, rfl, hns, .inl rfl⟩
        · rename_i hd
          refine ih false tg th _ ns G hr hns ?_ (fun h => by cases h) htg ?_ (by simp; omega) ?_
          · rintro (h | h)
            · cases h
            · have hk := (hen rfl).resolve_right h
              refine ⟨List.nodup_append.2 ⟨hnd, by simp, ?_⟩, ?_⟩
              · intro a ha b hb
                cases List.mem_singleton.1 hb
                rintro rfl
                exact hin (by simpa using ha)
              · intro x hx
                rcases List.mem_append.1 hx with hx | hx
                · exact hsub x hx
                · cases List.mem_singleton.1 hx; exact hk
          · intro hf
            refine ⟨(hex hf).1, fun _ _ hm => ?_⟩
            obtain ⟨x, hx, he⟩ := List.mem_map.1 hm
            exact hd (List.any_eq_true.2 ⟨x, hx, by simp [he]⟩)
          · unfold need at *
            simp only [List.length_append, List.length_cons, List.length_nil, Nat.zero_add, if_true, Bool.false_eq_true, if_false] at *
            have h1 : 12 - shunts.length = (12 - (shunts.length + 1)) + 1 := by omega
            rw [h1, Nat.add_mul] at hf
            omega
    | false =>
      rw [addthread]
      obtain ⟨i, hi, hok, hpl, hsu⟩ := hP.closed _ hr
      have hlt := decode_lt hi
      rw [hi, res_bind_ok]
      unfold need at hf
      simp only [Bool.false_eq_true, if_false] at hf
      have nostat : i.isStation = false → ¬ Station P th.station := by
        rintro h ⟨i', h1, h2⟩
        rw [hi] at h1; cases h1; rw [h] at h2; cases h2
      have wait : i.isStation = true → ∃ out G', (assert (decide (ns.length < P.maxStation)) >>= fun _ => (.ok (ns ++ [th]) : Res (List Thr))) = .ok out ∧
          Held P R T Ws out G' ∧ (G' = G ∨ (tg = true ∧ G' = c :: G)) := by
        intro hst
        have hS : Station P th.station := ⟨i, hi, hst⟩
        have hd : ∃ G', Held P R T Ws (ns ++ [th]) G' ∧ (G' = G ∨ (tg = true ∧ G' = c :: G)) := by
          cases tg with
          | true =>
            obtain ⟨h1, h2, h3⟩ := htg rfl
            exact ⟨_, hns.blind hr hS (h3 hS) h1 h2, .inr ⟨rfl, rfl⟩⟩
          | false => exact ⟨_, hns.snoc hr hS ((hex rfl).2 rfl hS), .inl rfl⟩
        obtain ⟨G', hd, hg⟩ := hd
        have hlen := hd.length hP
        rw [List.length_append, List.length_singleton] at hlen
        rw [show decide (ns.length < P.maxStation) = true from decide_eq_true (by omega), assert_true, res_bind_ok]
        exact ⟨_, G', rfl, hd, hg⟩
      -- going on blindly at a later station
      have fwd : ∀ s' res, th.station < s' → R s' → tg = true → (T s' ∨ s' = q ∨ NotSrc P T s') → i.isStation = false → (∀ a n, i ≠ .split a n) →
          (∀ a n, i = .jump a n → ¬ a ≤ th.station) →
          ∃ out G', addthread P t junk fuel false ⟨s', res⟩ off shunts 0 ns = .ok out ∧ Held P R T Ws out G' ∧ (G' = G ∨ (tg = true ∧ G' = c :: G)) := by
        intro s' res hgt hr' ht hto hns' h1 h2
        refine ih false tg ⟨s', res⟩ shunts ns G hr' hns (fun _ => hsh (.inr (nostat hns'))) (fun h => by cases h) (fun h => ?_) (fun h => ?_) hshl ?_
        · obtain ⟨a1, a2, -⟩ := htg h
          refine ⟨a1, a2, fun hS => ?_⟩
          rcases hto with h | rfl | h
          · exact (hP.not_station hr' h hS).elim
          · exact hP.last
          · exact h
        · rw [ht] at h; cases h
        · have hk := rank_lt hgt hlt
          have hrk : rank P th.station = P.nfa.length - th.station + 3 := by
            unfold rank
            rw [hi]
            split
            · rename_i heq; cases heq; exact (h1 _ _ rfl).elim
            · rename_i heq; cases heq; rw [if_neg (h2 _ _ rfl)]
            · rfl
          unfold need
          simp only [Bool.false_eq_true, if_false]
          omega
      have tagged : T th.station → tg = true := by
        intro h
        cases tg with
        | true => rfl
        | false => exact ((hex rfl).1 h).elim
      cases i with
      | bol n =>
        dsimp only
        split
        · exact fwd n _ hok (hsu n (by simp [Instr.succs])) (tagged hpl.1) hpl.2 rfl (by simp) (by simp)
        · exact ⟨ns, G, rfl, hns, .inl rfl⟩
      | eol n =>
        dsimp only
        split
        · exact fwd n _ hok (hsu n (by simp [Instr.succs])) (tagged hpl.1) hpl.2 rfl (by simp) (by simp)
        · exact ⟨ns, G, rfl, hns, .inl rfl⟩
      | jump a n =>
        dsimp only
        have hra := hsu a (by simp [Instr.succs])
        rcases Classical.em (∃ x y, P.decode a = .ok (.split x y)) with ⟨x, y, hxy⟩ | hnsp
        · have hna : ¬ Station P a := by
            rintro ⟨i', h1, h2⟩
            rw [hxy] at h1; cases h1; cases h2
          refine ih false tg ⟨a, th.res⟩ shunts ns G hra hns (fun _ => hsh (.inr (nostat rfl))) (fun h => by cases h)
            (fun h => ⟨(htg h).1, (htg h).2.1, fun hS => (hna hS).elim⟩)
            (fun h => ⟨fun hT => (hex h).1 (hpl.1 hT), fun _ hS => (hna hS).elim⟩) hshl ?_
          have h1 : 2 ≤ rank P th.station := by
            unfold rank; rw [hi]; dsimp only; split <;> omega
          have h2 : rank P a = 1 := rank_split hxy
          unfold need
          simp only [Bool.false_eq_true, if_false]
          omega
        · obtain ⟨h1, h2⟩ := hpl.2.resolve_left hnsp
          have hgt : th.station < a := hok.resolve_right hnsp
          exact fwd a _ hgt hra (tagged h1) h2 rfl (by simp) (by rintro a' n' h; cases h; omega)
      | split a n =>
        dsimp only
        obtain ⟨k1, k2⟩ := hP.kids _ a n hr hi
        have hs := hsh (.inr (nostat rfl))
        have hra := hsu a (by simp [Instr.succs])
        have hrn := hsu n (by simp [Instr.succs])
        have kid : ∀ (k : Nat) (res : RVal) (ns : List Thr) (G : List Nat), R k → Held P R T Ws ns G → (k ∈ K ∨ Station P k) → (T k → tg = true ∧ c ∈ Ws ∧ c ∉ G) →
            ∃ out G', addthread P t junk fuel true ⟨k, res⟩ off shunts 0 ns = .ok out ∧ Held P R T Ws out G' ∧ (G' = G ∨ (T k ∧ G' = c :: G)) := by
          intro k res ns G hrk hns hk htk
          rcases Classical.em (T k) with hT | hT
          · obtain ⟨-, h2, h3⟩ := htk hT
            obtain ⟨out, G', g1, g2, g3⟩ := ih true true ⟨k, res⟩ shunts ns G hrk hns (fun _ => hs) (fun _ => hk.imp_left (hK k))
              (fun _ => ⟨h2, h3, fun hS => (hP.not_station hrk hT hS).elim⟩) (fun h => by cases h) hshl (by unfold need; simp only [if_true]; omega)
            exact ⟨out, G', g1, g2, g3.imp id fun h => ⟨hT, h.2⟩⟩
          · obtain ⟨out, G', g1, g2, g3⟩ := ih true false ⟨k, res⟩ shunts ns G hrk hns (fun _ => hs) (fun _ => hk.imp_left (hK k))
              (fun h => by cases h) (fun _ => ⟨hT, fun h => by cases h⟩) hshl (by unfold need; simp only [if_true]; omega)
            exact ⟨out, G', g1, g2, .inl (g3.resolve_right fun h => by cases h.1)⟩
        have up : T a ∨ T n → tg = true ∧ c ∈ Ws ∧ c ∉ G := by
          intro h
          have ht := tagged (hpl.2 h)
          exact ⟨ht, (htg ht).1, (htg ht).2.1⟩
        obtain ⟨o1, G1, h1, h2, h3⟩ := kid a th.res ns G hra hns k1 (fun h => up (.inl h))
        rw [h1, res_bind_ok]
        obtain ⟨o2, G2, h4, h5, h6⟩ := kid n th.res o1 G1 hrn h2 k2 (fun h => by
          obtain ⟨u1, u2, u3⟩ := up (.inr h)
          refine ⟨u1, u2, ?_⟩
          rcases h3 with rfl | h3
          · exact u3
          · exact (hpl.1 ⟨h3.1, h⟩).elim)
        refine ⟨o2, G2, h4, h5, ?_⟩
        rcases h3 with rfl | ⟨ha, rfl⟩
        · exact h6.imp id fun h => ⟨(up (.inr h.1)).1, h.2⟩
        · rcases h6 with rfl | ⟨hb, rfl⟩
          · exact .inr ⟨(up (.inl ha)).1, rfl⟩
          · exact (hpl.1 ⟨ha, hb⟩).elim
      | capStart k n => exact hpl.elim
      | capEnd k n => exact hok.elim
      | char c n => exact wait rfl
      | prop x n => exact wait rfl
      | cls b x n => exact wait rfl
      | any n => exact wait rfl
      | accept n => exact wait rfl
      | start | zero | negLook | count | null | token => exact hok.elim

/-- The code with its start: `x0` is where the expression is entered, `b0` where its code begins, possibly after a `^` at `b` -/
structure SteadyShape (P : Prog) (R T : Nat → Prop) (q : Nat) (W K Ws : List Nat) (N : Prop) (S a j x0 b b0 : Nat) : Prop where
  code : SteadyCode P R T q W K
  few : K.length ≤ 9
  src : ∀ c, R c → Src P T c → c ∈ Ws
  first : (∃ u, T u) → x0 ∈ Ws
  room : W.length + Ws.length + 1 ≤ P.maxStation
  two : 2 ≤ P.maxStation
  more : N → W.length + Ws.length + 2 ≤ P.maxStation
  nonempty : ∀ s, R s → Station P s → (∀ n, P.decode s ≠ .ok (.accept n)) → N
  hS : P.decode S = .ok (.split x0 a)
  ha : P.decode a = .ok (.any j)
  hj : ∃ n, P.decode j = .ok (.jump S n)
  hst : P.decode x0 = .ok (.capStart 0 b)
  hb : b = b0 ∨ P.decode b = .ok (.bol b0)
  hb0 : R b0
  na : ¬ R a
  nj : ¬ R j

theorem SteadyShape.ne {P R T q W K Ws N S a j st b b0} (hs : SteadyShape P R T q W K Ws N S a j st b b0) : st ≠ S ∧ a ≠ S ∧ st ≠ j ∧ a ≠ j := by
  obtain ⟨n, hj⟩ := hs.hj
  refine ⟨?_, ?_, ?_, ?_⟩ <;> rintro rfl
  · have h := hs.hst; rw [hs.hS] at h; cases h
  · have h := hs.ha; rw [hs.hS] at h; cases h
  · have h := hs.hst; rw [hj] at h; cases h
  · have h := hs.ha; rw [hj] at h; cases h

/-- The threads of a position -/
structure Ready (P : Prog) (R T : Nat → Prop) (b0 : Nat) (L : List Thr) : Prop where
  mem : ∀ x ∈ L, R x.station ∧ Station P x.station
  once : ∀ c, Src P T c → (L.map Thr.station).count c ≤ if c = b0 then 2 else 1

theorem Held.ready {P R T Ws ns G b0} (h : Held P R T Ws ns G) : Ready P R T b0 ns :=
  ⟨h.mem, fun c hc => by have := h.once c hc; split <;> omega⟩

/-- While the threads `L` are advanced, there is room for what they still may add blindly -/
structure Going (P : Prog) (R T : Nat → Prop) (x0 b0 : Nat) (L : List Thr) (G : List Nat) : Prop where
  mem : ∀ x ∈ L, R x.station ∧ Station P x.station
  once : ∀ c, Src P T c → c ≠ b0 → (L.map Thr.station).count c + G.count c ≤ 1
  twice : Src P T b0 → (L.map Thr.station).count b0 + G.count b0 + G.count x0 ≤ 2
  start : x0 ∈ G → Src P T b0

theorem Ready.going {P R T x0 b0 L} (h : Ready P R T b0 L) : Going P R T x0 b0 L [] :=
  ⟨h.mem, fun c hc hn => by have := h.once c hc; rw [if_neg hn] at this; simpa using this,
    fun hs => by have := h.once b0 hs; rw [if_pos rfl] at this; simpa using this, by simp⟩

theorem Going.tail {P R T x0 b0 th L G} (h : Going P R T x0 b0 (th :: L) G) : Going P R T x0 b0 L G := by
  refine ⟨fun x hx => h.mem x (List.mem_cons_of_mem _ hx), fun c hc hn => ?_, fun hs => ?_, h.start⟩
  · have := h.once c hc hn
    rw [List.map_cons, List.count_cons] at this; omega
  · have := h.twice hs
    rw [List.map_cons, List.count_cons] at this; omega

/-- the place taken by what a thread adds blindly -/
theorem Going.place {P R T x0 b0 th L G} (h : Going P R T x0 b0 (th :: L) G) (hs : Src P T th.station) (hx : ¬ R x0)
    (hsx : ¬ Src P T x0) (hb : R b0) :
    ∃ c, (c = th.station ∨ (c = x0 ∧ th.station = b0)) ∧ c ∉ G ∧ Going P R T x0 b0 L (c :: G) := by
  have hne : x0 ≠ b0 := by rintro rfl; exact hx hb
  have hr := (h.mem th (by simp)).1
  by_cases hb0 : th.station = b0
  · have h2 := h.twice (hb0 ▸ hs)
    rw [List.map_cons, List.count_cons, if_pos (by simp [hb0])] at h2
    by_cases hg : b0 ∈ G
    · have h3 : 0 < G.count b0 := List.count_pos_iff.2 hg
      have h4 : x0 ∉ G := fun h => by have := List.count_pos_iff.2 h; omega
      refine ⟨x0, .inr ⟨rfl, hb0⟩, h4, h.tail.mem, fun c hc hn => ?_, fun hs' => ?_, fun _ => hb0 ▸ hs⟩
      · have h5 := h.once c hc hn
        rw [List.map_cons, List.count_cons] at h5
        have hcx : x0 ≠ c := by
          rintro rfl
          exact hsx hc
        rw [List.count_cons_of_ne hcx]; omega
      · rw [List.count_cons_self, List.count_cons_of_ne hne]; omega
    · refine ⟨b0, .inl hb0.symm, hg, h.tail.mem, fun c hc hn => ?_, fun hs' => ?_, fun hm => ?_⟩
      · have h5 := h.tail.once c hc hn
        rw [List.count_cons_of_ne (Ne.symm hn)]; omega
      · rw [List.count_cons_self, List.count_cons_of_ne (Ne.symm hne)]; omega
      · exact hb0 ▸ hs
  · have h2 := h.once _ hs hb0
    rw [List.map_cons, List.count_cons, if_pos (by simp)] at h2
    have hg : th.station ∉ G := fun h => by have := List.count_pos_iff.2 h; omega
    have hcx : th.station ≠ x0 := by intro h; exact hx (h ▸ hr)
    refine ⟨th.station, .inl rfl, hg, h.tail.mem, fun c hc hn => ?_, fun hs' => ?_, fun hm => ?_⟩
    · by_cases he : th.station = c
      · subst he; rw [List.count_cons_self]; omega
      · have h5 := h.tail.once c hc hn
        rw [List.count_cons_of_ne he]; exact h5
    · have h5 := h.tail.twice hs'
      rw [List.count_cons_of_ne hb0, List.count_cons_of_ne hcx]; exact h5
    · exact h.start ((List.mem_cons.1 hm).resolve_left (Ne.symm hcx))

theorem SteadyShape.start_out {P R T q W K Ws N S a j st b b0} (h : SteadyShape P R T q W K Ws N S a j st b b0) : ¬ R st ∧ ¬ Src P T st := by
  refine ⟨h.code.not_start h.hst, ?_⟩
  rintro ⟨i, hi, hs, -⟩
  rw [h.hst] at hi; cases hi; cases hs

/-- A cycle over the threads of a position -/
theorem cycle_steady {P : Prog} {t : List UCS4} {junk fuel : Nat} {R T : Nat → Prop} {q : Nat} {W K Ws : List Nat} {N : Prop}
    {S a j x0 b b0 : Nat} (hP : SteadyShape P R T q W K Ws N S a j x0 b b0) (off : Nat) (hf : 14 * (P.nfa.length + 5) ≤ fuel) :
    ∀ (L ns : List Thr) (G : List Nat) (r : RVal), Going P R T x0 b0 L G → Held P R T Ws ns G → (ns ≠ [] → N) →
      ∃ o G', cycle P t (fun th off ns => addthread P t junk fuel true th off [] 0 ns) off L ns r = .ok o ∧ Held P R T Ws o.1 G' ∧
        (o.1 ≠ [] → N) ∧ (x0 ∈ G' → Src P T b0) := by
  intro L
  induction L with
  | nil => intro ns G r hg hns hc; exact ⟨_, G, rfl, hns, hc, hg.start⟩
  | cons th L ih =>
    intro ns G r hL hns hcn
    rw [cycle]
    obtain ⟨hr, i0, hi0, hst⟩ := hL.mem th (by simp)
    obtain ⟨i, hi, hok, -, hsu⟩ := hP.code.closed _ hr
    rw [hi0] at hi; cases hi
    obtain ⟨st, hc⟩ := consume_total hok hst (chAt t off)
    have hL' := hL.tail
    unfold stepThread
    rw [hi0, res_bind_ok, hc, res_bind_ok]
    cases st with
    | stops => exact ih ns G r hL' hns hcn
    | accepts =>
      dsimp only
      split
      · have hcap : th.res.captureSet 1 off = .ok { th.res with cap1 := some off } := by unfold RVal.captureSet; simp
        rw [hcap]
        exact ih ns G _ hL' hns hcn
      · exact ih ns G r hL' hns hcn
    | goesOn n =>
      dsimp only
      have hsc := consume_succ hc
      have hn := hsu n hsc
      have h1 : N := by
        refine hP.nonempty _ hr ⟨i0, hi0, hst⟩ fun k hk => ?_
        rw [hi0] at hk; cases hk; cases hc
      have hmax : W.length + Ws.length ≤ P.maxStation := by have := hP.room; omega
      have hfew : (n :: K).length ≤ 11 := by have := hP.few; rw [List.length_cons]; omega
      have hfl : need P true ([] : List Nat).length n ≤ fuel := by unfold need; simp only [List.length_nil, if_true]; omega
      rcases Classical.em (T n) with hT | hT
      · have hsr : Src P T th.station := ⟨i0, hi0, hst, n, hsc, hT⟩
        obtain ⟨c, hcc, hcg, hgo⟩ := hL.place hsr hP.start_out.1 hP.start_out.2 hP.hb0
        have hcw : c ∈ Ws := by
          rcases hcc with rfl | ⟨rfl, -⟩
          · exact hP.src _ hr hsr
          · exact hP.first ⟨n, hT⟩
        obtain ⟨out, G', h, h2, h3⟩ := addthread_steady (t := t) (junk := junk) hP.code hmax (K' := n :: K) (fun x hx => List.mem_cons_of_mem _ hx)
          hfew (off + 1) c fuel true true ⟨n, th.res⟩ [] ns G hn hns (fun _ => by simp) (fun _ => .inl (by simp))
          (fun _ => ⟨hcw, hcg, fun hS => (hP.code.not_station hn hT hS).elim⟩) (fun h => by cases h) (by simp) hfl
        rw [h]
        rcases h3 with rfl | ⟨-, rfl⟩
        · exact ih out _ r hL' h2 (fun _ => h1)
        · exact ih out _ r hgo h2 (fun _ => h1)
      · obtain ⟨out, G', h, h2, h3⟩ := addthread_steady (t := t) (junk := junk) hP.code hmax (K' := n :: K) (fun x hx => List.mem_cons_of_mem _ hx)
          hfew (off + 1) 0 fuel true false ⟨n, th.res⟩ [] ns G hn hns (fun _ => by simp) (fun _ => .inl (by simp))
          (fun h => by cases h) (fun _ => ⟨hT, fun h => by cases h⟩) (by simp) hfl
        rw [h]
        obtain rfl := h3.resolve_right fun h => by cases h.1
        exact ih out _ r hL' h2 (fun _ => h1)

theorem matchLoop_steady {P : Prog} {t : List UCS4} {junk fuel : Nat} {R T : Nat → Prop} {q : Nat} {W K Ws : List Nat} {N : Prop}
    {S a j x0 b b0 : Nat} (hP : SteadyShape P R T q W K Ws N S a j x0 b b0) (hf : 14 * (P.nfa.length + 5) ≤ fuel) :
    ∀ (n off : Nat) (L : List Thr) (r : RVal), Ready P R T b0 L →
      ∃ o, matchLoop P t (fun th off ns => addthread P t junk fuel true th off [] 0 ns) n off L r = .ok o := by
  intro n
  induction n with
  | zero => intro off L r _; exact ⟨_, rfl⟩
  | succ n ih =>
    intro off L r hL
    rw [matchLoop]
    split
    · exact ⟨_, rfl⟩
    · obtain ⟨o, G', h, h2, -⟩ := cycle_steady (t := t) (junk := junk) hP off hf L [] [] r hL.going Held.nil (by simp)
      rw [h]; exact ih _ _ _ h2.ready

/-- Adding a thread where the code begins -/
theorem add_code_steady {P : Prog} {t : List UCS4} {junk : Nat} {R T : Nat → Prop} {q : Nat} {W K Ws : List Nat} {N : Prop}
    {S a j x0 b b0 : Nat} (hP : SteadyShape P R T q W K Ws N S a j x0 b b0) (res : RVal) (off : Nat) (sh : List Nat) (ns : List Thr) (G : List Nat)
    (hsh : sh.Nodup ∧ 1 ≤ sh.length ∧ sh.length ≤ 2) (hns : Held P R T Ws ns G) (hN : ns ≠ [] → N) (hx : x0 ∈ G → Src P T b0) (fuel : Nat)
    (hf : 13 * (P.nfa.length + 5) ≤ fuel + 3) :
    ∃ out, addthread P t junk fuel false ⟨b0, res⟩ off sh 0 ns = .ok out ∧ Ready P R T b0 out ∧ out.length < P.maxStation := by
  have hlen := hns.length hP.code
  have hroom := hP.room
  have htwo := hP.two
  have hfew := hP.few
  have hb := hP.hb0
  by_cases hS : Station P b0
  · obtain ⟨i, hi, hs⟩ := hS
    obtain ⟨fuel, rfl⟩ : ∃ k, fuel = k + 1 := ⟨fuel - 1, by omega⟩
    have key : addthread P t junk (fuel + 1) false ⟨b0, res⟩ off sh 0 ns = .ok (ns ++ [⟨b0, res⟩]) := by
      rw [addthread, hi, res_bind_ok]
      have : (assert (decide (ns.length < P.maxStation)) >>= fun _ => (.ok (ns ++ [⟨b0, res⟩]) : Res (List Thr))) = .ok (ns ++ [⟨b0, res⟩]) := by
        rw [decide_eq_true (by omega), assert_true, res_bind_ok]
      cases i <;> first | exact this | cases hs
    rw [key]
    refine ⟨_, rfl, ⟨?_, ?_⟩, ?_⟩
    · intro x hx
      rcases List.mem_append.1 hx with hx | hx
      · exact hns.mem x hx
      · cases List.mem_singleton.1 hx
        exact ⟨hb, i, hi, hs⟩
    · intro c hc
      have := hns.once c hc
      rw [List.map_append, List.count_append, List.map_cons, List.map_nil, List.count_singleton]
      by_cases he : c = b0
      · subst he; rw [if_pos (by simp), if_pos rfl]; omega
      · rw [if_neg (by simpa using Ne.symm he), if_neg he]; omega
    · rw [List.length_append, List.length_singleton]
      by_cases h0 : ns = []
      · subst h0; simp only [List.length_nil]; omega
      · have := hP.more (hN h0); omega
  · have go : ∀ (tg : Bool), (tg = true → x0 ∈ Ws ∧ x0 ∉ G) → (tg = false → ¬ T b0) →
        ∃ out G', addthread P t junk fuel false ⟨b0, res⟩ off sh 0 ns = .ok out ∧ Held P R T Ws out G' := by
      intro tg h1 h2
      obtain ⟨out, G', g1, g2, -⟩ := addthread_steady (t := t) (junk := junk) hP.code (by omega) (K' := sh ++ K) (fun x hx => List.mem_append_right _ hx)
        (by simp only [List.length_append]; omega) off x0 fuel false tg ⟨b0, res⟩ sh ns G hb hns
        (fun _ => ⟨hsh.1, fun x hx => List.mem_append_left _ hx⟩) (fun h => by cases h)
        (fun h => ⟨(h1 h).1, (h1 h).2, fun h => (hS h).elim⟩) (fun h => ⟨h2 h, fun _ h => (hS h).elim⟩) (by omega) (by
          have := rank_le P b0
          have h12 : (12 - sh.length) * (P.nfa.length + 5) ≤ 11 * (P.nfa.length + 5) := Nat.mul_le_mul_right _ (by omega)
          unfold need
          simp only [Bool.false_eq_true, if_false]
          omega)
      exact ⟨out, G', g1, g2⟩
    have fin : ∃ out G', addthread P t junk fuel false ⟨b0, res⟩ off sh 0 ns = .ok out ∧ Held P R T Ws out G' := by
      rcases Classical.em (T b0) with hT | hT
      · refine go true (fun _ => ⟨hP.first ⟨_, hT⟩, fun hm => ?_⟩) (fun h => by cases h)
        obtain ⟨i, h1, h2, -⟩ := hx hm
        exact hS ⟨i, h1, h2⟩
      · exact go false (fun h => by cases h) (fun _ => hT)
    obtain ⟨out, G', g1, g2⟩ := fin
    refine ⟨out, g1, g2.ready, ?_⟩
    have := g2.length hP.code
    omega

/-- Adding a thread at the start of the expression -/
theorem add_start_steady {P : Prog} {t : List UCS4} {junk : Nat} {R T : Nat → Prop} {q : Nat} {W K Ws : List Nat} {N : Prop}
    {S a j st b b0 : Nat} (hP : SteadyShape P R T q W K Ws N S a j st b b0) (res : RVal) (off : Nat) (pre : List Nat) (ns : List Thr) (G : List Nat)
    (hpre : pre = [] ∨ ∃ y, pre = [y] ∧ y ≠ st) (hns : Held P R T Ws ns G) (hN : ns ≠ [] → N) (hx : st ∈ G → Src P T b0) (fuel : Nat)
    (hf : 13 * (P.nfa.length + 5) ≤ fuel) :
    ∃ out, addthread P t junk fuel true ⟨st, res⟩ off pre 0 ns = .ok out ∧ Ready P R T b0 out ∧ out.length < P.maxStation := by
  obtain ⟨fuel, rfl⟩ : ∃ k, fuel = k + 3 := ⟨fuel - 3, by omega⟩
  have hpl : pre.length ≤ 1 := by rcases hpre with rfl | ⟨j, rfl, -⟩ <;> simp
  have hnp : st ∉ pre := by
    rcases hpre with rfl | ⟨j, rfl, h⟩
    · simp
    · simp; exact fun h' => h h'.symm
  rw [addthread, if_neg (by simpa using hnp), show decide (pre.length < maxNesting) = true from decide_eq_true (by show _ < 12; omega),
    assert_true, res_bind_ok, isDuplicate_zero, not_dup (by
      intro x hx he
      have he : x.station = st := he
      exact hP.start_out.1 (he ▸ (hns.mem x hx).1)), res_bind_ok]
  simp only [Bool.false_eq_true, if_false]
  rw [addthread, hP.hst, res_bind_ok]
  dsimp only
  have hc : res.captureSet (0 * 2) off = .ok { res with cap0 := off } := by
    show res.captureSet 0 off = _
    unfold RVal.captureSet
    simp
  rw [hc, res_bind_ok]
  have hnd : (pre ++ [st]).Nodup ∧ 1 ≤ (pre ++ [st]).length ∧ (pre ++ [st]).length ≤ 2 := by
    refine ⟨?_, by simp, by simp only [List.length_append, List.length_singleton]; omega⟩
    rcases hpre with rfl | ⟨j, rfl, h⟩
    · simp
    · simpa using h
  have hlen := hns.length hP.code
  have hroom := hP.room
  rcases hP.hb with rfl | hb
  · exact add_code_steady hP _ off _ ns G hnd hns hN hx (fuel + 1) (by omega)
  · rw [addthread, hb, res_bind_ok]
    dsimp only
    split
    · exact add_code_steady hP _ off _ ns G hnd hns hN hx fuel (by omega)
    · exact ⟨ns, rfl, hns.ready, by omega⟩

/-- The threads of a search, after the `Split` of the search loop -/
theorem add_split_steady {P : Prog} {t : List UCS4} {junk : Nat} {R T : Nat → Prop} {q : Nat} {W K Ws : List Nat} {N : Prop}
    {S a j st b b0 : Nat} (hP : SteadyShape P R T q W K Ws N S a j st b b0) (res : RVal) (off x : Nat) (ns : List Thr) (G : List Nat)
    (hx : x ≠ st ∧ x ≠ a) (hns : Held P R T Ws ns G) (hN : ns ≠ [] → N) (hg : st ∈ G → Src P T b0) (fuel : Nat)
    (hf : 13 * (P.nfa.length + 5) + 1 ≤ fuel) :
    ∃ out, addthread P t junk fuel false ⟨S, res⟩ off [x] 0 ns = .ok (out ++ [⟨a, res⟩]) ∧ Ready P R T b0 out := by
  obtain ⟨fuel, rfl⟩ : ∃ k, fuel = k + 1 := ⟨fuel - 1, by omega⟩
  rw [addthread, hP.hS, res_bind_ok]
  dsimp only
  obtain ⟨out, h1, h2, h3⟩ := add_start_steady (t := t) (junk := junk) hP res off [x] ns G (.inr ⟨x, rfl, hx.1⟩) hns hN hg fuel (by omega)
  rw [h1, res_bind_ok]
  refine ⟨out, ?_, h2⟩
  obtain ⟨fuel, rfl⟩ : ∃ k, fuel = k + 2 := ⟨fuel - 2, by omega⟩
  rw [addthread, if_neg (by simpa using fun h => hx.2 h.symm), show decide ([x].length < maxNesting) = true from rfl, assert_true, res_bind_ok,
    isDuplicate_zero, not_dup (by
      intro y hy he
      have he : y.station = a := he
      exact hP.na (he ▸ (h2.mem y hy).1)), res_bind_ok]
  simp only [Bool.false_eq_true, if_false]
  rw [addthread, hP.ha, res_bind_ok]
  dsimp only
  rw [decide_eq_true h3, assert_true, res_bind_ok]

theorem searchLoop_steady {P : Prog} {t : List UCS4} {junk fuel : Nat} {R T : Nat → Prop} {q : Nat} {W K Ws : List Nat} {N : Prop}
    {S a j st b b0 : Nat} (hP : SteadyShape P R T q W K Ws N S a j st b b0) (hf : 14 * (P.nfa.length + 5) ≤ fuel) :
    ∀ (n off : Nat) (L : List Thr) (res r : RVal), Ready P R T b0 L →
      ∃ o, matchLoop P t (fun th off ns => addthread P t junk fuel true th off [] 0 ns) n off (L ++ [⟨a, res⟩]) r = .ok o := by
  intro n
  induction n with
  | zero => intro off L res r _; exact ⟨_, rfl⟩
  | succ n ih =>
    intro off L res r hL
    rw [matchLoop, if_neg (by simp), cycle_append]
    obtain ⟨o, G', h, h2, h3, h4⟩ := cycle_steady (t := t) (junk := junk) hP off hf L [] [] r hL.going Held.nil (by simp)
    rw [h, res_bind_ok, cycle]
    unfold stepThread
    rw [hP.ha, res_bind_ok]
    by_cases h0 : chAt t off = 0#32
    · have hcon : consume (.any j) (chAt t off) = .ok .stops := by simp [consume, h0]
      rw [hcon, res_bind_ok]
      exact matchLoop_steady hP hf n (off + 1) o.1 o.2 h2.ready
    · have hcon : consume (.any j) (chAt t off) = .ok (.goesOn j) := by simp [consume, h0]
      rw [hcon, res_bind_ok]
      obtain ⟨nj, hj⟩ := hP.hj
      have hne := hP.ne
      dsimp only
      have hadd : ∃ out, addthread P t junk fuel true ⟨j, res⟩ (off + 1) [] 0 o.1 = .ok (out ++ [⟨a, res⟩]) ∧ Ready P R T b0 out := by
        obtain ⟨f, rfl⟩ : ∃ k, fuel = k + 2 := ⟨fuel - 2, by omega⟩
        rw [addthread, if_neg (by simp), show decide (([] : List Nat).length < maxNesting) = true from rfl, assert_true, res_bind_ok,
          isDuplicate_zero, not_dup (by
            intro y hy he
            have he : y.station = j := he
            exact hP.nj (he ▸ (h2.mem y hy).1)), res_bind_ok]
        simp only [Bool.false_eq_true, if_false]
        rw [addthread, hj, res_bind_ok]
        dsimp only
        exact add_split_steady hP res (off + 1) j o.1 G' ⟨hne.2.2.1.symm, hne.2.2.2.symm⟩ h2 h3 h4 f (by omega)
      obtain ⟨out, g1, g2⟩ := hadd
      rw [g1, res_bind_ok]
      exact ih (off + 1) out res o.2 g2

/-- The code of an expression, which begins at `b0` and is entered at `b` -/
theorem steady_shape {P : Prog} {r : Re} {S a j st b b0 q n : Nat} {L : List (Nat × Instr)} {K : List Nat} (hF : Frame' P b0 q r L K)
    (ht : r.tame false = true) (hbr : r.branches ≤ 9) (hacc : P.decode q = .ok (.accept (q + 1)))
    (hS : P.decode S = .ok (.split st a)) (ha : P.decode a = .ok (.any j)) (hj : P.decode j = .ok (.jump S n))
    (hst : P.decode st = .ok (.capStart 0 b)) (hb : b = b0 ∨ P.decode b = .ok (.bol b0)) (hqa : q < a) (hqj : q < j)
    (hmax : 2 * (r.chars + (if r.plain then 0 else 1) + 1) ≤ P.maxStation) :
    ∃ R T W K' Ws N, SteadyShape P R T q W K' Ws N S a j st b b0 := by
  obtain ⟨T, hT⟩ := hF.tame false ht
  have hdec : ∀ s ∈ L.map Prod.fst, ∃ x ∈ L, x.1 = s ∧ P.decode s = .ok x.2 ∧ s < q ∧ OkI P s x.2 ∧ ∀ n ∈ x.2.succs, n ∈ L.map Prod.fst ∨ n = q := by
    intro s hs
    obtain ⟨x, hx, rfl⟩ := List.mem_map.1 hs
    obtain ⟨-, h2, h3, h4, h5⟩ := hF.mem x hx
    exact ⟨x, hx, rfl, h3, h2, h4, h5⟩
  have hcount : ((L.filter (fun x => x.2.isStation)).map Prod.fst).length = r.chars := by
    rw [List.length_map, ← List.countP_eq_length_filter, hF.count]
  have hstat : ∀ s ∈ L.map Prod.fst, Station P s → s ∈ (L.filter (fun x => x.2.isStation)).map Prod.fst := by
    rintro s hs ⟨i, hi, hst⟩
    obtain ⟨x, hx, rfl, h3, -⟩ := hdec s hs
    rw [hi] at h3; cases h3
    exact List.mem_map.2 ⟨x, List.mem_filter.2 ⟨hx, hst⟩, rfl⟩
  have hq : ∀ T, NotSrc P T q := by
    intro T i hi _ n hn
    rw [hacc] at hi; cases hi; cases hn
  have hplain : r.plain = true → ∀ u, ¬ T u := fun hp => hT.plain hp rfl
  refine ⟨fun s => s ∈ L.map Prod.fst ∨ s = q, T, (L.filter (fun x => x.2.isStation)).map Prod.fst ++ [q], K,
    if r.plain then [] else st :: (L.filter (fun x => x.2.isStation)).map Prod.fst, 1 ≤ r.chars,
    ⟨?_, hq T, ?_, ?_⟩, by rw [hF.branches]; exact hbr, ?_, ?_, ?_, ?_, ?_, ?_, hS, ha, ⟨n, hj⟩, hst, hb, hF.start, ?_, ?_⟩
  · rintro s (h | rfl)
    · obtain ⟨x, hx, rfl, h3, -, h4, h5⟩ := hdec s h
      exact ⟨x.2, h3, h4, hT.instr x hx, h5⟩
    · refine ⟨_, hacc, trivial, ?_, by simp [Instr.succs]⟩
      intro h
      cases hT.leave.1 h
  · rintro s (h | rfl) hs
    · exact List.mem_append_left _ (hstat s h hs)
    · simp
  · rintro s a n (h | rfl) hi
    · obtain ⟨x, hx, rfl, h3, -⟩ := hdec s h
      rw [hi] at h3
      exact hF.kids x hx a n (Except.ok.inj h3).symm
    · rw [hacc] at hi; cases hi
  · rintro c (h | rfl) ⟨i, hi, hs, n, hn, hTn⟩
    · rw [if_neg (fun hp => hplain hp n hTn)]
      exact List.mem_cons_of_mem _ (hstat c h ⟨i, hi, hs⟩)
    · exact (hq T i hi hs n hn hTn).elim
  · rintro ⟨u, hu⟩
    rw [if_neg (fun hp => hplain hp u hu)]
    simp
  · rw [List.length_append, hcount]
    by_cases hp : r.plain = true
    · rw [if_pos hp] at *; simp only [List.length_nil, List.length_singleton]; omega
    · rw [if_neg hp] at *; simp only [List.length_cons, List.length_nil, hcount]; omega
  · omega
  · intro hN
    rw [List.length_append, hcount]
    by_cases hp : r.plain = true
    · rw [if_pos hp] at *; simp only [List.length_nil, List.length_singleton]; omega
    · rw [if_neg hp] at *; simp only [List.length_cons, List.length_nil, hcount]; omega
  · rintro s (h | rfl) hs hna
    · rw [← hcount]; exact List.length_pos_of_mem (hstat s h hs)
    · exact (hna _ hacc).elim
  · rintro (h | h)
    · obtain ⟨x, hx, rfl, -, h4, -⟩ := hdec _ h; omega
    · omega
  · rintro (h | h)
    · obtain ⟨x, hx, rfl, -, h4, -⟩ := hdec _ h; omega
    · omega

theorem steady_cases {r : Re} (h : r.steady = true) :
    (∃ r', r = .seq .bol r' ∧ r'.tame false = true ∧ r'.branches ≤ 9) ∨ (r.tame false = true ∧ r.branches ≤ 9) := by
  unfold Re.steady at h
  split at h
  · rename_i r'
    simp only [Bool.and_eq_true, decide_eq_true_eq] at h
    exact .inl ⟨r', rfl, h⟩
  · simp only [Bool.and_eq_true, decide_eq_true_eq] at h
    exact .inr h

theorem tame_uncounted (r : Re) : ∀ e, r.tame e = true → r.counted = false := by
  induction r with
  | seq a b iha ihb =>
    intro e h
    simp only [Re.tame, Bool.and_eq_true] at h
    simp only [Re.counted, iha _ h.1.2, ihb _ h.1.1, Bool.or_self]
  | alt a b iha ihb =>
    intro e h
    simp only [Re.tame, Bool.and_eq_true] at h
    simp only [Re.counted, iha _ h.1.1, ihb _ h.1.2, Bool.or_self]
  | star a ih | plus a ih | opt a ih =>
    intro e h
    simp only [Re.tame, Bool.and_eq_true] at h
    exact ih _ h.1
  | rep w mn mx a ih => intro e h; cases h
  | grp nc a ih => intro e h; exact ih _ h
  | _ => intros; rfl

theorem steady_uncounted {r : Re} (h : r.steady = true) : r.counted = false := by
  rcases steady_cases h with ⟨r', rfl, h1, h2⟩ | ⟨h1, h2⟩
  · simp only [Re.counted, tame_uncounted _ _ h1, Bool.or_self]
  · exact tame_uncounted _ _ h1

theorem Compiled.steadyShape {r : Re} {P : Prog} (h : Compiled r P) (hs : r.steady = true) :
    ∃ R T q W K Ws N a j b b0, SteadyShape P R T q W K Ws N P.searchStation a j P.startStation b b0 := by
  obtain ⟨bs, a, j, n, hc, hat, hS, d1, d2, d3, ga, gj⟩ := h.parts
  replace hc := hc.uncounted (steady_uncounted hs)
  have hst := decode_capStart hat.left.left
  have hb : At P (P.startStation + 2) bs := hat.left.right
  have hacc : At P (P.startStation + 2 + bs.length) [opAccept] := by
    have := hat.right
    rwa [List.length_append, ← Nat.add_assoc] at this
  have hd := decode_accept hacc
  have hmax := h.stations
  rcases steady_cases hs with ⟨r', rfl, h1, h2⟩ | ⟨h1, h2⟩
  · cases hc with
    | seq _ _ x y hx hy =>
      cases hx
      have hy' : At P (P.startStation + 2 + 1) y := hb.right
      obtain ⟨L, K, hF⟩ := code_frame h.len hy _ hy'
      have hl : ([opBOL] ++ y).length = 1 + y.length := by simp; omega
      rw [hl, ← Nat.add_assoc] at hd
      rw [hl] at hS
      obtain ⟨R, T, W, K', Ws, N, hh⟩ := steady_shape hF h1 h2 hd d1 d2 d3 hst (.inr (decode_bol hb.left)) (by omega) (by omega) (by
        simp only [Re.chars, Re.plain, Bool.false_and, Bool.false_eq_true, if_false, Nat.zero_add] at hmax
        split <;> omega)
      exact ⟨R, T, _, W, K', Ws, N, a, j, _, _, hh⟩
  · obtain ⟨L, K, hF⟩ := code_frame h.len hc _ hb
    obtain ⟨R, T, W, K', Ws, N, hh⟩ := steady_shape hF h1 h2 hd d1 d2 d3 hst (.inl rfl) (by omega) (by omega) hmax
    exact ⟨R, T, _, W, K', Ws, N, a, j, _, _, hh⟩

/-- `matchAt` of a steady expression ends with a result -/
theorem Compiled.matchAt_steady {r : Re} {P : Prog} (h : Compiled r P) (hs : r.steady = true) (t : List UCS4)
    (junk fuel off : Nat) (hf : 14 * (P.nfa.length + 5) ≤ fuel) : ∃ res, P.matchAt junk fuel t off = .ok res := by
  obtain ⟨R, T, q, W, K, Ws, N, a, j, b, b0, hP⟩ := h.steadyShape hs
  obtain ⟨out, h1, h2, -⟩ := add_start_steady (t := t) (junk := junk) hP (RVal.new P.maxCounter P.maxCapture) off [] [] []
    (.inl rfl) Held.nil (by simp) (by simp) fuel (by omega)
  obtain ⟨o, ho⟩ := matchLoop_steady (t := t) (junk := junk) hP hf (t.length + 1 - off) off out .fail h2
  unfold Prog.matchAt matchRun matchFrom
  simp only [h1, res_bind_ok, ho]
  exact ⟨_, rfl⟩

/-- `matchAfter` of a steady expression ends with a result -/
theorem Compiled.matchAfter_steady {r : Re} {P : Prog} (h : Compiled r P) (hs : r.steady = true) (t : List UCS4)
    (junk fuel off : Nat) (hf : 14 * (P.nfa.length + 5) ≤ fuel) : ∃ res, P.matchAfter junk fuel t off = .ok res := by
  obtain ⟨R, T, q, W, K, Ws, N, a, j, b, b0, hP⟩ := h.steadyShape hs
  have hne := hP.ne
  have hadd : ∃ out, addthread P t junk fuel true ⟨P.searchStation, RVal.new P.maxCounter P.maxCapture⟩ off [] 0 [] =
      .ok (out ++ [⟨a, RVal.new P.maxCounter P.maxCapture⟩]) ∧ Ready P R T b0 out := by
    obtain ⟨f, rfl⟩ : ∃ k, fuel = k + 1 := ⟨fuel - 1, by omega⟩
    rw [addthread, if_neg (by simp), show decide (([] : List Nat).length < maxNesting) = true from rfl, assert_true, res_bind_ok,
      isDuplicate_zero, not_dup (by simp), res_bind_ok]
    simp only [Bool.false_eq_true, if_false]
    exact add_split_steady hP _ off P.searchStation [] [] ⟨hne.1.symm, hne.2.1.symm⟩ Held.nil (by simp) (by simp) f (by omega)
  obtain ⟨out, h1, h2⟩ := hadd
  obtain ⟨o, ho⟩ := searchLoop_steady (t := t) (junk := junk) hP hf (t.length + 1 - off) off out
    (RVal.new P.maxCounter P.maxCapture) .fail h2
  unfold Prog.matchAfter matchRun matchFrom
  simp only [h1, res_bind_ok, ho]
  exact ⟨_, rfl⟩

end Strpp.Rx
