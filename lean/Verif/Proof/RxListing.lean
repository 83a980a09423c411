import Verif.Proof.RxDump
/-! The disassembly of a compiled expression is complete. -/
set_option linter.unusedSimpArgs false
set_option linter.unusedVariables false
namespace Strpp.Rx
open Spec

/-- the instructions from `p` to `q`, one after the other, are at `L` -/
inductive Listed (P : Prog) : Nat → List Nat → Nat → Prop
  | nil (p : Nat) : Listed P p [] p
  | cons (p n q : Nat) (i : Instr) (L : List Nat) : P.decode p = .ok i → i.lists = true → following i = some n → Listed P n L q →
      Listed P p (p :: L) q

theorem Listed.append {P p q r L M} (h : Listed P p L q) (h' : Listed P q M r) : Listed P p (L ++ M) r := by
  induction h with
  | nil => exact h'
  | cons p n q i L h1 h2 h3 _ ih => exact .cons p n _ i _ h1 h2 h3 (ih h')

theorem Listed.one {P p n i} (h1 : P.decode p = .ok i) (h2 : i.lists = true) (h3 : following i = some n) : Listed P p [p] n :=
  .cons p n n i [] h1 h2 h3 (.nil n)

theorem Listed.start {P p q L} (h : Listed P p L q) : p ∈ L ∨ p = q := by
  cases h with
  | nil => exact .inr rfl
  | cons => exact .inl List.mem_cons_self

/-- what the instructions at `L` name is at `L` or satisfies `Q` -/
def Closes (P : Prog) (L : List Nat) (Q : Nat → Prop) : Prop :=
  ∀ s ∈ L, ∀ i, P.decode s = .ok i → ∀ n ∈ mentions i, n ∈ L ∨ Q n

theorem Closes.nil {P Q} : Closes P [] Q := fun _ h => by cases h

theorem Closes.one {P p i Q} (h : P.decode p = .ok i) (hn : ∀ n ∈ mentions i, n = p ∨ Q n) : Closes P [p] Q := by
  intro s hs j hj n hn'
  have : s = p := by simpa using hs
  subst this
  rw [h] at hj; cases hj
  rcases hn n hn' with rfl | h
  · exact .inl List.mem_cons_self
  · exact .inr h

theorem Closes.append {P L M Q Q' R} (h : Closes P L Q) (h' : Closes P M Q') (hq : ∀ n, Q n → n ∈ L ∨ n ∈ M ∨ R n)
    (hq' : ∀ n, Q' n → n ∈ L ∨ n ∈ M ∨ R n) : Closes P (L ++ M) R := by
  intro s hs i hi n hn
  rw [List.mem_append] at hs ⊢
  rcases hs with hs | hs
  · rcases h s hs i hi n hn with h | h
    · exact .inl (.inl h)
    · rcases hq n h with h | h | h
      · exact .inl (.inl h)
      · exact .inl (.inr h)
      · exact .inr h
  · rcases h' s hs i hi n hn with h | h
    · exact .inl (.inr h)
    · rcases hq' n h with h | h | h
      · exact .inl (.inl h)
      · exact .inl (.inr h)
      · exact .inr h

/-- The code of an expression -/
theorem code_listed {cnt : Bool} {P : Prog} (hlen : P.nfa.length < 2 ^ 30) {r : Re} {bs : List Byte} (hc : Code cnt r bs) :
    ∀ (p : Nat), At P p bs → ∃ L, Listed P p L (p + bs.length) ∧ Closes P L (· = p + bs.length) := by
  have single : ∀ {p n q : Nat} {i : Instr}, P.decode p = .ok i → i.lists = true → following i = some n → mentions i = [n] → n = q →
      ∃ L, Listed P p L q ∧ Closes P L (· = q) := by
    rintro p n q i h1 h2 h3 h4 rfl
    refine ⟨[p], .one h1 h2 h3, .one h1 fun m hm => ?_⟩
    rw [h4] at hm
    exact .inr (by simpa using hm)
  induction hc with
  | empty => intro p _; exact ⟨[], .nil _, .nil⟩
  | chr s c hr h0 => intro p hat; exact single (decode_char hat hr) rfl rfl rfl (by simp only [List.length_cons]; omega)
  | any => intro p hat; exact single (decode_any hat) rfl rfl rfl rfl
  | bol => intro p hat; exact single (decode_bol hat) rfl rfl rfl rfl
  | eol => intro p hat; exact single (decode_eol hat) rfl rfl rfl rfl
  | cls neg text rs hne hr hb =>
    intro p hat; exact single (decode_cls hat hb) rfl rfl rfl (by simp only [List.length_cons]; omega)
  | prop br q => intro p hat; exact single (decode_prop hat (by cases q <;> decide)) rfl rfl rfl rfl
  | seq a b x y _ _ iha ihb =>
    intro p hat
    obtain ⟨A, ha, ca⟩ := iha p hat.left
    obtain ⟨B, hb, cb⟩ := ihb _ hat.right
    rw [List.length_append, ← Nat.add_assoc]
    refine ⟨A ++ B, ha.append hb, ca.append cb ?_ fun n h => .inr (.inr h)⟩
    rintro n rfl
    exact .inr hb.start
  | alt a b x y o1 o2 _ _ e1 l1 e2 l2 iha ihb =>
    intro p hat
    obtain ⟨px, py, g1, g2, hend, d1, hx, d2, hy⟩ := alt_layout hlen e1 l1 e2 l2 hat
    obtain ⟨A, ha, ca⟩ := iha px hx
    obtain ⟨B, hb, cb⟩ := ihb py hy
    rw [← hend]
    have l1 : Listed P p [p] px := .one d1 rfl rfl
    have l2 : Listed P (px + x.length) [px + x.length] py := .one d2 rfl rfl
    refine ⟨[p] ++ (A ++ ([px + x.length] ++ B)), l1.append (ha.append (l2.append hb)), ?_⟩
    have c2 : Closes P ([px + x.length] ++ B) (· = py + y.length) := by
      refine Closes.append (.one d2 (Q := (· = py + y.length)) fun n hn => .inr ?_) cb (fun n h => .inr (.inr h)) fun n h => .inr (.inr h)
      simpa [mentions] using hn
    have c3 : Closes P (A ++ ([px + x.length] ++ B)) (· = py + y.length) := by
      refine Closes.append ca c2 ?_ fun n h => .inr (.inr h)
      rintro n rfl; simp
    refine Closes.append (.one d1 (Q := fun n => n = px ∨ n = py) fun n hn => .inr ?_) c3 ?_ fun n h => .inr (.inr h)
    · simp only [mentions, List.mem_cons, List.not_mem_nil, or_false] at hn; omega
    · rintro n (rfl | rfl)
      · rcases ha.start with h | h
        · exact .inr (.inl (List.mem_append.2 (.inl h)))
        · exact .inr (.inl (List.mem_append.2 (.inr (by rw [← h]; exact List.mem_cons_self))))
      · rcases hb.start with h | h
        · exact .inr (.inl (List.mem_append.2 (.inr (List.mem_append.2 (.inr h)))))
        · exact .inr (.inr h)
  | star a x o1 o2 _ e1 l1 e2 l2 iha =>
    intro p hat
    obtain ⟨px, pe, g1, g2, hend, d1, hx, d2⟩ := star_layout hlen e1 l1 e2 l2 hat
    obtain ⟨A, ha, ca⟩ := iha px hx
    rw [← hend]
    have l1 : Listed P p [p] px := .one d1 rfl rfl
    have l2 : Listed P (px + x.length) [px + x.length] pe := .one d2 rfl rfl
    refine ⟨[p] ++ (A ++ [px + x.length]), l1.append (ha.append l2), ?_⟩
    have c3 : Closes P (A ++ [px + x.length]) (fun n => n = pe ∨ n = p) := by
      refine Closes.append ca (.one d2 (Q := (· = p)) fun n hn => .inr ?_) ?_ fun n h => .inr (.inr (.inr h))
      · simpa [mentions] using hn
      · rintro n rfl; simp
    refine Closes.append (.one d1 (Q := fun n => n = px ∨ n = pe) fun n hn => .inr ?_) c3 ?_ ?_
    · simp only [mentions, List.mem_cons, List.not_mem_nil, or_false] at hn; omega
    · rintro n (rfl | rfl)
      · rcases ha.start with h | h
        · exact .inr (.inl (List.mem_append.2 (.inl h)))
        · exact .inr (.inl (List.mem_append.2 (.inr (by rw [← h]; exact List.mem_cons_self))))
      · exact .inr (.inr rfl)
    · rintro n (rfl | rfl)
      · exact .inr (.inr rfl)
      · exact .inl List.mem_cons_self
  | plus a x o _ e1 l1 iha =>
    intro p hat
    obtain ⟨pe, g1, hend, hx, d1⟩ := plus_layout hlen e1 l1 hat
    obtain ⟨A, ha, ca⟩ := iha p hx
    rw [← hend]
    have l2 : Listed P (p + x.length) [p + x.length] pe := .one d1 rfl rfl
    refine ⟨A ++ [p + x.length], ha.append l2, ?_⟩
    refine Closes.append ca (.one d1 (Q := fun n => n = p ∨ n = pe) fun n hn => .inr ?_) ?_ ?_
    · simpa [mentions] using hn
    · rintro n rfl; simp
    · rintro n (rfl | rfl)
      · rcases ha.start with h | h
        · exact .inl h
        · right; left; rw [← h]; exact List.mem_cons_self
      · exact .inr (.inr rfl)
  | opt a x o _ e1 l1 iha =>
    intro p hat
    obtain ⟨px, g1, hend, d1, hx⟩ := opt_layout hlen e1 l1 hat
    obtain ⟨A, ha, ca⟩ := iha px hx
    rw [← hend]
    have l1 : Listed P p [p] px := .one d1 rfl rfl
    refine ⟨[p] ++ A, l1.append ha, ?_⟩
    refine Closes.append (.one d1 (Q := fun n => n = px ∨ n = px + x.length) fun n hn => .inr ?_) ca ?_ fun n h => .inr (.inr h)
    · simp only [mentions, List.mem_cons, List.not_mem_nil, or_false] at hn; omega
    · rintro n (rfl | rfl)
      · exact .inr ha.start
      · exact .inr (.inr rfl)
  | grp nc a x _ iha => exact iha
  | repStar w a bs _ _ iha => exact iha
  | repOpt w a bs _ _ iha => exact iha
  | repPlus w a bs _ _ iha => exact iha
  | rep w mn mx a x o _ _ hmn hmx e1 l1 iha =>
    intro p hat
    obtain ⟨pe, g1, hend, d1, hx, d2⟩ := rep_layout hlen hmn (fun m h => (hmx m h).2.2) e1 l1 hat
    obtain ⟨A, ha, ca⟩ := iha (p + 1) hx
    rw [← hend]
    have l1 : Listed P p [p] (p + 1) := .one d1 rfl rfl
    have l2 : Listed P (p + 1 + x.length) [p + 1 + x.length] pe := .one d2 rfl rfl
    refine ⟨[p] ++ (A ++ [p + 1 + x.length]), l1.append (ha.append l2), ?_⟩
    have hs : p + 1 ∈ A ∨ p + 1 ∈ [p + 1 + x.length] := by
      rcases ha.start with h | h
      · exact .inl h
      · right; rw [← h]; exact List.mem_cons_self
    have c3 : Closes P (A ++ [p + 1 + x.length]) (· = pe) := by
      refine Closes.append ca (.one d2 (Q := fun n => n = p + 1 ∨ n = pe) fun n hn => .inr ?_) ?_ ?_
      · simpa [mentions] using hn
      · rintro n rfl; simp
      · rintro n (rfl | rfl)
        · rcases hs with h | h
          · exact .inl h
          · exact .inr (.inl h)
        · exact .inr (.inr rfl)
    refine Closes.append (.one d1 (Q := (· = p + 1)) fun n hn => .inr ?_) c3 ?_ fun n h => .inr (.inr h)
    · simpa [mentions] using hn
    · rintro n rfl
      exact .inr (.inl (List.mem_append.2 hs))

/-- The loop prints the instructions listed -/
theorem dump_listed {P : Prog} (hP : Prog.load P.nfa = .ok P) {p q : Nat} {L : List Nat} (h : Listed P p L q) :
    ∀ (fuel : Nat) (ls : List (Nat × Line)), q ≤ P.nfa.length → dumpFrom P.nfa fuel q = .ok ls →
      ∃ ks, dumpFrom P.nfa (fuel + L.length) p = .ok (ks ++ ls) ∧ ks.map Prod.fst = L ∧ p ≤ q ∧ L.length ≤ q - p ∧
        ∀ x ∈ ks, x.2 ≠ .null ∧ (∀ op, x.2 ≠ .error op ∧ x.2 ≠ .illegal op) ∧ ∀ a b c d e f, x.2 ≠ .start a b c d e f := by
  induction h with
  | nil => intro fuel ls _ h; exact ⟨[], h, rfl, Nat.le_refl _, Nat.zero_le _, by simp⟩
  | cons p n q i L h1 h2 h3 hl ih =>
    intro fuel ls hq h
    obtain ⟨ks, e1, e2, e3, e4, e5⟩ := ih fuel ls hq h
    obtain ⟨l, n', d1, d2, d3, d4, d5⟩ := dump_of_decode hP h1 h2
    rw [h3] at d2; cases d2
    have hs := (dump_step d1).1
    refine ⟨(p, l) :: ks, ?_, by rw [List.map_cons, e2], by omega, by rw [List.length_cons]; omega, ?_⟩
    · rw [List.length_cons, ← Nat.add_assoc]
      unfold dumpFrom
      rw [if_pos (by omega), d1, res_bind_ok]
      simp only [if_true]
      rw [e1]; rfl
    · intro x hx
      rcases List.mem_cons.1 hx with rfl | hx
      · refine ⟨d4, fun op => ⟨d5 op, ?_⟩, ?_⟩
        · rintro rfl
          cases i <;> exact d3
        · rintro a b c d e f rfl
          cases i <;> first | exact d3 | cases h2
      · exact e5 x hx

/-- more fuel does not matter -/
theorem dumpFrom_more {m : List Byte} : ∀ (f : Nat) (s : Nat) (ls : List (Nat × Line)), dumpFrom m f s = .ok ls → ∀ g, f ≤ g → dumpFrom m g s = .ok ls := by
  intro f
  induction f with
  | zero => intro s ls h; cases h
  | succ f ih =>
    intro s ls h g hg
    obtain ⟨g, rfl⟩ : ∃ k, g = k + 1 := ⟨g - 1, by omega⟩
    unfold dumpFrom at h ⊢
    split at h
    · rename_i hs
      rw [if_pos hs]
      obtain ⟨r, h1, h⟩ := hbind h
      rw [h1, res_bind_ok]
      split at h
      · rename_i hc
        rw [if_pos hc]
        obtain ⟨ls', h2, h⟩ := hbind h
        rw [ih _ _ h2 g (by omega), res_bind_ok]; exact h
      · rename_i hc
        rw [if_neg hc]; exact h
    · rename_i hs
      rw [if_neg hs]; exact h

/-- The disassembly of a compiled expression -/
theorem Compiled.listing {r : Re} {P : Prog} (h : Compiled r P) (hP : Prog.load P.nfa = .ok P) :
    ∃ (ks : List (Nat × Line)), dump P.nfa = .ok (ks ++ [(P.nfa.length - 1, .null)]) ∧ 0 < P.nfa.length ∧
      (∀ x, ks[0]? = some x → x.1 = 0) ∧ (∃ l ks', ks = (0, l) :: ks') ∧
      (∀ x ∈ ks, x.2 ≠ .null ∧ (∀ op, x.2 ≠ .error op ∧ x.2 ≠ .illegal op) ∧ ∀ a b c d e f, x.2 = .start a b c d e f → x.1 = 0) ∧
      ∀ x ∈ ks, ∀ i, P.decode x.1 = .ok i → ∀ n ∈ mentions i, n ∈ ks.map Prod.fst ∨ n = P.nfa.length - 1 := by
  obtain ⟨bs, a, j, n, hc, hat, hS, d1, d2, d3, ga, gj⟩ := h.parts
  obtain ⟨hend, hnull⟩ := h.last a j n d1 d2 d3
  have hst := decode_capStart hat.left.left
  have hb : At P (P.startStation + 2) bs := hat.left.right
  have hacc : At P (P.startStation + 2 + bs.length) [opAccept] := by
    have := hat.right
    rwa [List.length_append, ← Nat.add_assoc] at this
  obtain ⟨L, hL, cL⟩ := code_listed h.len hc _ hb
  have hd := decode_accept hacc
  rw [← hS] at hd
  have hlist : Listed P P.startStation ([P.startStation] ++ (L ++ ([P.startStation + 2 + bs.length] ++ ([P.searchStation] ++ ([a] ++ [j]))))) n :=
    (Listed.one hst rfl rfl).append (hL.append ((Listed.one hd rfl rfl).append ((Listed.one d1 rfl rfl).append
      ((Listed.one d2 rfl rfl).append (Listed.one d3 rfl rfl)))))
  generalize hM : [P.startStation] ++ (L ++ ([P.startStation + 2 + bs.length] ++ ([P.searchStation] ++ ([a] ++ [j])))) = M at hlist
  have hlast : dumpFrom P.nfa 1 n = .ok [(n, .null)] := by
    unfold dumpFrom
    rw [if_pos (by omega)]
    have : dumpInstruction P.nfa n = .ok (.null, n + 1, false) := by
      unfold dumpInstruction; rw [hnull]; rfl
    rw [this]; rfl
  obtain ⟨ks, e1, e2, e3, e4, e5⟩ := dump_listed hP hlist 1 _ (by omega) hlast
  -- the header
  obtain ⟨se, stt, st, mc, mcap, nn, names, h0, h1, h2, h3, h4, h5, h6, h7, he, hPe⟩ := load_parts hP
  have hss : P.startStation = names.2 := by rw [hPe]; exact he
  have hdump : dumpInstruction P.nfa 0 = .ok (.start (1 + se.1) (se.2 + stt.1) st.1.toNat mc.toNat mcap.toNat names.1, names.2, true) := by
    unfold dumpInstruction
    rw [h0, res_bind_ok]
    show dumpStart P.nfa (0 + 1) = _
    unfold dumpStart
    rw [show 0 + 1 = 1 from rfl, h1, res_bind_ok, h2, res_bind_ok, h3, res_bind_ok, h4, res_bind_ok, h5, res_bind_ok, h6, res_bind_ok, h7, res_bind_ok]
    rfl
  have hpos := (dump_step hdump).1
  have hdec0 : P.decode 0 = .ok (.start P.startStation P.searchStation) := by
    unfold Prog.decode; rw [h0]; rfl
  have hall : dumpFrom P.nfa (1 + M.length + 1) 0 = .ok (((0, .start (1 + se.1) (se.2 + stt.1) st.1.toNat mc.toNat mcap.toNat names.1) :: ks) ++ [(n, .null)]) := by
    unfold dumpFrom
    rw [if_pos (by omega), hdump, res_bind_ok]
    simp only [if_true]
    rw [← hss, e1]; rfl
  refine ⟨(0, .start (1 + se.1) (se.2 + stt.1) st.1.toNat mc.toNat mcap.toNat names.1) :: ks, ?_, by omega, by rintro x hx; cases hx; rfl, ⟨_, _, rfl⟩, ?_, ?_⟩
  · rw [show P.nfa.length - 1 = n by omega]
    exact dumpFrom_more _ _ _ hall _ (by omega)
  · intro x hx
    rcases List.mem_cons.1 hx with rfl | hx
    · exact ⟨nofun, fun op => ⟨nofun, nofun⟩, fun _ _ _ _ _ _ _ => rfl⟩
    · exact ⟨(e5 x hx).1, (e5 x hx).2.1, fun a b c d e f h => absurd h ((e5 x hx).2.2 a b c d e f)⟩
  · rw [show P.nfa.length - 1 = n by omega]
    have hcl : Closes P M (· = n) := by
      rw [← hM]
      have m1 : ∀ {p : Nat} {i : Instr} {R : Nat → Prop}, P.decode p = .ok i → (∀ n ∈ mentions i, R n) → Closes P [p] R :=
        fun h hr => .one h fun n hn => .inr (hr n hn)
      have c1 : Closes P ([a] ++ [j]) (· = P.searchStation) := by
        refine Closes.append (m1 (R := (· = j)) d2 ?_) (m1 (R := (· = P.searchStation)) d3 ?_) ?_ ?_
        · intro n hn; simpa [mentions] using hn
        · intro n hn; simpa [mentions] using hn
        · rintro n rfl; simp
        · rintro n rfl; simp
      have c2 : Closes P ([P.searchStation] ++ ([a] ++ [j])) (· = P.startStation) := by
        refine Closes.append (m1 (R := fun n => n = P.startStation ∨ n = a) d1 ?_) c1 ?_ ?_
        · intro n hn; simpa [mentions] using hn
        · rintro n (rfl | rfl)
          · simp
          · simp
        · rintro n rfl; simp
      have c3 : Closes P ([P.startStation + 2 + bs.length] ++ ([P.searchStation] ++ ([a] ++ [j]))) (· = P.startStation) := by
        refine Closes.append (m1 (R := fun _ => False) hd ?_) c2 ?_ ?_
        · intro n hn; simp [mentions] at hn
        · rintro n ⟨⟩
        · rintro n rfl; simp
      have c4 : Closes P (L ++ ([P.startStation + 2 + bs.length] ++ ([P.searchStation] ++ ([a] ++ [j])))) (· = P.startStation) := by
        refine Closes.append cL c3 ?_ ?_
        · rintro n rfl; simp
        · rintro n rfl; simp
      refine Closes.append (m1 (R := (· = P.startStation + 2)) hst ?_) c4 ?_ ?_
      · intro n hn; simpa [mentions] using hn
      · rintro n rfl
        rcases hL.start with h | h
        · right; left; simp [h]
        · right; left
          show P.startStation + 2 ∈ L ++ ([P.startStation + 2 + bs.length] ++ ([P.searchStation] ++ ([a] ++ [j])))
          rw [← h]
          exact List.mem_append.2 (.inr List.mem_cons_self)
      · rintro n rfl; simp
    intro x hx i hi t ht
    have hmem : ∀ t, t ∈ M → t ∈ List.map Prod.fst ((0, Line.start (1 + se.1) (se.2 + stt.1) st.1.toNat mc.toNat mcap.toNat names.1) :: ks) := by
      intro t ht; rw [List.map_cons, e2]; exact List.mem_cons_of_mem _ ht
    rcases List.mem_cons.1 hx with rfl | hx
    · rw [hdec0] at hi; cases hi
      left
      apply hmem
      rw [← hM]
      simp only [mentions, List.mem_cons, List.not_mem_nil, or_false] at ht
      rcases ht with rfl | rfl <;> simp
    · have : x.1 ∈ M := by rw [← e2]; exact List.mem_map_of_mem hx
      rcases hcl _ this i hi t ht with h | h
      · exact .inl (hmem t h)
      · exact .inr h

/-! ### Hexadecimal -/

theorem hex_digit (n : Nat) (h : n < 16) : hexValue (hexDigit n) = some n ∧ hexDigit n ≠ 0x20#8 := by
  have : ∀ n : _root_.Fin 16, hexValue (hexDigit n.val) = some n.val ∧ hexDigit n.val ≠ 0x20#8 := by decide +kernel
  exact this ⟨n, h⟩

theorem readHex_space (rest : List Byte) (h : rest ≠ []) : readHex (0x20#8 :: rest) = readHex rest := by
  cases rest with
  | nil => exact absurd rfl h
  | cons d rest => rw [readHex, if_pos rfl]

theorem hexFrom_ne (i : Nat) (bs : List Byte) : dumpHexFrom i bs ≠ [] := by
  cases bs <;> simp [dumpHexFrom]

theorem readHex_from (bs : List Byte) : ∀ i, readHex (dumpHexFrom i bs) = some bs := by
  induction bs with
  | nil => intro i; rfl
  | cons b bs ih =>
    intro i
    have hb := b.isLt
    obtain ⟨a1, a2⟩ := hex_digit (b.toNat / 16) (by omega)
    obtain ⟨b1, -⟩ := hex_digit (b.toNat % 16) (by omega)
    rw [dumpHexFrom, readHex, if_neg a2, a1, b1]
    have : readHex ((if (i + 1) % 5 ≠ 0 then [0x20#8] else [0x20#8, 0x20#8, 0x20#8]) ++ dumpHexFrom (i + 1) bs) = some bs := by
      split
      · rw [List.singleton_append, readHex_space _ (hexFrom_ne _ _), ih]
      · show readHex (0x20#8 :: 0x20#8 :: 0x20#8 :: dumpHexFrom (i + 1) bs) = _
        rw [readHex_space _ (by simp), readHex_space _ (by simp), readHex_space _ (hexFrom_ne _ _), ih]
    simp only [this, Option.map_some]
    rw [show 16 * (b.toNat / 16) + b.toNat % 16 = b.toNat by omega, BitVec.ofNat_toNat, BitVec.setWidth_eq]

end Strpp.Rx
