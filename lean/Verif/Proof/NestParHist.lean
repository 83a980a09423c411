import Verif.Proof.NestParVal
/-! The invariant of C88 with the values, and steps. -/
set_option linter.unusedSectionVars false
set_option linter.unusedVariables false
set_option linter.unusedSimpArgs false
namespace Strpp.NestPar
open Spec

theorem set_perm {α : Type} (a : α) : ∀ (l : List α) (i : Nat), i < l.length → (l.set i a).Perm (a :: l.eraseIdx i) := by
  intro l
  induction l with
  | nil => intro i h; simp at h
  | cons b l ih =>
    intro i h
    cases i with
    | zero => simp
    | succ i =>
      simp only [List.set_cons_succ, List.eraseIdx_cons_succ]
      exact ((ih i (by simpa using h)).cons b).trans (List.Perm.swap a b _)

theorem get_perm {α : Type} {l : List α} {i : Nat} {a : α} (h : l[i]? = some a) : l.Perm (a :: l.eraseIdx i) := by
  obtain ⟨hlt, hget⟩ := List.getElem?_eq_some_iff.1 h
  have := set_perm a l i hlt
  rw [← hget, List.set_getElem_self, hget] at this
  exact this

structure J (s : State) (A : View) : Prop where
  inv : Inv s.bodies s.vars s.jobs
  len : A.length = s.vars.length
  bound : ∀ j ∈ s.jobs, j.v < s.vars.length ∧ ∀ w ∈ j.reads, w < s.vars.length
  jobs : ∀ j ∈ s.jobs, ∀ x, A[j.v]? = some (some x) → Ends (s.bodies, s.vars) j.todo j.v x
  idle : ∀ (u : Nat) (x : Val), Readable s u → A[u]? = some (some x) → Ends (s.bodies, s.vars) [] u x

theorem J.shows {s : State} {A : View} (h : J s A) {u : Nat} {x : Val} (hu : Readable s u) (hx : A[u]? = some (some x)) : Shows s u x := h.idle u x hu hx

theorem tick_J {s : State} {A : View} (h : J s A) (i : Nat) : ∃ s', tick s i = .ok s' ∧ J s' A := by
  cases hi : s.jobs[i]? with
  | none => exact ⟨s, by simp only [tick, hi], h⟩
  | some j =>
    obtain ⟨hlt, hget⟩ := List.getElem?_eq_some_iff.1 hi
    have hp : s.jobs.Perm (j :: s.jobs.eraseIdx i) := get_perm hi
    have hinv := h.inv.perm hp
    have hmem : ∀ k, k ∈ s.jobs ↔ k = j ∨ k ∈ s.jobs.eraseIdx i := fun k => by rw [hp.mem_iff, List.mem_cons]
    have hsep := (List.pairwise_cons.1 hinv.sep).1
    obtain ⟨v, r, todo⟩ := j
    cases todo with
    | nil =>
      refine ⟨{ s with jobs := s.jobs.eraseIdx i }, by simp only [tick, hi], hinv.return, h.len, ?_, ?_, ?_⟩
      · intro k hk; exact h.bound k ((hmem k).2 (Or.inr hk))
      · intro k hk; exact h.jobs k ((hmem k).2 (Or.inr hk))
      · intro u x hu hx
        by_cases huv : u = v
        · subst huv
          exact h.jobs ⟨u, r, []⟩ ((hmem _).2 (Or.inl rfl)) x hx
        · refine h.idle u x (fun k hk => ?_) hx
          rcases (hmem k).1 hk with rfl | hk
          · exact fun e => huv e.symm
          · exact hu k hk
    | cons a t =>
      obtain ⟨bs', vs', more, hs, hinv'⟩ := step_inv hinv
      have hp' : (s.jobs.set i ⟨v, r, more ++ t⟩).Perm (⟨v, r, more ++ t⟩ :: s.jobs.eraseIdx i) := set_perm _ _ _ hlt
      have hmem' : ∀ k, k ∈ s.jobs.set i ⟨v, r, more ++ t⟩ ↔ k = ⟨v, r, more ++ t⟩ ∨ k ∈ s.jobs.eraseIdx i := fun k => by rw [hp'.mem_iff, List.mem_cons]
      have hvl : vs'.length = s.vars.length := by
        have h1 := step_changes hinv hs
        cases a with
        | swap l c =>
          simp only [step] at hs
          cases hb : get s.bodies s.vars l with
          | error e => rw [hb] at hs; cases hs
          | ok old => rw [hb, res_bind_ok] at hs; cases hs; cases l <;> simp [putV]
        | _ =>
          simp only [step] at hs
          first
            | (cases hb : body s.bodies _ with
              | error e => rw [hb] at hs; cases hs
              | ok b =>
                rw [hb, res_bind_ok] at hs
                first
                  | (cases hs; rfl)
                  | (simp only [assert] at hs; split at hs <;> first | (cases hs; rfl) | cases hs))
            | (cases hb : get s.bodies s.vars _ with
              | error e => rw [hb] at hs; cases hs
              | ok b => rw [hb, res_bind_ok] at hs; cases hs; rfl)
      refine ⟨⟨bs', vs', s.jobs.set i ⟨v, r, more ++ t⟩⟩, ?_, hinv'.perm hp'.symm, by rw [h.len, hvl], ?_, ?_, ?_⟩
      · simp only [tick, hi]; rw [hs, res_bind_ok]
      · intro k hk
        show k.v < vs'.length ∧ ∀ w ∈ k.reads, w < vs'.length
        rw [hvl]
        rcases (hmem' k).1 hk with rfl | hk
        · exact h.bound ⟨v, r, a :: t⟩ ((hmem _).2 (Or.inl rfl))
        · exact h.bound k ((hmem k).2 (Or.inr hk))
      · intro k hk x hx
        rcases (hmem' k).1 hk with rfl | hk
        · exact step_ends hinv hs (h.jobs ⟨v, r, a :: t⟩ ((hmem _).2 (Or.inl rfl)) x hx)
        · have hks := hsep k hk
          refine (step_like hinv hs (U := fun w => w ∈ k.reads ∨ w = k.v) ?_).ends ?_ ?_ (Or.inr rfl) (h.jobs k ((hmem k).2 (Or.inr hk)) x hx)
          · rintro (h1 | h1)
            · exact hks.vr h1
            · exact hks.vv h1
          · intro p hp hm
            exact hks.own p ⟨a, by simp, hp⟩ hm
          · exact (hinv.jobs k (List.mem_cons_of_mem _ hk)).good.vars
      · intro u x hu hx
        have huv : u ≠ v := by
          rintro rfl
          exact hu ⟨u, r, more ++ t⟩ ((hmem' _).2 (Or.inl rfl)) rfl
        refine (step_like hinv hs (U := (· = u)) (fun e => huv e.symm)).ends ?_ ?_ rfl (h.idle u x ?_ hx)
        · rintro p hp ⟨a, h1, h2⟩; cases h1
        · intro a ha; cases ha
        · intro k hk
          rcases (hmem k).1 hk with rfl | hk
          · exact fun e => huv e.symm
          · exact hu k ((hmem' k).2 (Or.inr hk))

end Strpp.NestPar
