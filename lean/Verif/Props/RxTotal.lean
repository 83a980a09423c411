import Verif.Proof.RxTotal
/-! C62: compiling any text, well-formed or not. -/
namespace Strpp.Rx
open Spec

/-- Compiling any text, with any features, ends -/
theorem C62_ends (cfg : Cfg) (re : List UCS4) (hr : Fits re) : compile cfg re ≠ .error .fuel := compile_ends cfg re hr

/-- Reading the text, and reckoning the memory for its code, neither aborts nor reads out of bounds -/
theorem C62_reads (cfg : Cfg) (re : List UCS4) (hr : Fits re) (hm : ¬ ∃ p, p <:+: re ∧ LongMin p) :
    ∃ evs, scan cfg re = .ok evs ∧ ∃ x, runPass firstPass evs P1.init = .ok x := by
  rcases scan_total cfg re hr with ⟨evs, h, hn⟩ | ⟨-, h⟩
  · exact ⟨_, h, first_total evs hn⟩
  · exact absurd h hm

theorem runPass_err {σ : Type} (f : σ → Tok → Res (Option σ)) : ∀ (evs : List Ev) (s : σ) (x : σ × Bool), evs.any Ev.isErr = true →
    runPass f evs s = .ok x → x.2 = false := by
  intro evs
  induction evs with
  | nil => intro s x h _; cases h
  | cons e evs ih =>
    intro s x h hx
    cases e with
    | err m =>
      unfold runPass at hx
      cases hr : runPass f evs s with
      | error e => rw [hr] at hx; cases hx
      | ok r => rw [hr] at hx; cases hx; rfl
    | tok t =>
      have h' : evs.any Ev.isErr = true := h
      unfold runPass at hx
      cases hf : f s t with
      | error e => rw [hf] at hx; cases hx
      | ok o =>
        rw [hf, res_bind_ok] at hx
        cases o with
        | none => cases hx; rfl
        | some s' => exact ih s' x h' hx

/-- A text in which an error is reported is refused, without an abort -/
theorem C62_refused (cfg : Cfg) (re : List UCS4) (hr : Fits re) (evs : List Ev) (h : scan cfg re = .ok evs)
    (he : evs.any Ev.isErr = true) : compile cfg re = .ok none := by
  rcases scan_total cfg re hr with ⟨evs', h', hn⟩ | ⟨h', -⟩
  · obtain ⟨x, hx⟩ := first_total evs' hn
    rw [h] at h'
    have h' := Except.ok.inj h'
    subst h'
    have hb := runPass_err firstPass _ _ x he hx
    unfold compile
    rw [h, res_bind_ok, hx, res_bind_ok, hb]
    rfl
  · rw [h] at h'; cases h'

/-- The exception: `a{-9223372036854775808}`, whose count is negated as a 64-bit integer -/
theorem C62_long_min :
    compile .default [0x61#32, 0x7B#32, 0x2D#32, 0x39#32, 0x32#32, 0x32#32, 0x33#32, 0x33#32, 0x37#32, 0x32#32, 0x30#32, 0x33#32, 0x36#32, 0x38#32, 0x35#32, 0x34#32, 0x37#32, 0x37#32, 0x35#32, 0x38#32, 0x30#32, 0x38#32, 0x7D#32] = .error .ub := by decide +kernel

/-- A text with a parenthesis, a class and a brace left open: `(a[b{3,` -/
example : Fits [0x28#32, 0x61#32, 0x5B#32, 0x62#32, 0x7B#32, 0x33#32, 0x2C#32] ∧ scan .default [0x28#32, 0x61#32, 0x5B#32, 0x62#32, 0x7B#32, 0x33#32, 0x2C#32] ≠ .error .ub ∧ compile .default [0x28#32, 0x61#32, 0x5B#32, 0x62#32, 0x7B#32, 0x33#32, 0x2C#32] = .ok none := by
  refine ⟨⟨?_, ?_⟩, ?_, ?_⟩
  · intro c hc
    simp only [List.mem_cons, List.not_mem_nil, or_false] at hc
    rcases hc with h | h | h | h | h | h | h <;> subst h <;> decide +kernel
  · decide +kernel
  · decide +kernel
  · decide +kernel

end Strpp.Rx
