/-!
Outcomes shared by every part of the model.

`Fault.ub`        undefined behaviour in the C++ (read/write outside a buffer, null or dangling pointer,
                  signed overflow, ...).
`Fault.assertion` a failed `assert` (the repo's Makefile never defines NDEBUG).
`Fault.fuel`      the fuel given to a model loop ran out: not a behaviour of the code; theorems show it never
                  happens with enough fuel.
-/
namespace Strpp

inductive Fault where
  | ub
  | assertion
  | fuel
  deriving DecidableEq, Repr

/-- Outcome of a piece of C++ code. -/
abbrev Res (α : Type) := Except Fault α

abbrev Byte := BitVec 8
abbrev UCS4 := BitVec 32
abbrev UTF16 := BitVec 16

instance {α : Type} [DecidableEq α] : DecidableEq (Res α) := fun a b =>
  match a, b with
  | .ok x, .ok y => if h : x = y then isTrue (by rw [h]) else isFalse (by intro e; cases e; exact h rfl)
  | .error x, .error y => if h : x = y then isTrue (by rw [h]) else isFalse (by intro e; cases e; exact h rfl)
  | .ok _, .error _ => isFalse (by intro e; cases e)
  | .error _, .ok _ => isFalse (by intro e; cases e)

/-- Reading element `i` of a buffer; outside of the buffer is undefined behaviour. -/
def rd {α : Type} (m : List α) (i : Nat) : Res α :=
  match m[i]? with
  | some b => .ok b
  | none => .error .ub

/-- Reading at a possibly negative offset from the start of the buffer. -/
def rdI {α : Type} (m : List α) (i : Int) : Res α :=
  if i < 0 then .error .ub else rd m i.toNat

/-- `assert(b)` -/
def assert (b : Bool) : Res Unit := if b then .ok () else .error .assertion

@[simp] theorem rd_eq_ok {α : Type} {m : List α} {i : Nat} {b : α} : rd m i = .ok b ↔ m[i]? = some b := by
  unfold rd; split <;> simp_all

theorem rd_lt {α : Type} (m : List α) (i : Nat) (h : i < m.length) : rd m i = .ok m[i] := by
  simp [h]

theorem rd_ge {α : Type} (m : List α) (i : Nat) (h : m.length ≤ i) : rd m i = .error .ub := by
  unfold rd; simp [h]

@[simp] theorem res_bind_ok {α β : Type} (a : α) (f : α → Res β) : ((Except.ok a : Res α) >>= f) = f a := rfl
@[simp] theorem res_bind_err {α β : Type} (e : Fault) (f : α → Res β) : ((Except.error e : Res α) >>= f) = .error e := rfl

@[simp] theorem assert_true : assert true = .ok () := rfl
@[simp] theorem assert_false : assert false = .error .assertion := rfl

/-- a computation in `Res` that returned -/
theorem hbind {α β : Type} {m : Res α} {f : α → Res β} {b : β} (h : (m >>= f) = .ok b) : ∃ a, m = .ok a ∧ f a = .ok b := by
  cases m with
  | error e => cases h
  | ok a => exact ⟨a, rfl, h⟩

end Strpp
