import Verif.Model.CaseTables
/-!
Model of src/char_encoding.cpp and of the inline classifiers of include/char_encoding.h:55-89.

Each of UCS4Digit/UCS4ToUpper/UCS4ToLower has a static `std::atomic<int> last_memo`, read once at the start of a call
and written at most once at its end. In the model a call takes the value it read (`memo`) and returns its result and
the value it writes, if any.
-/
namespace Strpp

/-- The binary search loop of src/char_encoding.cpp:164-176 (also 210-223, and 29-43): `(true, mid)` when `ch` equals
a key, else `(false, hi)` at the end of the loop. Simplification: `int` is unbounded (indices below 500); C's `/`
agrees with Lean's because `lo + hi ≥ 0`. -/
def bsLoop (keys : List Nat) (ch : Nat) (lo hi : Int) : Res (Bool × Int) :=
  if hi ≥ lo then do
    let mid := (lo + hi) / 2
    let k ← rdI keys mid
    if ch < k then bsLoop keys ch lo (mid - 1)
    else if ch > k then bsLoop keys ch (mid + 1) hi
    else .ok (true, mid)
  else .ok (false, hi)
termination_by (hi - lo + 1).toNat
decreasing_by all_goals omega

/-- `ch + delta`: 32-bit unsigned addition of a sign-extended `short` -/
def addDelta (ch : UCS4) (d : Int) : UCS4 := ch + BitVec.ofInt 32 d

/-- src/char_encoding.cpp:149-191 `UCS4ToUpper` and 196-237 `UCS4ToLower`, which differ only in the table.
Returns the character and the memo value stored, if one is. -/
def caseConv (tbl : List CaseRange) (memo : Int) (ch : UCS4) : Res (UCS4 × Option Int) := do
  let r ← rdI tbl memo
  if ch.toNat ≥ r.first && ch.toNat ≤ r.last then .ok (addDelta ch r.delta, none)
  else do
    let (found, i) ← bsLoop (tbl.map (·.first)) ch.toNat 0 ((tbl.length : Int) - 1)
    if found then do
      let r ← rdI tbl i
      .ok (addDelta ch r.delta, some i)
    else if i ≥ 0 then do
      let r ← rdI tbl i
      if ch.toNat ≥ r.first && ch.toNat ≤ r.last then .ok (addDelta ch r.delta, some i)
      else .ok (ch, none)
    else .ok (ch, none)

/-- src/char_encoding.cpp:149-191 -/
def ucs4ToUpper (memo : Int) (ch : UCS4) : Res (UCS4 × Option Int) := caseConv unicodeToUpper memo ch

/-- src/char_encoding.cpp:196-237 -/
def ucs4ToLower (memo : Int) (ch : UCS4) : Res (UCS4 × Option Int) := caseConv unicodeToLower memo ch

/-- src/char_encoding.cpp:242-252. `m` is the value of UCS4ToUpper's memo when that is called. -/
def ucs4ToTitle (m : Int) (ch : UCS4) : Res UCS4 :=
  match unicodeToTitle.find? (fun e => ch.toNat == e.1) with
  | some e => .ok (addDelta ch e.2)
  | none => do
    let r ← ucs4ToUpper m ch
    .ok r.1

/-- src/char_encoding.cpp:19-46. `mu` and `ml` are the values of the two memos when read. -/
def ucs4IsAlphabetic (mu ml : Int) (ch : UCS4) : Res Bool := do
  let u ← ucs4ToUpper mu ch
  if u.1 != ch then .ok true
  else do
    let l ← ucs4ToLower ml ch
    if l.1 != ch then .ok true
    else do
      let (found, _) ← bsLoop unicodeNoCaseConvLetters ch.toNat 0 ((unicodeNoCaseConvLetters.length : Int) - 1)
      .ok found

/-- src/char_encoding.cpp:69-95 -/
def ucs4DigitRanges : List (Nat × Nat) := [
  (0x0030, 0x0039), (0x0660, 0x0669), (0x06F0, 0x06F9), (0x0966, 0x096F), (0x09E6, 0x09EF), (0x0A66, 0x0A6F),
  (0x0AE7, 0x0AEF), (0x0B66, 0x0B6F), (0x0BE6, 0x0BEF), (0x0C66, 0x0C6F), (0x0CE6, 0x0CEF), (0x0D66, 0x0D6F),
  (0x0E50, 0x0E59), (0x0ED0, 0x0ED9), (0x0F20, 0x0F29), (0x1040, 0x1049), (0x1369, 0x1371), (0x17E0, 0x17E9),
  (0x1810, 0x1819), (0xFF10, 0xFF19)]

/-- The special cases after the loop, src/char_encoding.cpp:125-130 -/
def digitSpecial (ch : Nat) : Int :=
  if ch == 0x3007 then 0
  else if ch ≥ 0x3021 && ch ≤ 0x3029 then (ch : Int) - 0x3020
  else -1

/-- The loop of src/char_encoding.cpp:111-124, `i` being the index of the head of the list. -/
def digitLoop (ch : Nat) : List (Nat × Nat) → Int → Int × Option Int
  | [], _ => (digitSpecial ch, none)
  | r :: rs, i =>
    if ch < r.1 then (-1, none)
    else if ch ≤ r.2 then (9 - ((r.2 : Int) - ch), some i)
    else digitLoop ch rs (i + 1)

/-- src/char_encoding.cpp:98-131. Simplification: `9-(rp->high - ch)` is computed in Int; `high - ch` is in 0..9. -/
def ucs4Digit (memo : Int) (ch : UCS4) : Res (Int × Option Int) := do
  let r ← rdI ucs4DigitRanges memo
  if ch.toNat ≥ r.1 && ch.toNat ≤ r.2 then .ok (9 - ((r.2 : Int) - ch.toNat), none)
  else .ok (digitLoop ch.toNat ucs4DigitRanges 0)

/-- src/char_encoding.cpp:133-144 -/
def ucs4HexDigit (memo : Int) (ch : UCS4) : Res Int := do
  let d ← ucs4Digit memo ch
  if d.1 ≥ 0 then .ok d.1
  else if ch.toNat ≥ 0x41 && ch.toNat ≤ 0x46 then .ok ((ch.toNat : Int) - 0x41 + 10)
  else if ch.toNat ≥ 0x61 && ch.toNat ≤ 0x66 then .ok ((ch.toNat : Int) - 0x61 + 10)
  else .ok (-1)

/-- include/char_encoding.h:58-59 -/
def asciiDigit (ch : UCS4) : Int :=
  if ch.toNat < 0x30 || ch.toNat > 0x39 then -1 else (ch.toNat : Int) - 0x30

/-- include/char_encoding.h:68-76 -/
def ucs4IsWhite (ch : UCS4) : Bool :=
  ch == 0x20#32 || ch == 0x09#32 || ch == 0x0A#32 || ch == 0x0D#32 || ch == 0x00A0#32
    || (ch.toNat ≥ 0x2000 && ch.toNat ≤ 0x200B) || (ch.toNat ≥ 0x2028 && ch.toNat ≤ 0x2029) || ch == 0x3000#32

/-! ### Concurrent use of the memo

The machine below runs any number of threads calling one memoised function. A call by thread `t` is two atomic events:
reading the memo, and finishing (which stores the memo, if the function does). -/

structure MemoState (α : Type) where
  /-- the `static std::atomic<int> last_memo`, initially zero (src/char_encoding.cpp:104, 154, 201) -/
  memo : Int
  /-- calls in progress: the thread, the argument, the value read from the memo -/
  pending : List (Nat × UCS4 × Int)
  /-- completed calls: argument and outcome -/
  log : List (UCS4 × Res α)

inductive MemoEvent
  | call (t : Nat) (ch : UCS4)
  | finish (t : Nat)

/-- One event; `f memo ch` is the memoised function. `finish t` completes the oldest pending call of `t`. -/
def MemoState.step {α : Type} (f : Int → UCS4 → Res (α × Option Int)) (s : MemoState α) : MemoEvent → MemoState α
  | .call t ch => { s with pending := s.pending ++ [(t, ch, s.memo)] }
  | .finish t =>
    match s.pending.find? (fun e => e.1 == t) with
    | none => s
    | some (_, ch, m) =>
      let pending := s.pending.eraseP (fun e => e.1 == t)
      match f m ch with
      | .error e => { s with pending, log := s.log ++ [(ch, .error e)] }
      | .ok (r, none) => { s with pending, log := s.log ++ [(ch, .ok r)] }
      | .ok (r, some m') => { memo := m', pending, log := s.log ++ [(ch, .ok r)] }

/-- Start of the program: the memo is zero. -/
def MemoState.init {α : Type} : MemoState α := ⟨0, [], []⟩

end Strpp
