import Verif.Model.StrBody
/-!
Model of several threads reading copies of one string (include/strval.h): the const members `operator[]` (423-431),
`numBytes` (415-420) and `asUTF8(bytes)` (439-445), each of which calls `nthChar(char_num) const` (768-774) and so
`StrBodyI::nthChar` (109-177), `numChars` (99-106) and `countChars` (249-265).

Every thread has a StrVal of its own (its slice and its bookmark, which the const members only copy), all of them share one
body. In the body the bytes do not change, but `num_chars` does: this is the memory the threads share. One step of a thread
runs to its next access of `num_chars`, and `num_chars++` (264) is two: a load and a store. Simplifications: as in
Model/StrBody.lean StrRawBinary bodies are not modelled; the two tests at 117 and 119 are one step (the value of `num_chars`
is not tested at 117 when the body is not raw binary); the compiler keeps the order of accesses.
-/
namespace Strpp.SP

open Arr (wrap readN)
open SV

/-- The calls: include/strval.h:423, 415 and 439 -/
inductive Call where
  | get (i : Int)
  | numBytes
  | bytes
deriving DecidableEq, Repr

/-- What a call returns -/
inductive Val where
  | char (c : UCS4)
  | num (n : Nat)
  | data (l : List Byte)
deriving DecidableEq, Repr

/-- The characters looked for by a call, in order: include/strval.h:427, 417 and 419, 441 and 442 -/
def Call.ks (num : Nat) : Call → List Nat
  | .get i => if wrap i == num then [] else [wrap i]
  | .numBytes => [num, 0]
  | .bytes => [0, num]

/-- What a call does with the pointers found: include/strval.h:425-430, 418-419, 443-444 -/
def Call.final (arr : Arr.Body Byte) : Call → List (Option Nat) → Res Val
  | .get _, [] => .ok (.char 0#32)
  | .get _, none :: _ => .ok (.char 0xFFFFFFFF#32)
  | .get _, some p :: _ => do
    let r ← utf8Get arr.mem p
    .ok (.char r.1)
  | .numBytes, [ep, cp] => do
    assert ep.isSome
    let ep ← deref ep
    let cp ← deref cp
    .ok (.num (ep - cp))
  | .bytes, [cp, ep] => do
    let cp ← deref cp
    let ep ← deref ep
    let l ← readN arr.mem cp (ep - cp)
    .ok (.data l)
  | _, _ => .error .ub

/-- Within a call: the characters still to look for, and what was found for those before. Where it is in `nthChar`:
`look` at 770-772 and 117-119, `test` at 103, `scan` at 256, `load` and `store` in 264, `found` at 105 and 123-176. -/
inductive Pos where
  | idle
  | look (ks : List Nat) (got : List (Option Nat))
  | test (k : Nat) (ks : List Nat) (got : List (Option Nat))
  | scan (cp : Nat) (k : Nat) (ks : List Nat) (got : List (Option Nat))
  | load (cp : Nat) (k : Nat) (ks : List Nat) (got : List (Option Nat))
  | store (n : Nat) (cp : Nat) (k : Nat) (ks : List Nat) (got : List (Option Nat))
  | found (k : Nat) (ks : List Nat) (got : List (Option Nat))
deriving DecidableEq, Repr

/-- A thread: its string (include/strval.h:360-362, 785), the calls it still makes (the first is the one it is in, unless it
is idle), what its calls returned, and the fault that stopped it -/
structure Thread where
  off : Nat
  num : Nat
  mark : Mark
  todo : List Call
  at_ : Pos
  out : List Val
  dead : Option Fault
deriving DecidableEq, Repr

/-- The threads and the body they share: its array, and `num_chars` (include/strval.h:248) -/
structure State where
  arr : Arr.Body Byte
  nc : Nat
  ts : List Thread
deriving DecidableEq, Repr

/-- The end of a call -/
def Thread.finish (arr : Arr.Body Byte) (t : Thread) (got : List (Option Nat)) : Thread :=
  match t.todo with
  | [] => t
  | c :: cs =>
    match c.final arr got with
    | .ok v => { t with todo := cs, at_ := .idle, out := t.out ++ [v] }
    | .error f => { t with dead := some f }

/-- One step of a thread, with the value of `num_chars` it leaves. -/
def Thread.step (arr : Arr.Body Byte) (nc : Nat) (t : Thread) : Nat × Thread :=
  match t.at_ with
  | .idle =>
    match t.todo with
    | [] => (nc, t)
    | c :: _ => (nc, { t with at_ := .look (c.ks t.num) [] })
  | .look [] got => (nc, t.finish arr got)
  | .look (k :: ks) got =>
    if k > t.num then (nc, { t with at_ := .look ks (got ++ [none]) })
    else if t.off + k == 0 || nc == arr.num - 1 then (nc, { t with at_ := .look ks (got ++ [some (t.off + k)]) })
    else (nc, { t with at_ := .test k ks got })
  | .test k ks got =>
    if nc == 0 && arr.num > 0 then (nc, { t with at_ := .scan 0 k ks got })
    else (nc, { t with at_ := .found k ks got })
  | .scan cp k ks got =>
    if cp < arr.num - 1 then
      match utf8Get arr.mem cp with
      | .error f => (nc, { t with dead := some f })
      | .ok r =>
        if r.1 == 0xFFFFFFFF#32 || r.2 > arr.num - 1 then (nc, { t with at_ := .found k ks got })
        else (nc, { t with at_ := .load r.2 k ks got })
    else (nc, { t with at_ := .found k ks got })
  | .load cp k ks got => (nc, { t with at_ := .store (nc + 1) cp k ks got })
  | .store n cp k ks got => (n, { t with at_ := .scan cp k ks got })
  | .found k ks got =>
    if t.off + k > nc then (nc, { t with dead := some .assertion })
    else
      match searchChar ⟨arr, nc⟩ (t.off + k) (searchFrom ⟨arr, nc⟩ (t.off + k) t.mark) with
      | .error f => (nc, { t with dead := some f })
      | .ok p => (nc, { t with at_ := .look ks (got ++ [p]) })

/-- Thread `i` takes a step, if there is such a thread and no fault stopped it. -/
def State.tick (s : State) (i : Nat) : State :=
  match s.ts[i]? with
  | none => s
  | some t =>
    if t.dead.isSome then s
    else { s with nc := (t.step s.arr s.nc).1, ts := s.ts.set i (t.step s.arr s.nc).2 }

/-- The threads take steps in this order. -/
def State.run (s : State) (sched : List Nat) : State := sched.foldl State.tick s

/-- A thread with the string `σ`, about to make these calls -/
def Thread.new (σ : Str) (calls : List Call) : Thread := ⟨σ.off, σ.num, σ.mark, calls, .idle, [], none⟩

/-- Threads, each with its string on the body `b` and the calls it makes -/
def State.new (b : SBody) (l : List (Str × List Call)) : State := ⟨b.arr, b.nc, l.map fun x => Thread.new x.1 x.2⟩

end Strpp.SP
