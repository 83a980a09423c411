import Verif.Spec.Utf8
/-!
What a source is, without pointers and counts: the reads made on it (or on the source that it was copied from, before the copy).
-/
namespace Strpp.Spec

inductive Read where
  | byte | char
deriving DecidableEq, Repr

/-- What the next read takes from the rest of the text: a value, and a number of bytes. `narrow`: characters are bytes. -/
def taken (narrow : Bool) : Read → List Byte → Option (UCS4 × Nat)
  | _, [] => none
  | .byte, b :: _ => some (b.signExtend 32, 1)
  | .char, b :: rest => if narrow then some (b.signExtend 32, 1) else decode1 (b :: rest)

/-- Everything that a list of reads takes from a text. A read at the end takes nothing. -/
def trace (narrow : Bool) : List Byte → List Read → List (UCS4 × Nat)
  | _, [] => []
  | t, r :: rs =>
    match taken narrow r t with
    | none => trace narrow t rs
    | some x => x :: trace narrow (t.drop x.2) rs

/-- How many bytes that is -/
def traceBytes (tr : List (UCS4 × Nat)) : Nat := (tr.map Prod.snd).sum

/-- The line where the next character is: the first is line 1 -/
def traceLine (tr : List (UCS4 × Nat)) : Nat := 1 + (tr.map Prod.fst).count 0x0A#32

/-- The place of the next character in its line: the first is 1 -/
def traceCol (tr : List (UCS4 × Nat)) : Nat := 1 + ((tr.map Prod.fst).reverse.takeWhile (· ≠ 0x0A#32)).length

/-- What a user does with sources for one text -/
inductive SrcOp where
  | null
  | start
  | copy (v : Nat)
  | assign (v w : Nat)
  | read (v : Nat) (r : Read)
deriving DecidableEq, Repr

/-- Sources are values: `none` is the null source, otherwise the reads made. `none` for the whole: a variable that does not exist is used. -/
def srcRun : List (Option (List Read)) → List SrcOp → Option (List (Option (List Read)))
  | vs, [] => some vs
  | vs, .null :: os => srcRun (vs ++ [none]) os
  | vs, .start :: os => srcRun (vs ++ [some []]) os
  | vs, .copy v :: os => match vs[v]? with
    | none => none
    | some x => srcRun (vs ++ [x]) os
  | vs, .assign v w :: os => match vs[v]?, vs[w]? with
    | some _, some x => srcRun (vs.set v x) os
    | _, _ => none
  | vs, .read v r :: os => match vs[v]? with
    | none => none
    | some x => srcRun (vs.set v (x.map (· ++ [r]))) os

end Strpp.Spec
