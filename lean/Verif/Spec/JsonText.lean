import Verif.Spec.Json
/-! JSON texts (RFC 8259, sections 2-7), decoded. Characters are code points. Numbers are integers, without fraction or
exponent; `true` and `false` are left out (nothing here writes them). `none` is what is not JSON in this sense. -/
namespace Strpp.Spec

inductive JVal where
  | null
  | num (n : Int)
  | str (t : List Nat)
  | arr (a : List JVal)
  | obj (m : List (List Nat × JVal))

/-- white space -/
def isJsonWs (c : Nat) : Bool := c == 0x20 || c == 0x09 || c == 0x0A || c == 0x0D

def skipJsonWs (t : List Nat) : List Nat := t.dropWhile isJsonWs

/-- The text up to the closing quote, and what follows this. A backslash makes the next character part of the text. -/
def closeQuote : List Nat → Option (List Nat × List Nat)
  | [] => none
  | c :: rest =>
    if c = 0x22 then some ([], rest)
    else if c = 0x5C then
      match rest with
      | [] => none
      | e :: rest => (closeQuote rest).map fun r => (c :: e :: r.1, r.2)
    else (closeQuote rest).map fun r => (c :: r.1, r.2)

def isJsonDigit (c : Nat) : Bool := 0x30 ≤ c && c ≤ 0x39

/-- An integer: its digits are not empty, and begin with 0 only for "0" itself. -/
def jsonDigits (t : List Nat) : Option (Nat × List Nat) :=
  let ds := t.takeWhile isJsonDigit
  if ds = [] ∨ (ds.head? = some 0x30 ∧ ds.length ≠ 1) then none
  else some (ds.foldl (fun n d => n * 10 + (d - 0x30)) 0, t.dropWhile isJsonDigit)

mutual
/-- A value at the start of the text, and what follows it; the first argument bounds the number of steps. -/
def jsonValue : Nat → List Nat → Option (JVal × List Nat)
  | 0, _ => none
  | n + 1, t =>
    match skipJsonWs t with
    | [] => none
    | c :: r =>
      if c = 0x22 then do
        let q ← closeQuote r
        let s ← jsonString q.1
        some (.str s, q.2)
      else if c = 0x2D then (jsonDigits r).map fun d => (.num (-(d.1 : Int)), d.2)
      else if c = 0x5B then
        match skipJsonWs r with
        | 0x5D :: r => some (.arr [], r)
        | r => (jsonElements n r).map fun a => (.arr a.1, a.2)
      else if c = 0x7B then
        match skipJsonWs r with
        | 0x7D :: r => some (.obj [], r)
        | r => (jsonPairs n r).map fun m => (.obj m.1, m.2)
      else if c = 0x6E then
        match r with
        | 0x75 :: 0x6C :: 0x6C :: r => some (.null, r)
        | _ => none
      else (jsonDigits (c :: r)).map fun d => (.num d.1, d.2)

/-- The elements of an array, and what follows the closing bracket. -/
def jsonElements : Nat → List Nat → Option (List JVal × List Nat)
  | 0, _ => none
  | n + 1, t => do
    let v ← jsonValue n t
    match skipJsonWs v.2 with
    | 0x2C :: r => (jsonElements n r).map fun a => (v.1 :: a.1, a.2)
    | 0x5D :: r => some ([v.1], r)
    | _ => none

/-- The members of an object, and what follows the closing brace. -/
def jsonPairs : Nat → List Nat → Option (List (List Nat × JVal) × List Nat)
  | 0, _ => none
  | n + 1, t =>
    match skipJsonWs t with
    | 0x22 :: r => do
      let q ← closeQuote r
      let k ← jsonString q.1
      match skipJsonWs q.2 with
      | 0x3A :: r => do
        let v ← jsonValue n r
        match skipJsonWs v.2 with
        | 0x2C :: r => (jsonPairs n r).map fun m => ((k, v.1) :: m.1, m.2)
        | 0x7D :: r => some ([(k, v.1)], r)
        | _ => none
      | _ => none
    | _ => none
end

/-- What a JSON text denotes. -/
def jsonText (t : List Nat) : Option JVal :=
  match jsonValue (2 * t.length + 1) t with
  | some (v, r) => if skipJsonWs r = [] then some v else none
  | none => none

end Strpp.Spec
