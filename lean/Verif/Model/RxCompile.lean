import Verif.Model.RxCode
import Verif.Model.StrInt
/-!
Model of the regular expression compiler, rx/rxcompile.cpp.

A `StrVal` is the list of its characters (C16-C20), encoded by `UTF8Put` where its bytes are used: a regular expression
with ill-formed UTF-8 is not covered. `re[i]` is NUL at the end and UCS4_NONE beyond it (include/strval.h:423-431).

`scanRegex` calls a callback with one token after another; it stops when the callback returns false. Here it produces
the list of the tokens it would send (with a mark where it sets `error_message` itself), and each pass runs over that
list until it returns false: both passes see the same list.
-/
namespace Strpp.Rx

/-! ### The scanner -/

/-- rx/strregex.h:17-51, the features the scanner asks about, and ZeroOrOneQuest (about which it never asks) -/
inductive Feature where
  | cEscapes | shorthand | octalChar | hexChar | unicodeChar | propertyChars | charClasses
  | zeroOrOneQuest | zeroOrMore | oneOrMore | countRepetition | alternates | group | capture | nonCapture | negLookahead
  | bol | eol | anyIsQuest | zeroOrMoreAny | extendedRE
  deriving DecidableEq, Repr

/-- The constructor's arguments, rx/rxcompile.cpp:57-64 -/
structure Cfg where
  features : Feature → Bool
  rejected : Feature → Bool

/-- `RxFeature::AllFeatures` with nothing rejected, the default arguments (rx/strregex.h:43 and 104): the options
above 0x00FFFFF are off -/
def Cfg.default : Cfg :=
  ⟨fun f => match f with | .anyIsQuest | .zeroOrMoreAny | .extendedRE => false | _ => true, fun _ => false⟩

/-- rx/rxcompile.cpp:81-84, with the mask of line 59 -/
def Cfg.enabled (c : Cfg) (f : Feature) : Bool := c.features f && !c.rejected f

/-- `RxToken`, rx/rxcompile.cpp:45-55 -/
inductive Tok where
  | start | bol | eol | any
  | lit (s : List UCS4)
  | prop (s : List UCS4)
  | cls (negated : Bool) (s : List UCS4)
  | group
  | capture (name : List UCS4)
  | negLook
  | endGroup
  | alternate
  | rep (min max : Nat)
  | accept
  deriving DecidableEq, Repr

/-- What `scanRegex` does as seen from outside: sends a token, or sets `error_message` and goes on -/
inductive Ev where
  | tok (t : Tok)
  | err (msg : String)
  deriving DecidableEq, Repr

/-- `re[i + k]`, for the suffix `s` of the regular expression at `i` (include/strval.h:423-431) -/
def peek (s : List UCS4) (k : Nat) : UCS4 :=
  if k = s.length then 0#32 else (s[k]?).getD 0xFFFFFFFF#32

/-- `StrVal::find(ch)` (C21): the index of the first occurrence -/
def findCh (ch : UCS4) : List UCS4 → Option Nat
  | [] => none
  | c :: s => if c == ch then some 0 else (findCh ch s).map (· + 1)

/-- rx/rxcompile.cpp:104-112 -/
def flush (delayed : List UCS4) : List Ev := if delayed.length > 0 then [.tok (.lit delayed)] else []

/-- `param.asInt32(&int_error, radix, &scanned)` (C31) -/
def number (s : List UCS4) (radix : Int) : Res SV.NumRes := do
  let σ ← SV.Str.ofBody (SV.staticBody (s.flatMap utf8Put ++ [0#8]))
  σ.asInt32 0 radix

/-- A character after which a literal cannot be extended: rx/rxcompile.cpp:290-294 and 423-427 -/
def isRepeat (ch : UCS4) : Bool := ch == 0x2A#32 || ch == 0x2B#32 || ch == 0x3F#32 || ch == 0x7B#32

/-- The outcome of one iteration of the loop rx/rxcompile.cpp:116-434: what was sent, the rest of the expression and
the literal not yet sent -/
abbrev Step := List Ev × List UCS4 × List UCS4

/-- rx/rxcompile.cpp:286-296 and 421-430: `ch` joins the pending literal, which is sent first if the next character
(`rest` begins with it) is a repetition -/
def literal (ch : UCS4) (rest delayed : List UCS4) : Step :=
  if isRepeat (peek rest 0) then (flush delayed, rest, [ch]) else ([], rest, delayed ++ [ch])

/-- `supported(f)` is false: the message it sets, if any (rx/rxcompile.cpp:70-79) -/
def rejects (cfg : Cfg) (f : Feature) : List Ev := if cfg.rejected f then [.err "Rejected feature"] else []

/-- `if (!supported(f)) goto simple_char; if (!(ok = flush())) break;` and then the tokens `ts` -/
def special (cfg : Cfg) (f : Feature) (ch : UCS4) (rest delayed : List UCS4) (st : Res Step) : Res Step :=
  if cfg.rejected f then
    let s := literal ch rest delayed
    .ok (rejects cfg f ++ s.1, s.2)
  else if cfg.features f then st
  else .ok (literal ch rest delayed)

/-- `RxToken(RxoRepetition, min, max)`: the `int`s become `uint16_t` (rx/rxcompile.cpp:54 and rx/strregex.h:88-92) -/
def repTok (min max : Int) : Ev := .tok (.rep (min % 65536).toNat (max % 65536).toNat)

/-- rx/rxcompile.cpp:183 and 195: an error other than "no digits" -/
def badCount (n : SV.NumRes) : Bool := n.err != 0#32 && n.err != ErrNum.mk 1#32 2#32

/-- rx/rxcompile.cpp:171-186: the first number of `{n,m}`; `none` is a bad repetition -/
def firstCount (r : List UCS4) (close : Nat) : Res (Option Int) :=
  if close > 0 then do
    let n ← number (r.take close) 10
    .ok (if badCount n || n.val < 0 then none else some n.val)
  else .ok (some 0)

/-- rx/rxcompile.cpp:165-203: after the `{` -/
def scanCount (r delayed : List UCS4) : Res Step := do
  let pre := flush delayed
  match (findCh 0x2C#32 r).or (findCh 0x7D#32 r) with
  | none => .ok (pre ++ [.err "Bad repetition count"], r.drop 1, [])
  | some close =>
    let mn ← firstCount r close
    match mn with
    | none => .ok (pre ++ [.err "Bad repetition count"], r.drop 1, [])
    | some mn =>
      if peek r close == 0x2C#32 then
        let r2 := r.drop (close + 1)
        match findCh 0x7D#32 r2 with
        | none => .ok (pre ++ [.err "Bad repetition count"], r2.drop 1, [])
        | some close2 => do
          let n ← number (r2.take close2) 10
          if badCount n || (n.val != 0 && n.val < mn) then .ok (pre ++ [.err "Bad repetition count"], r2.drop 1, [])
          else .ok (pre ++ [repTok mn n.val], r2.drop (close2 + 1), [])
      else .ok (pre ++ [repTok mn mn], r.drop (close + 1), [])

/-- `asInt32` of an escape: rx/rxcompile.cpp:219-227, 233-241 and 247-255. `r` is the text from the first digit. -/
def scanCode (radix : Int) (msg : String) (digits r delayed : List UCS4) : Res Step := do
  let n ← number digits radix
  if (n.err != 0#32 && n.err != ErrNum.mk 1#32 1#32) || n.scanned == 0 then .ok ([.err msg], r.drop 1, delayed)
  else .ok (literal (BitVec.ofInt 32 n.val) (r.drop n.scanned) delayed)

/-- rx/rxcompile.cpp:268-284: after `\p`; `r` begins with the `p` -/
def scanProp (r delayed : List UCS4) : Step :=
  if peek r 1 != 0x7B#32 then (flush delayed ++ [.err "Illegal Posix character specification"], r.drop 2, [])
  else match findCh 0x7D#32 (r.drop 2) with
    | some (close + 1) =>
      (flush delayed ++ [.tok (.prop ((r.drop 2).take (close + 1)))], (r.drop 2).drop (close + 2), [])
    | _ => (flush delayed ++ [.err "Illegal Posix character specification"], r.drop 2, [])

/-- `case 'b'` … `case 'r'`, rx/rxcompile.cpp:208-213 -/
def cEscape (ch : UCS4) : Option UCS4 :=
  if ch == 0x62#32 then some 0x08#32
  else if ch == 0x65#32 then some 0x1B#32
  else if ch == 0x66#32 then some 0x0C#32
  else if ch == 0x6E#32 then some 0x0A#32
  else if ch == 0x74#32 then some 0x09#32
  else if ch == 0x72#32 then some 0x0D#32
  else none

/-- rx/rxcompile.cpp:205-298: after the backslash; `r` begins with the escaped character -/
def scanEscape (cfg : Cfg) (r delayed : List UCS4) : Res Step :=
  let ch := peek r 0
  let simple : Res Step := .ok (literal ch (r.drop 1) delayed)
  match cEscape ch with
  | some c => if cfg.enabled .cEscapes then .ok (literal c (r.drop 1) delayed) else simple
  | none =>
    if 0x30 ≤ ch.toNat && ch.toNat ≤ 0x37 then
      if cfg.enabled .octalChar then scanCode 8 "Illegal octal character" (r.take 3) r delayed else simple
    else if ch == 0x78#32 then
      if cfg.enabled .hexChar then
        scanCode 16 "Illegal hexadecimal character" ((r.drop 1).take 2) (r.drop 1) delayed
      else simple
    else if ch == 0x75#32 then
      if cfg.enabled .unicodeChar then
        scanCode 16 "Illegal Unicode escape" ((r.drop 1).take 5) (r.drop 1) delayed
      else simple
    else if ch == 0x73#32 || ch == 0x64#32 || ch == 0x68#32 then
      if cfg.enabled .shorthand then .ok (flush delayed ++ [.tok (.prop [ch])], r.drop 1, []) else simple
    else if ch == 0x70#32 then
      if cfg.enabled .propertyChars then .ok (scanProp r delayed) else simple
    else simple

/-- The loop of rx/rxcompile.cpp:324-349 at the suffix `s` (`ch` is its first character): the string of ranges and the
text from the closing bracket, or the text where a bad class was found. -/
def classLoop : Nat → List UCS4 → List UCS4 → Bool × List UCS4 × List UCS4
  | 0, param, s => (false, param, s)
  | fuel + 1, param, s =>
    if peek s 0 == 0#32 then (false, param, s)
    else if peek s 0 == 0x5D#32 then (true, param, s)
    else
      -- an escaped character
      let s := if peek s 0 == 0x5C#32 then s.drop 1 else s
      if peek s 0 == 0#32 then (false, param, s)
      else
        let lo := peek s 0
        if peek s 1 == 0x2D#32 && peek s 2 != 0x5D#32 then
          let s := s.drop 2
          if peek s 0 == 0#32 then (false, param, s)
          else
            let s := if peek s 0 == 0x5C#32 then s.drop 1 else s
            if peek s 0 == 0#32 then (false, param, s)
            else classLoop fuel (param ++ [lo, peek s 0]) (s.drop 1)
        else classLoop fuel (param ++ [lo, lo]) (s.drop 1)

/-- rx/rxcompile.cpp:310-323: the beginning of a class, after the `[`: negated, the ranges so far, the rest -/
def classStart (r : List UCS4) : Bool × List UCS4 × List UCS4 :=
  let negated := peek r 0 == 0x5E#32
  let s := if negated then r.drop 1 else r
  if peek s 0 == 0x2D#32 || peek s 0 == 0x5D#32 then (negated, [peek s 0, peek s 0], s.drop 1) else (negated, [], s)

/-- rx/rxcompile.cpp:300-357 -/
def scanClass (r delayed : List UCS4) : Step :=
  let c := classStart r
  let l := classLoop (r.length + 1) c.2.1 c.2.2
  if l.1 then (flush delayed ++ [.tok (.cls c.1 l.2.1)], l.2.2.drop 1, [])
  else (flush delayed ++ [.err "Bad character class"], l.2.2.drop 1, [])

/-- rx/rxcompile.cpp:378-404: after `(?` -/
def scanParen (cfg : Cfg) (s : List UCS4) : List Ev × List UCS4 :=
  if cfg.enabled .capture && peek s 0 == 0x3C#32 then
    match findCh 0x3E#32 (s.drop 1) with
    | some (close + 1) => ([.tok (.capture ((s.drop 1).take (close + 1)))], (s.drop 1).drop (close + 2))
    | _ => ([.err "Invalid group name"], s.drop 2)
  else if cfg.enabled .nonCapture && peek s 0 == 0x3A#32 then (rejects cfg .capture ++ [.tok .group], s.drop 1)
  else if cfg.enabled .negLookahead && peek s 0 == 0x21#32 then
    (rejects cfg .capture ++ rejects cfg .nonCapture ++ [.tok .negLook], s.drop 1)
  else (rejects cfg .capture ++ rejects cfg .nonCapture ++ rejects cfg .negLookahead ++ [.err "Illegal group type"],
        s.drop 1)

/-- rx/rxcompile.cpp:43 and 370 -/
def Cfg.paren (cfg : Cfg) : Bool := cfg.enabled .capture || cfg.enabled .nonCapture || cfg.enabled .negLookahead

/-- rx/rxcompile.cpp:366-404: after the `(` -/
def scanOpen (cfg : Cfg) (r delayed : List UCS4) : Step :=
  if !cfg.paren || peek r 0 != 0x3F#32 then (flush delayed ++ [.tok .group], r, [])
  else
    let p := scanParen cfg (r.drop 1)
    (flush delayed ++ p.1, p.2, [])

/-- rx/rxcompile.cpp:416-418: white space in an extended expression, `r` follows it -/
def scanWhite (r delayed : List UCS4) : Step :=
  if peek r 0 == 0x23#32 then ([], (r.dropWhile (· != 0x0A#32)).drop 1, delayed) else ([], r, delayed)

/-- One iteration of rx/rxcompile.cpp:116-434: the character `ch`, followed by `r` -/
def scanStep (cfg : Cfg) (ch : UCS4) (r delayed : List UCS4) : Res Step :=
  let pre := flush delayed
  if ch == 0x5E#32 then special cfg .bol ch r delayed (.ok (pre ++ [.tok .bol], r, []))
  else if ch == 0x24#32 then special cfg .eol ch r delayed (.ok (pre ++ [.tok .eol], r, []))
  else if ch == 0x2E#32 then
    if cfg.enabled .anyIsQuest then .ok (literal ch r delayed) else .ok (pre ++ [.tok .any], r, [])
  else if ch == 0x3F#32 then
    .ok (pre ++ [if cfg.enabled .anyIsQuest then .tok .any else repTok 0 1], r, [])
  else if ch == 0x2A#32 then
    special cfg .zeroOrMore ch r delayed
      (.ok (pre ++ (if cfg.enabled .zeroOrMoreAny then [.tok .any] else []) ++ [repTok 0 0], r, []))
  else if ch == 0x2B#32 then special cfg .oneOrMore ch r delayed (.ok (pre ++ [repTok 1 0], r, []))
  else if ch == 0x7B#32 then special cfg .countRepetition ch r delayed (scanCount r delayed)
  else if ch == 0x5C#32 then scanEscape cfg r delayed
  else if ch == 0x5B#32 then special cfg .charClasses ch r delayed (.ok (scanClass r delayed))
  else if ch == 0x7C#32 then special cfg .alternates ch r delayed (.ok (pre ++ [.tok .alternate], r, []))
  else if ch == 0x28#32 then special cfg .group ch r delayed (.ok (scanOpen cfg r delayed))
  else if ch == 0x29#32 then
    if cfg.enabled .group then .ok (pre ++ [.tok .endGroup], r, []) else .ok (literal ch r delayed)
  else if (ch == 0x20#32 || ch == 0x09#32 || ch == 0x0A#32 || ch == 0x0D#32) && cfg.enabled .extendedRE then
    .ok (scanWhite r delayed)
  else .ok (literal ch r delayed)

/-- rx/rxcompile.cpp:116-436: the loop and the last `flush` -/
def scanLoop (cfg : Cfg) : Nat → List UCS4 → List UCS4 → Res (List Ev)
  | _, [], delayed => .ok (flush delayed)
  | 0, _ :: _, _ => .error .fuel
  | fuel + 1, ch :: r, delayed => do
    let s ← scanStep cfg ch r delayed
    let evs ← scanLoop cfg fuel s.2.1 s.2.2
    .ok (s.1 ++ evs)

/-- Was `error_message` set by the scanner? -/
def Ev.isErr : Ev → Bool
  | .err _ => true
  | .tok _ => false

/-- rx/rxcompile.cpp:92-443: everything sent when the callback always returns true; `RxoAccept` is sent only if no error
message was set (437-439) -/
def scan (cfg : Cfg) (re : List UCS4) : Res (List Ev) := do
  let evs ← scanLoop cfg re.length re []
  .ok (.tok .start :: evs ++ if evs.any Ev.isErr then [] else [.tok .accept])

/-- Running a callback over the tokens until it returns false (`none`); errors of the scanner do not stop it. The second
component is the value `scanRegex` returns. -/
def runPass {σ : Type} (f : σ → Tok → Res (Option σ)) : List Ev → σ → Res (σ × Bool)
  | [], s => .ok (s, true)
  | .err _ :: evs, s => do
    let r ← runPass f evs s
    .ok (r.1, false)
  | .tok t :: evs, s => do
    let r ← f s t
    match r with
    | none => .ok (s, false)
    | some s => runPass f evs s

/-! ### The first pass -/

/-- The kinds of group on the stack, `Stack::op` -/
inductive GKind where
  | start | group | capture | negLook
  deriving DecidableEq, Repr

/-- The variables of the first pass; `stack` (top first) has `op` and "no alternate seen yet" (`start` as a boolean) -/
structure P1 where
  bytes : Nat
  offsets : Nat
  stations : Nat
  maxNest : Nat
  names : List (List UCS4)
  repeatable : Bool
  stack : List (GKind × Bool)
  deriving DecidableEq, Repr

/-- rx/rxcompile.cpp:486-499 and 533 -/
def P1.init : P1 := ⟨0, 0, 0, 0, [], false, []⟩

/-- `push`, rx/rxcompile.cpp:517-531 -/
def P1.push (s : P1) (k : GKind) : Option P1 :=
  if s.stack.length ≥ maxNesting then none
  else some { s with stack := (k, true) :: s.stack, maxNest := max s.maxNest (s.stack.length + 1) }

/-- The number of UTF-8 bytes of a string -/
def numBytes (s : List UCS4) : Nat := (s.flatMap utf8Put).length

/-- `UTF8Len(n)` -/
def lenOf (n : Nat) : Nat := utf8LenCh (BitVec.ofNat 32 n)

/-- rx/rxcompile.cpp:501-508 -/
def P1.addString (s : P1) (str : List UCS4) : P1 := { s with bytes := s.bytes + lenOf (numBytes str) + numBytes str }

/-- rx/rxcompile.cpp:535-717, without the error messages. `tos()` of an empty stack is out of bounds. -/
def firstPass (s0 : P1) (t : Tok) : Res (Option P1) :=
  let s := { s0 with bytes := s0.bytes + 1, repeatable := false }
  match t with
  | .start =>
    let s := { s with bytes := s.bytes + 5, offsets := s.offsets + 3, stations := 0 }
    .ok (some ((s.push .start).getD s))
  | .accept => .ok (some { s with bytes := s.bytes + 4, offsets := s.offsets + 2, stations := s.stations + 1,
                                  stack := s.stack.drop 1 })
  | .lit str => .ok (some { s with bytes := s.bytes + str.length + numBytes str, stations := s.stations + numBytes str,
                                   repeatable := true })
  | .bol => .ok (some { s with stations := s.stations + 1 })
  | .eol => .ok (some { s with stations := s.stations + 1 })
  | .any => .ok (some { s with stations := s.stations + 1, repeatable := true })
  | .cls _ str => .ok (some (P1.addString { s with stations := s.stations + 1, repeatable := true } str))
  | .prop str => .ok (some (P1.addString { s with stations := s.stations + 1, repeatable := true } str))
  | .group => .ok (s.push .group)
  | .negLook => .ok ((P1.push { s with stations := s.stations + 1 } .negLook).map fun s => { s with offsets := s.offsets + 1 })
  | .capture name =>
    if s.names.length ≥ 254 then .ok none
    else if s.names.contains name then .ok none
    else .ok ((P1.push { s with names := s.names ++ [name] } .capture).map fun s =>
      P1.addString { s with bytes := s.bytes + 2 } name)
  | .endGroup =>
    match s.stack with
    | [] => .ok none
    | (.start, _) :: _ => .ok none
    | (.negLook, _) :: st => .ok (some { s with stack := st, repeatable := true })
    | (.group, _) :: st => .ok (some { s with bytes := s.bytes - 1, stack := st, repeatable := true })
    | (.capture, _) :: st => .ok (some { s with bytes := s.bytes - 1 + 2, stack := st, repeatable := true })
  | .alternate =>
    match s.stack with
    | [] => .error .ub
    | (k, true) :: st => .ok (some { s with bytes := s.bytes + 1, offsets := s.offsets + 3,
                                            stations := s.stations + 1, stack := (k, false) :: st })
    | (_, false) :: _ => .ok (some { s with bytes := s.bytes + 2, offsets := s.offsets + 3 })
  | .rep mn mx =>
    if !s0.repeatable then .ok none
    else if mn > 254 || mx > 254 then .ok none
    else if mn == 0 && mx == 0 then .ok (some { s with bytes := s.bytes + 1, offsets := s.offsets + 2 })
    else if mn == 0 && mx == 1 then .ok (some { s with offsets := s.offsets + 1 })
    else if mn == 1 && mx == 0 then .ok (some { s with offsets := s.offsets + 1 })
    else .ok (some { s with stations := s.stations + mn, bytes := s.bytes + 3, offsets := s.offsets + 1 })

/-! ### The second pass -/

/-- What the second pass knows from the first: rx/rxcompile.cpp:729-737 -/
structure Env where
  /-- `offset_max_bytes` -/
  omb : Nat
  /-- `bytes_required`, as finally computed; one byte more is allocated (740) -/
  bytes : Nat
  stations : Nat
  maxNest : Nat
  names : List (List UCS4)
  deriving DecidableEq, Repr

/-- rx/rxcompile.cpp:729-737 -/
def Env.of (s : P1) : Env :=
  let omb1 := lenOf (2 * (s.bytes + s.offsets * 4))
  let omb := lenOf (2 * (s.bytes + s.offsets * omb1))
  ⟨omb, s.bytes + s.offsets * lenOf (s.bytes + s.offsets * omb), s.stations, s.maxNest, s.names⟩

/-- `struct Stack`, rx/rxcompile.cpp:476-482 -/
structure Frame where
  kind : GKind
  groupNum : Nat
  start : Nat
  contents : Nat
  lastJump : Nat
  deriving DecidableEq, Repr

/-- The variables of the second pass: the bytes from `nfa` to `ep`, the stack (top first), `last_atom_start`,
`next_group` -/
structure P2 where
  buf : List Byte
  stack : List Frame
  lastAtom : Nat
  nextGroup : Nat
  deriving DecidableEq, Repr

/-- Storing bytes at `ep` and advancing it; past the allocation (`bytes_required+1`, line 740) it is undefined -/
def emit (e : Env) (b : List Byte) (bs : List Byte) : Res (List Byte) :=
  if b.length + bs.length ≤ e.bytes + 1 then .ok (b ++ bs) else .error .ub

/-- `emit_padded_offset`, rx/rxcompile.cpp:773-780. What `UTF8Put` might store beyond the reserved space is dead. -/
def paddedOffset (e : Env) (i : Int) : List Byte := (offsetBytes i ++ List.replicate e.omb 0#8).take e.omb

/-- `emit_string`, rx/rxcompile.cpp:783-792 -/
def stringBytes (s : List UCS4) : List Byte := utf8Put (BitVec.ofNat 32 (numBytes s)) ++ s.flatMap utf8Put

/-- `memmove` upwards to insert bytes at `loc`: rx/rxcompile.cpp:837-839 (and 1097-1098) -/
def insertAt (e : Env) (b : List Byte) (loc : Nat) (bs : List Byte) : Res (List Byte) :=
  if loc ≤ b.length ∧ b.length + bs.length ≤ e.bytes + 1 then .ok (b.take loc ++ bs ++ b.drop loc) else .error .ub

/-- `patch_value_at`, rx/rxcompile.cpp:794-811: the bytes and the shrinkage. A value that needs more than
`offset_max_bytes` makes the unsigned shrinkage wrap, and the `memmove` is undefined. -/
def patchValueAt (e : Env) (b : List Byte) (loc : Nat) (value : Int) : Res (List Byte × Nat) :=
  let bs := offsetBytes value
  if bs.length ≤ e.omb ∧ loc + e.omb ≤ b.length then
    .ok (b.take loc ++ bs ++ b.drop (loc + e.omb), e.omb - bs.length)
  else .error .ub

/-- `patch_offset`, rx/rxcompile.cpp:813-832 -/
def patchOffset (e : Env) (b : List Byte) (loc to_ : Nat) : Res (List Byte × Nat) :=
  let offset : Int := (to_ : Int) - loc
  let n := utf8LenCh (zigzag offset)
  patchValueAt e b loc (if n < e.omb ∧ loc < to_ then offset - (e.omb - n : Nat) else offset)

/-- `insert_split`, rx/rxcompile.cpp:834-842 -/
def insertSplit (e : Env) (b : List Byte) (loc : Nat) : Res (List Byte) :=
  insertAt e b loc (opSplit :: paddedOffset e 0)

/-- The loop of `fixup_alternates`, rx/rxcompile.cpp:859-876, for the jump whose offset is at `jump` -/
def fixupLoop (e : Env) (contents : Nat) : Nat → List Byte → Nat → Res (List Byte)
  | 0, _, _ => .error .fuel
  | fuel + 1, b, jump => do
    let prev ← getOffset b jump
    let op ← rdI b ((jump : Int) - 1)
    assert (op == opJump)
    let p ← patchOffset e b jump b.length
    let prevSplit : Int := if prev.1 ≠ 0 then jump + prev.1 + e.omb + 1 else contents + 1
    let op ← rdI p.1 (prevSplit - 1)
    assert (op == opSplit)
    let q ← patchOffset e p.1 prevSplit.toNat (jump + e.omb - p.2)
    if prev.1 = 0 then .ok q.1
    else do
      assert (prev.1 < 0)
      fixupLoop e contents fuel q.1 ((jump : Int) + prev.1).toNat

/-- `fixup_alternates`, rx/rxcompile.cpp:844-877 -/
def fixup (e : Env) (b : List Byte) (f : Frame) : Res (List Byte) :=
  if f.lastJump = 0 then .ok b else fixupLoop e f.contents (f.lastJump + 1) b f.lastJump

/-- `push`, rx/rxcompile.cpp:517-531: called just after the opcode was stored; `ep` is the length of `buf`. A push that
fails is ignored in the second pass. -/
def P2.push (s : P2) (k : GKind) (groupNum contents : Nat) (ep : Nat) : P2 :=
  if s.stack.length ≥ maxNesting then s
  else { s with stack := ⟨k, groupNum, ep - 1, contents, 0⟩ :: s.stack }

/-- the offsets of the two jumps of a `*`: the loop of rx/rxcompile.cpp:1068-1079; `n` is `ep - (last_atom_start+1)`.
Gives `rev_bytes` and `rev_delta`. -/
def starLoop (e : Env) (n : Nat) : Nat → Nat → Res (Nat × Int)
  | 0, _ => .error .fuel
  | fuel + 1, rev =>
    let delta : Int := n + rev
    let fwd := utf8LenCh (zigzag delta)
    let revDelta : Int := -((n : Int) + 1 - ((e.omb : Int) - fwd))
    let rev' := utf8LenCh (zigzag revDelta)
    if rev' < rev then starLoop e n fuel rev' else .ok (rev', revDelta)

/-- The names in the header: rx/rxcompile.cpp:908-909 -/
def emitStrings (e : Env) : List Byte → List (List UCS4) → Res (List Byte)
  | b, [] => .ok b
  | b, n :: ns => do
    let b ← emit e b (stringBytes n)
    emitStrings e b ns

/-- Setting `contents` of the top of the stack -/
def P2.setContents (s : P2) (c : Nat) : P2 :=
  match s.stack with
  | [] => s
  | f :: fs => { s with stack := { f with contents := c } :: fs }

/-- rx/rxcompile.cpp:899-915, the first token -/
def genStart (e : Env) (s : P2) : Res P2 := do
  let b ← emit e s.buf [opStart]
  let s : P2 := { s with stack := [] }
  let s := s.push .start s.nextGroup b.length b.length
  let b ← emit e b (paddedOffset e 0)
  let b ← emit e b (paddedOffset e 0)
  let b ← emit e b (offsetBytes e.stations)
  let b ← emit e b [BitVec.ofNat 8 e.maxNest, BitVec.ofNat 8 (e.names.length + 1), BitVec.ofNat 8 (e.names.length + 1)]
  let b ← emitStrings e b e.names
  let p ← patchOffset e b (1 + e.omb) b.length
  let b ← emit e p.1 [opCapStart, 1#8]
  .ok { s.setContents b.length with buf := b, nextGroup := s.nextGroup + 1 }

/-- rx/rxcompile.cpp:917-942, the last token -/
def genAccept (e : Env) (s : P2) : Res P2 :=
  match s.stack with
  | [] => .error .ub
  | f :: _ => do
    let b ← fixup e s.buf f
    let b ← emit e b [opAccept]
    let p ← patchOffset e b 1 b.length
    let cp := 1 + e.omb - p.2
    let o ← getOffset p.1 cp
    let start : Int := cp + o.1
    let at_ := p.1.length
    let b ← emit e p.1 [opSplit]
    let b ← emit e b (offsetBytes (start - b.length))
    let b ← emit e b [opAny, opJump]
    let b ← emit e b (offsetBytes ((at_ : Int) - b.length))
    .ok { s with buf := b }

/-- rx/rxcompile.cpp:985-1012, the end of a group; `last_atom_start` becomes its start -/
def genEnd (e : Env) (s : P2) : Res P2 :=
  match s.stack with
  | [] => .error .ub
  | f :: fs =>
    match f.kind with
    | .start => .error .assertion
    | .negLook => do
      let b ← fixup e s.buf f
      let b ← emit e b [opAccept]
      let p ← patchOffset e b (f.start + 1) b.length
      .ok { s with buf := p.1, stack := fs, lastAtom := f.start }
    | .group => do
      let b ← fixup e s.buf f
      .ok { s with buf := b, stack := fs, lastAtom := f.start }
    | .capture => do
      let b ← fixup e s.buf f
      let b ← emit e b [opCapEnd, BitVec.ofNat 8 f.groupNum]
      .ok { s with buf := b, stack := fs, lastAtom := f.start }

/-- rx/rxcompile.cpp:1014-1044, an alternate -/
def genAlternate (e : Env) (s : P2) : Res P2 :=
  match s.stack with
  | [] => .error .ub
  | f :: fs =>
    if f.lastJump = 0 then do
      let b ← insertSplit e s.buf f.contents
      let b ← emit e b [opJump]
      let j := b.length
      let b ← emit e b (paddedOffset e 0)
      .ok { s with buf := b, stack := { f with lastJump := j } :: fs }
    else do
      let b ← insertSplit e s.buf (f.lastJump + e.omb)
      let b ← emit e b [opJump]
      let j := b.length
      let b ← emit e b (paddedOffset e ((f.lastJump : Int) - j))
      .ok { s with buf := b, stack := { f with lastJump := j } :: fs }

/-- rx/rxcompile.cpp:1046-1107, a repetition of the last atom -/
def genRep (e : Env) (s : P2) (mn mx : Nat) : Res P2 :=
  let a := s.lastAtom
  if mn == 0 && mx == 0 then do
    let b ← insertSplit e s.buf a
    let b ← emit e b [opJump]
    let r ← starLoop e (b.length - (a + 1)) 8 e.omb
    let p ← patchOffset e b (a + 1) (b.length + r.1)
    let b ← emit e p.1 (offsetBytes r.2)
    .ok { s with buf := b }
  else if mn == 0 && mx == 1 then do
    let b ← insertSplit e s.buf a
    let p ← patchOffset e b (a + 1) b.length
    .ok { s with buf := p.1 }
  else if mn == 1 && mx == 0 then do
    let b ← emit e s.buf [opSplit]
    let b ← emit e b (offsetBytes ((a : Int) - b.length))
    .ok { s with buf := b }
  else do
    let b ← insertAt e s.buf a [opZero]
    let b ← emit e b [opCount, BitVec.ofNat 8 (mn + 1), BitVec.ofNat 8 (mx + 1)]
    let b ← emit e b (offsetBytes ((a : Int) + 1 - b.length))
    .ok { s with buf := b }

/-- The literal loop of rx/rxcompile.cpp:953-957 -/
def litBytes (str : List UCS4) : List Byte := str.flatMap fun c => opChar :: utf8Put c

/-- The switch of rx/rxcompile.cpp:887-1108. Each case stores its opcode first (886); where the code then removes it
again (`ep--`) the model does not store it, (it is inside the allocation: the assertion of line 1109 left room for it). The
cases which set `this_atom_start` to something else than `ep` at the beginning return it in `lastAtom`. -/
def gen (e : Env) (s : P2) (t : Tok) : Res P2 :=
  let s' : P2 := { s with lastAtom := s.buf.length }
  match t with
  | .start => do let r ← genStart e s'; .ok r
  | .accept => genAccept e s'
  | .bol => do let b ← emit e s.buf [opBOL]; .ok { s' with buf := b }
  | .eol => do let b ← emit e s.buf [opEOL]; .ok { s' with buf := b }
  | .any => do let b ← emit e s.buf [opAny]; .ok { s' with buf := b }
  | .lit str => do let b ← emit e s.buf (litBytes str); .ok { s' with buf := b }
  | .prop str => do let b ← emit e s.buf (opProp :: stringBytes str); .ok { s' with buf := b }
  | .cls neg str => do
    let b ← emit e s.buf ((if neg then opNegClass else opClass) :: stringBytes str)
    .ok { s' with buf := b }
  | .group => .ok (s'.push .group 0 s.buf.length (s.buf.length + 1))
  | .capture _ => do
    let b ← emit e s.buf [opCapStart, BitVec.ofNat 8 (s.nextGroup + 1)]
    .ok (P2.push { s' with buf := b, nextGroup := s.nextGroup + 1 } .capture (s.nextGroup + 1) b.length (s.buf.length + 1))
  | .negLook => do
    let b ← emit e s.buf (opNegLook :: paddedOffset e 0)
    .ok (P2.push { s' with buf := b } .negLook 0 b.length (s.buf.length + 1))
  | .endGroup => genEnd e s
  | .alternate => genAlternate e s'
  | .rep mn mx => do
    let r ← genRep e s mn mx
    .ok { r with lastAtom := s.buf.length }

/-- rx/rxcompile.cpp:882-1112 -/
def secondPass (e : Env) (s : P2) (t : Tok) : Res (Option P2) := do
  let s ← gen e s t
  assert (s.buf.length < e.bytes)
  .ok (some s)

/-- rx/rxcompile.cpp:471-1137: the NFA, or `none` if `compile` returns false. The NFA is the used part of the
allocation. -/
def compile (cfg : Cfg) (re : List UCS4) : Res (Option (List Byte)) := do
  let evs ← scan cfg re
  let p1 ← runPass firstPass evs P1.init
  if !p1.2 || p1.1.stack.length > 0 then .ok none
  else do
    let e := Env.of p1.1
    let p2 ← runPass (secondPass e) evs ⟨[], [], 0, 0⟩
    if p2.2 then do
      let b ← emit e p2.1.buf [opNull]
      .ok (some b)
    else .ok none

end Strpp.Rx
