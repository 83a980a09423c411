import Verif.Model.Utf8
/-!
Model of include/pegexp.h: PegexpPointerSource<const UTF8*, UCS4> and Pegexp<Context>.

A `PatternP` is a position in the pattern's bytes (the terminating NUL is one of them), a Source's `data` a position in the
text's bytes; reads outside are `Fault.ub`. `char` is signed. The template parameter Context, and the virtual functions a subclass
may override, are the fields of `Hooks`. Loops have a number of steps that is always enough (C36); so has the recursion of
match_atom, whose depth is the parameter called `n`.

Simplifications: `off_t` counts are natural numbers that do not overflow; a Source is never null.
The functions of <cctype> are glibc's in the "C" locale: a table for -128..255, with no letters or digits outside of ASCII.
-/
namespace Strpp.Pex

/-- include/pegexp.h:166-170 -/
structure Src where
  pos : Nat
  byteCount : Nat
  line : Nat
  col : Nat
deriving DecidableEq, Repr

/-- include/pegexp.h:110-115 -/
def Src.start : Src := ⟨0, 0, 1, 1⟩

/-- A `char` where an `int` or UCS4 is wanted -/
def sx (b : Byte) : UCS4 := b.signExtend 32

section
variable (text : List Byte)

/-- include/pegexp.h:143-144 -/
def atEof (s : Src) : Res Bool := do
  let b ← rd text s.pos
  .ok (b == 0#8)

/-- include/pegexp.h:145-146 -/
def atBol (s : Src) : Bool := s.col == 1

/-- include/pegexp.h:172-181 -/
def bump (s : Src) (c : UCS4) : Src :=
  if c == 0x0A#32 then { s with line := s.line + 1, col := 1 } else { s with col := s.col + 1 }

/-- include/pegexp.h:133-142 -/
def getChar (s : Src) : Res (UCS4 × Src) := do
  let e ← atEof text s
  if e then .ok (0xFFFFFFFF#32, s)
  else do
    let r ← utf8Get text s.pos
    .ok (r.1, bump { s with pos := r.2, byteCount := s.byteCount + (r.2 - s.pos) } r.1)

/-- include/pegexp.h:125-132: `bump_counts` gets a `char` -/
def getByte (s : Src) : Res (Byte × Src) := do
  let e ← atEof text s
  if e then .ok (0#8, s)
  else do
    let b ← rd text s.pos
    .ok (b, bump { s with pos := s.pos + 1, byteCount := s.byteCount + 1 } (sx b))

/-- `!at_eof() && f(get_char())`, and the source afterwards -/
def charIf (s : Src) (f : UCS4 → Bool) : Res (Bool × Src) := do
  let e ← atEof text s
  if e then .ok (false, s)
  else do
    let r ← getChar text s
    .ok (f r.1, r.2)

end

/-- include/pegexp.h:190-209 -/
structure St where
  pat : Nat
  src : Src
deriving DecidableEq, Repr

/-! ### Characters of the pattern -/

/-- include/pegexp.h:380-389 -/
def unhex (c : UCS4) : Int :=
  if 0x30 ≤ c.toNat && c.toNat ≤ 0x39 then (c.toNat : Int) - 0x30
  else if 0x41 ≤ c.toNat && c.toNat ≤ 0x46 then (c.toNat : Int) - 0x41 + 10
  else if 0x61 ≤ c.toNat && c.toNat ≤ 0x66 then (c.toNat : Int) - 0x61 + 10
  else -1

/-- `isalpha(c)` and the like: glibc's table, "C" locale -/
def ctype (f : Nat → Bool) (c : UCS4) : Res Bool :=
  if -128 ≤ c.toInt && c.toInt ≤ 255 then .ok (c.toNat < 128 && f c.toNat) else .error .ub

def isUpperA (n : Nat) : Bool := 0x41 ≤ n && n ≤ 0x5A
def isLowerA (n : Nat) : Bool := 0x61 ≤ n && n ≤ 0x7A
def isAlphaA (n : Nat) : Bool := isUpperA n || isLowerA n
def isDigitA (n : Nat) : Bool := 0x30 ≤ n && n ≤ 0x39
def isAlnumA (n : Nat) : Bool := isAlphaA n || isDigitA n
def isSpaceA (n : Nat) : Bool := (0x09 ≤ n && n ≤ 0x0D) || n == 0x20

/-- include/pegexp.h:408: an octal digit -/
def isOct (b : Byte) : Bool := 0x30 ≤ b.toNat && b.toNat ≤ 0x37

/-- include/pegexp.h:448: the special escapes and what they stand for -/
def specialEscape (c : UCS4) : UCS4 :=
  if c == 0x6E#32 then 0x0A#32
  else if c == 0x74#32 then 0x09#32
  else if c == 0x72#32 then 0x0D#32
  else if c == 0x62#32 then 0x08#32
  else if c == 0x65#32 then 0x1B#32
  else if c == 0x66#32 then 0x0C#32
  else c

section
variable (pat : List Byte)

/-- include/pegexp.h:408-411: `if (*pattern is octal) rc = (rc<<3) + *pattern++ - '0'` -/
def octDigit (rc : UCS4) (p : Nat) : Res (UCS4 × Nat) := do
  let b ← rd pat p
  if isOct b then .ok ((rc <<< 3) + sx b - 0x30#32, p + 1) else .ok (rc, p)

/-- include/pegexp.h:417-418, 433-434: an optional opening brace -/
def openBrace (p : Nat) : Res (Bool × Nat) := do
  let b ← rd pat p
  if b == 0x7B#8 then .ok (true, p + 1) else .ok (false, p)

/-- include/pegexp.h:427-428, 443-444 -/
def closeBrace (braces : Bool) (p : Nat) : Res Nat :=
  if braces then do
    let b ← rd pat p
    if b == 0x7D#8 then .ok (p + 1) else .ok p
  else .ok p

/-- include/pegexp.h:415-428, after `\x`. `rc` is unsigned, so that `rc < 0` is never true. -/
def hexEscape (p : Nat) : Res (UCS4 × Nat) := do
  let b ← rd pat p
  if b == 0#8 then .ok (0#32, p)
  else do
    let o ← openBrace pat p
    let b1 ← rd pat o.2
    let rc : UCS4 := BitVec.ofInt 32 (unhex (sx b1))
    let b2 ← rd pat (o.2 + 1)
    let second := unhex (sx b2)
    let r : UCS4 × Nat := if second ≥ 0 then ((rc <<< 4) ||| BitVec.ofInt 32 second, o.2 + 2) else (rc, o.2 + 1)
    let p ← closeBrace pat o.1 r.2
    .ok (r.1, p)

/-- The loop of include/pegexp.h:435-442, `i` steps from its end -/
def uniLoop : Nat → UCS4 → Nat → Res (UCS4 × Nat)
  | 0, rc, p => do
    let _ ← rd pat p
    .ok (rc, p)
  | i + 1, rc, p => do
    let b ← rd pat p
    if b == 0#8 then .ok (rc, p)
    else if unhex (sx b) < 0 then .ok (rc, p)
    else uniLoop i ((rc <<< 4) ||| BitVec.ofInt 32 (unhex (sx b))) (p + 1)

/-- include/pegexp.h:432-444, after `\u` -/
def uniEscape (p : Nat) : Res (UCS4 × Nat) := do
  let o ← openBrace pat p
  let r ← uniLoop pat (if o.1 then 8 else 4) 0#32 o.2
  let q ← closeBrace pat o.1 r.2
  .ok (r.1, q)

/-- include/pegexp.h:392-455: the character and the position after it -/
def literalChar (p : Nat) : Res (UCS4 × Nat) := do
  let b ← rd pat p
  if b == 0#8 then .ok (0#32, p)
  else if b != 0x5C#8 then .ok (sx b, p + 1)
  else do
    let c ← rd pat (p + 1)
    if isOct c then do
      let r ← octDigit pat (sx c - 0x30#32) (p + 2)
      octDigit pat r.1 r.2
    else if c == 0x78#8 then hexEscape pat (p + 2)
    else if c == 0x75#8 then uniEscape pat (p + 2)
    else .ok (specialEscape (sx c), p + 2)

/-- include/pegexp.h:457-472: `p` is at the character after the backslash -/
def charProperty (p : Nat) (ch : UCS4) : Res (Bool × Nat) := do
  let b ← rd pat p
  if b == 0x61#8 then do let r ← ctype isAlphaA ch; .ok (r, p + 1)
  else if b == 0x64#8 then do let r ← ctype isDigitA ch; .ok (r, p + 1)
  else if b == 0x68#8 then do
    let r ← ctype isDigitA ch
    .ok (r || ((0x61 ≤ ch.toNat && ch.toNat ≤ 0x66) || (0x41 ≤ ch.toNat && ch.toNat ≤ 0x46)), p + 1)
  else if b == 0x4C#8 then do let r ← ctype isLowerA ch; .ok (r, p + 1)
  else if b == 0x55#8 then do let r ← ctype isUpperA ch; .ok (r, p + 1)
  else if b == 0x73#8 then do let r ← ctype isSpaceA ch; .ok (r, p + 1)
  else if b == 0x77#8 then do let r ← ctype isAlnumA ch; .ok (r, p + 1)
  else if p == 0 then .error .ub
  else do
    let r ← literalChar pat (p - 1)
    .ok (r.1 == ch, r.2)

/-- One round of the loop of include/pegexp.h:488-512, `p` not at its end: whether it includes `ch`, and the position after it -/
def classItem (p : Nat) (ch : UCS4) : Res (Bool × Nat) := do
  let b ← rd pat p
  let esc ← rd pat (p + 1)
  let al ← ctype isAlphaA (sx esc)
  if b == 0x5C#8 && (al && (esc != 0x78#8 && esc != 0x75#8)) then charProperty pat (p + 1) ch
  else do
    let c1 ← literalChar pat p
    let h ← rd pat c1.2
    if h == 0x2D#8 then do
      let c2 ← literalChar pat (c1.2 + 1)
      .ok (c1.1.toNat ≤ ch.toNat && ch.toNat ≤ c2.1.toNat, c2.2)
    else .ok (ch == c1.1, c1.2)

/-- The loop of include/pegexp.h:488-512 -/
def classLoop (ch : UCS4) : Nat → Nat → Bool → Res (Bool × Nat)
  | 0, _, _ => .error .fuel
  | k + 1, p, inClass => do
    let b ← rd pat p
    if b == 0#8 || b == 0x5D#8 then .ok (inClass, p)
    else do
      let r ← classItem pat p ch
      classLoop ch k r.2 (inClass || r.1)

/-- include/pegexp.h:483-484, 770-771 -/
def caret (p : Nat) : Res (Bool × Nat) := do
  let b ← rd pat p
  if b == 0x5E#8 then .ok (true, p + 1) else .ok (false, p)

/-- include/pegexp.h:513-514, 781-782 -/
def closeClass (p : Nat) : Res Nat := do
  let b ← rd pat p
  if b == 0x5D#8 then .ok (p + 1) else .ok p

/-- include/pegexp.h:474-518: `st` is after the bracket -/
def charClass (text : List Byte) (st : St) : Res (Bool × St) := do
  let e ← atEof text st.src
  if e then .ok (false, st)
  else do
    let n ← caret pat st.pat
    let c ← getChar text st.src
    let r ← classLoop pat c.1 (pat.length + 1) n.2 false
    let p ← closeClass pat r.2
    .ok ((if n.1 then !r.1 else r.1), ⟨p, c.2⟩)

/-- include/pegexp.h:739-740, 827-828, include/peg.h:224-225: the end of a name -/
def nameEnd : Nat → Nat → Res Nat
  | 0, _ => .error .fuel
  | k + 1, p => do
    let b ← rd pat p
    let a ← ctype isAlnumA (sx b)
    if a || b == 0x5F#8 then nameEnd k (p + 1) else .ok p

/-- include/pegexp.h:742-743, 829-830 -/
def closeColon (p : Nat) : Res Nat := do
  let b ← rd pat p
  if b == 0x3A#8 then .ok (p + 1) else .ok p

/-- A label at `p`, if any (include/pegexp.h:736-743, 824-831): start and end of its name, and the position after it -/
def label (p : Nat) : Res (Option (Nat × Nat) × Nat) := do
  let b ← rd pat p
  if b == 0x3A#8 then do
    let e ← nameEnd pat (pat.length + 1) (p + 1)
    let q ← closeColon pat e
    .ok (some (p + 1, e), q)
  else .ok (none, p)

/-! ### skip_atom -/

/-- include/pegexp.h:772-780 -/
def skipClassLoop : Nat → Nat → Res Nat
  | 0, _ => .error .fuel
  | k + 1, p => do
    let b ← rd pat p
    if b == 0#8 || b == 0x5D#8 then .ok p
    else do
      let c1 ← literalChar pat p
      let h ← rd pat c1.2
      if h == 0x2D#8 then do
        let c2 ← literalChar pat (c1.2 + 1)
        skipClassLoop k c2.2
      else skipClassLoop k c1.2

/-- The loops of include/pegexp.h:786-787 and 793-794: skip atoms up to a byte in `stop`, with `skip` as skip_atom -/
def skipTo (skip : Nat → Res Nat) (stop : Byte → Bool) : Nat → Nat → Res Nat
  | 0, _ => .error .fuel
  | k + 1, p => do
    let b ← rd pat p
    if stop b then .ok p
    else do
      let q ← skip p
      skipTo skip stop k q

/-- A control character (include/pegexp.h:570, 817) or one of those listed at 685-692 and 803-810 -/
def isExtended (b : Byte) : Bool :=
  b == 0x7E#8 || b == 0x40#8 || b == 0x23#8 || b == 0x25#8 || b == 0x5F#8 || b == 0x3B#8 || b == 0x3C#8 || b == 0x60#8 ||
    (1 ≤ b.toNat && b.toNat < 0x20)

/-- include/pegexp.h:762-823, with `skip` for the recursive calls -/
def skipBody (skipExt : Nat → Res Nat) (skip : Nat → Res Nat) (p : Nat) : Res Nat := do
  let rc ← rd pat p
  if rc == 0x5C#8 then do
    let r ← literalChar pat p
    .ok r.2
  else if rc == 0x5B#8 then do
    let n ← caret pat (p + 1)
    let q ← skipClassLoop pat (pat.length + 1) n.2
    closeClass pat q
  else if rc == 0x28#8 then do
    let q ← skipTo pat skip (fun b => b == 0#8 || b == 0x29#8) (pat.length + 1) (p + 1)
    let b ← rd pat q
    if b != 0#8 then .ok (q + 1) else .ok q
  else if rc == 0x7C#8 then
    skipTo pat skip (fun b => b == 0x7C#8 || (b == 0x29#8 || b == 0#8)) (pat.length + 1) (p + 1)
  else if rc == 0x26#8 || rc == 0x21#8 then skip (p + 1)
  else if isExtended rc then skipExt p
  else .ok (p + 1)

/-- include/pegexp.h:760-833 -/
def skipAtom (skipExt : Nat → Res Nat) : Nat → Nat → Res Nat
  | 0, _ => .error .fuel
  | n + 1, p => do
    let q ← skipBody pat skipExt (skipAtom skipExt n) p
    let r ← label pat q
    .ok r.2

/-- include/pegexp.h:658-659 -/
def skipBars (skip : Nat → Res Nat) : Nat → Nat → Res Nat :=
  skipTo pat skip (fun b => b != 0x7C#8)

end

/-! ### Matching -/

/-- The members of a Context that Pegexp uses (include/pegexp.h:257-295): the two counters, and `data`, the rest -/
structure Cx (σ : Type) where
  disabled : Int
  nesting : Int
  data : σ

/-- What a Context and a subclass of Pegexp provide -/
structure Hooks (σ : Type) where
  count : σ → Int
  rollback : Int → σ → σ
  /-- name (start and end in the pattern), from, to, in_repetition -/
  capture : Nat × Nat → St → St → Bool → σ → Res σ
  /-- capture_disabled, op, op_end, location -/
  record : Int → Nat → Nat → Src → σ → Res σ
  /-- match_extended -/
  ext : St → Cx σ → Res (Bool × St × Cx σ)
  /-- skip_extended -/
  skipExt : Nat → Res Nat

/-- include/pegexp.h:526-532 -/
def matchLiteral {σ : Type} (pat text : List Byte) (st : St) (cx : Cx σ) : Res (Bool × St × Cx σ) := do
  let e ← atEof text st.src
  if e then .ok (false, st, cx)
  else do
    let b ← rd pat st.pat
    let c ← getChar text st.src
    if sx b == c.1 then .ok (true, ⟨st.pat + 1, c.2⟩, cx) else .ok (false, ⟨st.pat, c.2⟩, cx)

/-- PegexpDefaultContext (include/pegexp.h:257-295), and Pegexp's own match_extended and skip_extended (521-524, 755-758) -/
def defaultHooks (pat text : List Byte) : Hooks Unit where
  count := fun _ => 0
  rollback := fun _ d => d
  capture := fun _ _ _ _ d => .ok d
  record := fun _ _ _ _ d => .ok d
  ext := fun st cx => matchLiteral pat text st cx
  skipExt := fun p => .ok (p + 1)

/-- The result of match_atom and the like: matched, state, context -/
abbrev Out (σ : Type) := Bool × St × Cx σ

/-- include/pegexp.h:202-203 -/
def exprEnd (b : Byte) : Bool := b == 0#8 || b == 0x29#8

section
variable {σ : Type} (pat text : List Byte) (H : Hooks σ)

/-- `context->rollback_capture(count)` -/
def Cx.rollback (cx : Cx σ) (count : Int) : Cx σ := { cx with data := H.rollback count cx.data }

/-- include/pegexp.h:370-372 -/
def seqLoop (m : St → Cx σ → Res (Out σ)) : Nat → St → Cx σ → Res (Out σ)
  | 0, _, _ => .error .fuel
  | k + 1, st, cx => do
    let r ← m st cx
    if r.1 then do
      let b ← rd pat r.2.1.pat
      if exprEnd b then .ok r else seqLoop m k r.2.1 r.2.2
    else .ok r

/-- include/pegexp.h:363-378 -/
def matchSequence (m : St → Cx σ → Res (Out σ)) (st : St) (cx : Cx σ) : Res (Out σ) := do
  let b ← rd pat st.pat
  if exprEnd b then .ok (true, st, cx)
  else do
    let start := H.count cx.data
    let r ← seqLoop pat m (pat.length + 1) st cx
    if r.1 then .ok r else .ok (false, r.2.1, r.2.2.rollback H start)

/-- include/pegexp.h:651-654: the atoms of one alternate -/
def altAtoms (m : St → Cx σ → Res (Out σ)) : Nat → St → Cx σ → Res (Out σ)
  | 0, _, _ => .error .fuel
  | k + 1, st, cx => do
    let r ← m st cx
    if r.1 then do
      let b ← rd pat r.2.1.pat
      if exprEnd b || b == 0x7C#8 then .ok r else altAtoms m k r.2.1 r.2.2
    else .ok r

/-- include/pegexp.h:644-665: `next` is next_alternate; the result has start_state as well -/
def altLoop (m : St → Cx σ → Res (Out σ)) (skip : Nat → Res Nat) (initial : Int) :
    Nat → Nat → St → St → Cx σ → Res (Bool × St × St × Cx σ)
  | 0, _, _, _, _ => .error .fuel
  | k + 1, next, st, start, cx => do
    let b ← rd pat next
    if b == 0x7C#8 then do
      let start : St := ⟨next + 1, start.src⟩
      let r ← altAtoms pat m (pat.length + 1) start cx
      if r.1 then do
        let p ← skipBars pat skip (pat.length + 1) r.2.1.pat
        .ok (true, ⟨p, r.2.1.src⟩, start, r.2.2)
      else do
        let next ← skip next
        altLoop m skip initial k next r.2.1 start (r.2.2.rollback H initial)
    else .ok (false, st, start, cx)

/-- include/pegexp.h:607-624: `once` is max == 1, `rep` repeat_pattern -/
def repLoop (m : St → Cx σ → Res (Out σ)) (skip : Nat → Res Nat) (once : Bool) (rep : Nat) : Nat → St → Cx σ → Res (St × Cx σ)
  | 0, _, _ => .error .fuel
  | k + 1, st, cx => do
    let captures := H.count cx.data
    let r ← m ⟨rep, st.src⟩ cx
    if r.1 then
      if r.2.1.src.pos == st.src.pos || once then .ok (r.2.1, r.2.2)
      else repLoop m skip once rep k r.2.1 r.2.2
    else do
      let p ← skip r.2.1.pat
      .ok (⟨p, r.2.1.src⟩, r.2.2.rollback H captures)

/-- include/pegexp.h:599-606: with `+`, the first time -/
def repFirst (m : St → Cx σ → Res (Out σ)) (rc : Byte) (st : St) (cx : Cx σ) : Res (Out σ) :=
  if rc == 0x2B#8 then m st cx else .ok (true, st, cx)

/-- include/pegexp.h:594-628: `st` is after the operator `rc` -/
def repeatAtom (m : St → Cx σ → Res (Out σ)) (skip : Nat → Res Nat) (rc : Byte) (st : St) (cx : Cx σ) : Res (Out σ) := do
  let n : Int := if rc != 0x3F#8 then 1 else 0
  let cx := { cx with nesting := cx.nesting + n }
  let r ← repFirst m rc st cx
  if r.1 then do
    let q ← repLoop H m skip (rc == 0x3F#8) st.pat (text.length + 1) r.2.1 r.2.2
    .ok (true, q.1, { q.2 with nesting := q.2.nesting - n })
  else .ok (false, r.2.1, { r.2.2 with nesting := r.2.2.nesting - n })

/-- include/pegexp.h:547-697: matched, state, start_state, context; `start` is the state at the operator `rc` -/
def atomBody (m : St → Cx σ → Res (Out σ)) (skip : Nat → Res Nat) (rc : Byte) (start : St) (cx : Cx σ) :
    Res (Bool × St × St × Cx σ) :=
  let st : St := ⟨start.pat + 1, start.src⟩
  if rc == 0#8 then .ok (true, start, start, cx)
  else if rc == 0x29#8 then .ok (true, st, start, cx)
  else if rc == 0x5E#8 then .ok (atBol st.src, st, start, cx)
  else if rc == 0x24#8 then do
    let e ← atEof text st.src
    if e then .ok (true, st, start, cx)
    else do
      let c ← getChar text st.src
      .ok (c.1 == 0x0A#32, st, start, cx)
  else if rc == 0x2E#8 then do
    let r ← charIf text st.src (fun _ => true)
    .ok (r.1, ⟨st.pat, r.2⟩, start, cx)
  else if rc == 0x5C#8 then do
    let e ← atEof text st.src
    if e then .ok (false, st, start, cx)
    else do
      let c ← getChar text st.src
      let r ← charProperty pat st.pat c.1
      .ok (r.1, ⟨r.2, c.2⟩, start, cx)
  else if rc == 0x5B#8 then do
    let r ← charClass pat text st
    .ok (r.1, r.2, start, cx)
  else if rc == 0x3F#8 || (rc == 0x2A#8 || rc == 0x2B#8) then do
    let r ← repeatAtom text H m skip rc st cx
    .ok (r.1, r.2.1, start, r.2.2)
  else if rc == 0x28#8 then do
    let r ← matchSequence pat H m st cx
    if r.1 then do
      let b ← rd pat r.2.1.pat
      .ok (true, (if b != 0#8 then ⟨r.2.1.pat + 1, r.2.1.src⟩ else r.2.1), start, r.2.2)
    else .ok (false, r.2.1, start, r.2.2)
  else if rc == 0x7C#8 then
    altLoop pat H m skip (H.count cx.data) (pat.length + 1) start.pat st start cx
  else if rc == 0x26#8 || rc == 0x21#8 then do
    let r ← m st { cx with disabled := cx.disabled + 1 }
    let matched := if rc == 0x21#8 then !r.1 else r.1
    let cx := { r.2.2 with disabled := r.2.2.disabled - 1 }
    if matched then do
      let p ← skip start.pat
      .ok (true, ⟨p, start.src⟩, start, cx)
    else .ok (false, start, start, cx)
  else if isExtended rc then do
    let r ← H.ext start cx
    .ok (r.1, r.2.1, start, r.2.2)
  else do
    let r ← charIf text st.src (fun c => sx rc == c)
    .ok (r.1, ⟨st.pat, r.2⟩, start, cx)

/-- include/pegexp.h:709: operators whose failure is not reported; `strchr` finds the NUL too -/
def isComposite (rc : Byte) : Bool :=
  rc == 0x3F#8 || rc == 0x2A#8 || rc == 0x2B#8 || rc == 0x28#8 || rc == 0x7C#8 || rc == 0x26#8 || rc == 0x21#8 || rc == 0#8

/-- include/pegexp.h:698-732 -/
def failAtom (rc : Byte) (initial : Int) (st start : St) (cx : Cx σ) : Res (Out σ) := do
  let cx := cx.rollback H initial
  if isComposite rc then .ok (false, start, cx)
  else do
    let d ← H.record cx.disabled start.pat st.pat start.src cx.data
    .ok (false, start, { cx with data := d })

/-- include/pegexp.h:734-751 -/
def passAtom (st start : St) (cx : Cx σ) : Res (Out σ) := do
  let l ← label pat st.pat
  let st' : St := ⟨l.2, st.src⟩
  match l.1 with
  | some name =>
    if cx.disabled == 0 then do
      let d ← H.capture name start st' (decide (cx.nesting > 0)) cx.data
      .ok (true, st', { cx with data := d })
    else .ok (true, st', cx)
  | none => .ok (true, st', cx)

/-- include/pegexp.h:540-752, with `m` and `skip` for the recursive calls of match_atom and skip_atom -/
def atomStep (m : St → Cx σ → Res (Out σ)) (skip : Nat → Res Nat) (st : St) (cx : Cx σ) : Res (Out σ) := do
  let rc ← rd pat st.pat
  let r ← atomBody pat text H m skip rc st cx
  if r.1 then passAtom pat H r.2.1 r.2.2.1 r.2.2.2 else failAtom H rc (H.count cx.data) r.2.1 r.2.2.1 r.2.2.2

/-- include/pegexp.h:540-752. Every recursive call is further on in the pattern, so that its length bounds the depth. -/
def matchAtom : Nat → St → Cx σ → Res (Out σ)
  | 0, _, _ => .error .fuel
  | n + 1, st, cx => atomStep pat text H (matchAtom n) (skipAtom pat H.skipExt (pat.length + 1)) st cx

/-- include/pegexp.h:341-360: whether it matched, the state reached (or failed at), the context -/
def matchHere (src : Src) (cx : Cx σ) : Res (Out σ) := do
  let r ← matchSequence pat H (matchAtom pat text H (pat.length + 1)) ⟨0, src⟩ cx
  if r.1 then do
    let b ← rd pat r.2.1.pat
    .ok (b == 0#8, r.2)
  else .ok r

end

/-! ### The default Context -/

/-- include/pegexp.h:240-250 -/
structure Match where
  frm : St
  to : St
deriving DecidableEq, Repr

def Match.isFailure (pat : List Byte) (m : Match) : Res Bool := do
  let b ← rd pat m.frm.pat
  if b == 0#8 then .ok false else .ok (m.frm.pat == m.to.pat && m.frm.src.pos == m.to.src.pos)

/-- include/pegexp.h:264-267 -/
def Cx.default : Cx Unit := ⟨0, 0, ()⟩

/-- include/pegexp.h:341-360 with the default Context: the Match, and `source` afterwards -/
def Pegexp.matchHere (pat text : List Byte) (src : Src) : Res (Match × Src) := do
  let r ← Pex.matchHere pat text (defaultHooks pat text) src Cx.default
  if r.1 then .ok (⟨⟨0, src⟩, r.2.1⟩, r.2.1.src) else .ok (⟨r.2.1, r.2.1⟩, src)

/-- The loop of include/pegexp.h:323-337 -/
def Pegexp.matchLoop (pat text : List Byte) : Nat → Src → Res (Match × Src)
  | 0, _ => .error .fuel
  | k + 1, src => do
    let r ← Pegexp.matchHere pat text src
    let f ← r.1.isFailure pat
    if f then do
      let e ← atEof text src
      if e then .ok (⟨⟨0, src⟩, ⟨0, src⟩⟩, src)
      else do
        let c ← getChar text src
        Pegexp.matchLoop pat text k c.2
    else .ok (r.1, src)

/-- include/pegexp.h:318-339: the Match, and `source` afterwards -/
def Pegexp.match (pat text : List Byte) (src : Src) : Res (Match × Src) := Pegexp.matchLoop pat text (text.length + 1) src

end Strpp.Pex
