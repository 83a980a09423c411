import Verif.Model.Pegexp
import Verif.Model.Variant
import Verif.Model.CowMap
/-!
Model of include/peg.h and include/peg_ast.h: Peg<PegMemorySource, PegMatch, PegContext>.
(PegContextNoCapture, the default Context of Peg, does not compile: match_failure takes a Source and is given a State.)

A C string (name or pattern of a rule, name of a capture) is the list of its bytes without the NUL, which is appended where
the string is read. A `Rule*` is an index into the array of rules, a `PatternP` a position in the pattern of a rule: so two
rules with the same pattern are taken to have it at different addresses. Strings, arrays and maps are plain values, as in
Verif/Model/Variant.lean. `off_t` and `int` counts do not overflow. PEG_TRACE is not defined.
The depth of nested calls of rules is the parameter called `n`; that it is enough is part of C43.
-/
namespace Strpp.Pex

open Var (Variant)

/-- include/peg.h:28-31, include/peg_ast.h:94-100. `captures` is a null pointer (`none`) or an array ending in one. -/
structure Rule where
  name : List Byte
  pattern : List Byte
  captures : Option (List (List Byte))
deriving DecidableEq, Repr

/-- A C string as it is in memory -/
def cstr (s : List Byte) : List Byte := s ++ [0#8]

/-! ### <cstring>, <cstdlib> -/

/-- strncmp on two strings in memory: the difference of the first bytes that differ, as unsigned -/
def strncmp : Nat → List Byte → List Byte → Res Int
  | 0, _, _ => .ok 0
  | n + 1, a :: as, b :: bs => if a != b then .ok ((a.toNat : Int) - b.toNat) else if a == 0#8 then .ok 0 else strncmp n as bs
  | _ + 1, _, _ => .error .ub

/-- strcmp on two strings in memory -/
def strcmp : List Byte → List Byte → Res Int
  | a :: as, b :: bs => if a != b then .ok ((a.toNat : Int) - b.toNat) else if a == 0#8 then .ok 0 else strcmp as bs
  | _, _ => .error .ub

/-- strchr from position `p` on, `k` steps -/
def strchr (m : List Byte) (c : Byte) : Nat → Nat → Res (Option Nat)
  | 0, _ => .error .fuel
  | k + 1, p => do
    let b ← rd m p
    if b == c then .ok (some p) else if b == 0#8 then .ok none else strchr m c k (p + 1)

/-- strlen from position `p` on gives the position of the NUL here, `k` steps -/
def strend (m : List Byte) : Nat → Nat → Res Nat
  | 0, _ => .error .fuel
  | k + 1, p => do
    let b ← rd m p
    if b == 0#8 then .ok p else strend m k (p + 1)

/-- bsearch, as glibc has it: `lo` and `hi` are the bounds, `cmp` compares the key with an element -/
def bsearch {α : Type} (cmp : α → Res Int) (a : List α) : Nat → Nat → Nat → Res (Option Nat)
  | 0, _, _ => .error .fuel
  | k + 1, lo, hi =>
    if lo < hi then do
      let mid := (lo + hi) / 2
      let x ← rd a mid
      let c ← cmp x
      if c < 0 then bsearch cmp a k lo mid
      else if 0 < c then bsearch cmp a k (mid + 1) hi
      else .ok (some mid)
    else .ok none

/-! ### Peg -/

/-- The constructor, include/peg.h:246-254: qsort leaves the rules in some order that is sorted by strcmp of the names -/
def Sorted (supplied rules : List Rule) : Prop :=
  rules.Perm supplied ∧ rules.Pairwise (fun a b => ∃ c, strcmp (cstr a.name) (cstr b.name) = .ok c ∧ c ≤ 0)

/-- include/peg.h:280-289: `key` is the text from the rule name on -/
def compareKey (key : List Byte) (r : Rule) : Res Int := do
  let len := r.name.length
  let cval ← strncmp len key (cstr r.name)
  if cval == 0 then do
    let b ← rd key len
    if b != 0x3E#8 && b != 0#8 then .ok 1 else .ok 0
  else .ok cval

/-- include/peg.h:276-296 -/
def lookup (rules : List Rule) (key : List Byte) : Res (Option Nat) :=
  bsearch (compareKey key) rules (rules.length + 1) 0 rules.length

/-- include/peg_ast.h:102-110: `label` is the text from the label on -/
def isCaptured (r : Rule) (lab : List Byte) : Res Bool :=
  match r.captures with
  | none => .ok false
  | some cs => go cs
where
  go : List (List Byte) → Res Bool
    | [] => .ok false
    | c :: cs => do
      let x ← strncmp c.length (cstr c) lab
      if x == 0 then .ok true else go cs

/-! ### PegContext -/

/-- include/peg_ast.h:32-37 -/
structure Failure where
  /-- the rule whose pattern it is in, and the position -/
  atom : Nat × Nat
  len : Int
  path : List (List Byte)
deriving DecidableEq, Repr

/-- What is needed of the contexts above (include/peg_ast.h:253-257) -/
structure Frame where
  rule : Nat
  origin : Src
deriving DecidableEq, Repr

/-- include/peg_ast.h:253-269, apart from the two counters. `far`, `failures` and `path` are those of the root context;
furthermost_success of any other is its origin, because nothing changes it (207-209). -/
structure Ctx where
  rule : Nat
  origin : Src
  /-- the contexts above, the parent first; empty for the root -/
  parents : List Frame
  /-- capture_disabled of the root, if this is not the root -/
  rootDisabled : Int
  numCaptures : Int
  ast : List (List UCS4 × Variant)
  far : Src
  failures : List Failure
  path : List (List Byte)

/-- `operator<` of the keys of a StrVariantMap: by characters -/
def keyLt (a b : List UCS4) : Bool := decide (a.map BitVec.toNat < b.map BitVec.toNat)

/-- StrVal(bytes, length), as characters -/
def textOf (m : List Byte) (a e : Nat) : List UCS4 := Spec.decodeAll ((m.drop a).take (e - a))

/-- include/peg_ast.h:153-173, `num_captures` and `ast` afterwards -/
def captureValue (key : List UCS4) (value : Variant) (rep : Bool) (d : Ctx) : Ctx :=
  match value with
  | .string [] => d
  | value =>
    let ast :=
      match CM.mfind keyLt key d.ast with
      | some (.varArray a) => CM.minsert keyLt key (.varArray (a ++ [value])) (CM.merase keyLt key d.ast)
      | some v => CM.minsert keyLt key (.varArray [v, value]) (CM.merase keyLt key d.ast)
      | none => CM.minsert keyLt key (if rep then .varArray [value] else value) d.ast
    { d with ast := ast, numCaptures := d.numCaptures + 1 }

/-- include/peg_ast.h:181-192; the message is not modelled -/
def rollbackCapture (count : Int) (d : Ctx) : Ctx :=
  if count ≥ d.numCaptures then d
  else if count == 0 then { d with ast := [], numCaptures := 0 }
  else d

/-- include/peg_ast.h:203-204: the operators whose failure is not recorded; `strchr` finds the NUL too -/
def isPegexpOp (b : Byte) : Bool :=
  b == 0#8 || b == 0x7E#8 || b == 0x40#8 || b == 0x23#8 || b == 0x25#8 || b == 0x5F#8 || b == 0x3B#8 || b == 0x3C#8 || b == 0x60#8 ||
  b == 0x29#8 || b == 0x5E#8 || b == 0x24#8 || b == 0x2E#8 || b == 0x5C#8 || b == 0x3F#8 || b == 0x2A#8 || b == 0x2B#8 ||
  b == 0x28#8 || b == 0x7C#8 || b == 0x26#8 || b == 0x21#8

/-- include/peg_ast.h:211-220, on the root context -/
def recordRoot (op : Nat × Nat) (len : Int) (loc : Src) (d : Ctx) : Ctx :=
  let failures := if d.far.pos < loc.pos then [] else d.failures
  if failures.any (fun f => f.atom == op) then { d with failures := failures }
  else { d with far := loc, failures := failures ++ [⟨op, len, d.path⟩] }

/-- include/peg_ast.h:194-221: `op` and `opEnd` are in `pat`, the pattern of rule `i`; `disabled` is capture_disabled -/
def recordFailure (pat : List Byte) (i : Nat) (disabled : Int) (op opEnd : Nat) (loc : Src) (d : Ctx) : Res Ctx :=
  let own := if d.parents.isEmpty then d.far else d.origin
  if loc.pos < own.pos then .ok d
  else if disabled != 0 then .ok d
  else do
    let b ← rd pat op
    if isPegexpOp b then .ok d
    else if d.parents.isEmpty then .ok (recordRoot (i, op) (opEnd - op) loc d)
    else if loc.pos < d.far.pos then .ok d
    else if d.rootDisabled != 0 then .ok d
    else .ok (recordRoot (i, op) (opEnd - op) loc d)

/-- PegMatch(State, State), include/peg_ast.h:53-63 with include/pegexp.h:240-247: what `var` becomes. `same` says whether the
patterns are at the same place, `b` is the byte there. -/
def textMatch (text : List Byte) (b : Byte) (same : Bool) (frm to : Src) : Variant :=
  if b != 0#8 && same && frm.pos == to.pos then .none else .string (textOf text frm.pos to.pos)

/-- include/peg_ast.h:223-231: what `var` of the Match is -/
def matchResult (text : List Byte) (b : Byte) (same : Bool) (frm to : Src) (d : Ctx) : Variant :=
  if d.parents.isEmpty then .strVarMap d.ast
  else if d.numCaptures > 0 then .strVarMap d.ast
  else textMatch text b same frm to

section
variable (rules : List Rule) (text : List Byte)

/-- The pattern of rule `i`, in memory -/
def patternOf (i : Nat) : Res (List Byte) := do
  let r ← rd rules i
  .ok (cstr r.pattern)

/-- include/peg.h:213-229: the label, if any, and the position after the call -/
def parseCall (pat : List Byte) (p : Nat) : Res (Option Nat × Nat) := do
  let br ← strchr pat 0x3E#8 (pat.length + 1) (p + 1)
  let e ← (match br with
    | some q => .ok (q + 1)
    | none => strend pat (pat.length + 1) (p + 1) : Res Nat)
  let b ← rd pat e
  if b == 0x3A#8 then do
    let q ← nameEnd pat (pat.length + 1) (e + 1)
    let c ← closeColon pat q
    .ok (some (e + 1), c)
  else .ok (none, e)

/-- include/peg.h:300-310: the contexts above, as long as they start where this one does -/
def leftRecursive (sub : Nat) (src : Src) : List Frame → Bool
  | [] => false
  | f :: fs => if f.origin.pos < src.pos then false else if f.rule == sub then true else leftRecursive sub src fs

/-- `is_failure()` of match_failure(st), include/peg_ast.h:61-62, 233-234: not so at the end of the pattern -/
def failed (pat : List Byte) (st : St) : Res Bool := do
  let b ← rd pat st.pat
  .ok (b != 0#8)

/-- include/peg.h:298-313 and the use of its Match at 155: whether the call matched, the source, and the context of the call -/
def recurse (run : Nat → Src → Cx Ctx → Res (Out Ctx)) (sub : Nat) (src : Src) (cx : Cx Ctx) : Res (Bool × Src × Cx Ctx) := do
  let pat ← patternOf rules sub
  if leftRecursive sub src cx.data.parents then do
    let f ← failed pat ⟨0, src⟩
    .ok (!f, src, cx)
  else do
    let r ← run sub src cx
    if r.1 then .ok (true, r.2.1.src, r.2.2)
    else do
      let f ← failed pat r.2.1
      .ok (!f, src, r.2.2)

/-- include/peg.h:171-193: the label of the call and its size, and what is done with it. `q` is the label, `e` the end of the call. -/
def captureCall (pat : List Byte) (i sub : Nat) (lab : Option Nat) (e : Nat) (start : St) (to : Src) (d : Ctx) (cx : Cx Ctx) : Res (Cx Ctx) := do
  let r ← rd rules i
  let s ← rd rules sub
  let l ← (match lab with
    | some q => do
      let c ← rd pat (e - 1)
      .ok (pat.drop q, (if c == 0x3A#8 then (e : Int) - q - 1 else (e : Int) - q))
    | none => .ok (cstr s.name, (s.name.length : Int)) : Res (List Byte × Int))
  if cx.disabled == 0 then do
    let want ← isCaptured r l.1
    if want then
      -- a negative length makes StrVal copy from outside of the pattern
      if l.2 < 0 then .error .ub
      else do
        let b ← rd pat start.pat
        let v := matchResult text b (i == sub && start.pat == 0) start.src to d
        .ok { cx with data := captureValue (textOf l.1 0 l.2.toNat) v (decide (cx.nesting > 0)) cx.data }
    else .ok cx
  else .ok cx

/-- include/peg.h:127-196 with the constructor and destructor of PegContext (include/peg_ast.h:129-145): in rule `i` -/
def matchCall (run : Nat → Src → Cx Ctx → Res (Out Ctx)) (pat : List Byte) (i : Nat) (st : St) (cx : Cx Ctx) : Res (Out Ctx) := do
  let c ← parseCall pat st.pat
  let found ← lookup rules (pat.drop (st.pat + 1))
  match found with
  | none => .ok (false, st, cx)
  | some sub => do
    let s ← rd rules sub
    let d := cx.data
    let subData : Ctx :=
      { rule := sub, origin := st.src, parents := ⟨d.rule, d.origin⟩ :: d.parents
        rootDisabled := if d.parents.isEmpty then cx.disabled else d.rootDisabled
        numCaptures := 0, ast := [], far := d.far, failures := d.failures, path := d.path ++ [s.name] }
    let r ← recurse rules run sub st.src ⟨cx.disabled, 0, subData⟩
    let e := r.2.2.data
    let back : Cx Ctx := { cx with data := { d with far := e.far, failures := e.failures, path := e.path.dropLast } }
    if e.path.isEmpty then .error .assertion
    else if r.1 then do
      let cx' ← captureCall rules text pat i sub c.1 c.2 st r.2.1 e back
      .ok (true, ⟨c.2, r.2.1⟩, cx')
    else .ok (false, ⟨c.2, r.2.1⟩, back)

/-- include/peg.h:123-203 -/
def matchExtended (run : Nat → Src → Cx Ctx → Res (Out Ctx)) (pat : List Byte) (i : Nat) (st : St) (cx : Cx Ctx) : Res (Out Ctx) := do
  let b ← rd pat st.pat
  if b == 0x3C#8 then matchCall rules text run pat i st cx else matchLiteral pat text st cx

/-- The loop of include/peg.h:208-209 -/
def skipCall (pat : List Byte) : Nat → Nat → Res Nat
  | 0, _ => .error .fuel
  | k + 1, p => do
    let b ← rd pat p
    if b == 0#8 then .ok p else if b == 0x3E#8 then .ok (p + 1) else skipCall pat k (p + 1)

/-- include/peg.h:205-210 -/
def skipExtended (pat : List Byte) (p : Nat) : Res Nat := do
  let b ← rd pat p
  if b == 0x3C#8 then skipCall pat (pat.length + 1) (p + 1) else .ok (p + 1)

/-- PegContext and PegPegexp, for the pattern of rule `i` -/
def pegHooks (run : Nat → Src → Cx Ctx → Res (Out Ctx)) (pat : List Byte) (i : Nat) : Hooks Ctx where
  count := fun d => d.numCaptures
  rollback := rollbackCapture
  capture := fun name frm to rep d => do
    let b ← rd pat frm.pat
    .ok (captureValue (textOf pat name.1 name.2) (matchResult text b (frm.pat == to.pat) frm.src to.src d) rep d)
  record := fun disabled op opEnd loc d => recordFailure pat i disabled op opEnd loc d
  ext := matchExtended rules text run pat i
  skipExt := skipExtended pat

/-- match_here of the expression of rule `i` -/
def matchRule : Nat → Nat → Src → Cx Ctx → Res (Out Ctx)
  | 0, _, _, _ => .error .fuel
  | n + 1, i, src, cx => do
    let pat ← patternOf rules i
    matchHere pat text (pegHooks rules text (matchRule n) pat i) src cx

/-- include/peg_ast.h:80-84; a null Source is `none` -/
structure PegMatch where
  var : Variant
  far : Option Src
  failures : List Failure

/-- "TOP" -/
def topName : List Byte := [0x54#8, 0x4F#8, 0x50#8]

/-- The Context of include/peg.h:270 -/
def topContext (i : Nat) (src : Src) (name : List Byte) : Cx Ctx := ⟨0, 0, ⟨i, src, [], 0, 0, [], src, [], [name]⟩⟩

/-- include/peg.h:256-274: the Match, and `source` afterwards -/
def parse (src : Src) : Res (PegMatch × Src) := do
  let top ← lookup rules (cstr topName)
  match top with
  | none => .error .assertion
  | some i => do
    let r ← rd rules i
    let o ← matchRule rules text (rules.length * text.length + 1) i src (topContext i src r.name)
    let d := o.2.2.data
    if d.path.isEmpty then .error .assertion
    else if o.1 then .ok (⟨.strVarMap d.ast, some d.far, d.failures⟩, o.2.1.src)
    else do
      let f ← failed (cstr r.pattern) o.2.1
      if f then .ok (⟨.none, none, []⟩, src) else .ok (⟨.string [], some o.2.1.src, []⟩, src)

end

end Strpp.Pex
