import Verif.Basic
import Verif.Model.Utf8
import Verif.Model.RefCount
import Verif.Model.ArrPar
/-!
Model of include/strval.h:286-363, 365-413, 465-485, 654-735, 793-814: StrVals that share bodies, changed from any number of
threads.

The `Ref<Body>` of a variable and the counts of the bodies are the machine of `Model/RefCount.lean`; its objects are the
StrBodies, whose texts are beside it in `bodies`, and its variables are the StrVals, whose `offset` and `num_chars` are beside
it in `shapes`. A call in progress is a job of that machine together with a `Task` that says what else the call has to do.
One `tick` runs the next action of one call: an action on a reference count, the store to a `Ref`, the copying of a slice to
a new body, the change of a body.

Simplifications: those of `Model/RefCount.lean`; sequential consistency. A body is the list of its characters, and what a
function does to a body is what it does to the characters: `ap` says it for `toLower`, `toUpper`, `toJSON` and `transform`.
That the functions on bytes do this is C24-C32 (bookmarks included, which are left out here), and that looking up a character
is a mere reading of the body holds when its characters are counted (C70). Copying a slice and changing a body are one action
each, which is sound because the properties say that no other call accesses the body meanwhile. Reading a string is one
action (`text`), which a thread may do at any time when no other is writing the variable. An empty StrVal refers to
the static `nullBody`, and so does the static `null` (282, 302-340, 386, 843), which is never changed or destroyed: it is here a
variable with an empty text that the program constructs first, and making an empty string, by a constructor or by `substr`,
is copying it. Not here: other strings on borrowed data;
inserting a string in itself; a change of an unshared slice that does not begin its body by `insert`, which puts the bytes
where its own length counted from the start of the body says (C28_refuted_slice): an error of the model.
-/
namespace Strpp.TextPar
open ArrPar (Shape)

/-- characters -/
abbrev Text := List UCS4

variable {F : Type} (ap : F → Text → Text)

/-- What a call does to the body when it has it for itself -/
inductive Edit (F : Type)
  /-- include/strval.h:714-735, 950-958: the whole body is transformed, and the string shows all of it -/
  | trans (f : F)
  /-- include/strval.h:698-705: the text of variable `w` is inserted at `pos` -/
  | ins (pos w : Nat)
deriving DecidableEq, Repr

/-- the variable an edit reads -/
def Edit.addend : Edit F → Option Nat
  | .trans _ => none
  | .ins _ w => some w

/-- What a call has to do besides the actions of its job on the `Ref` -/
inductive Task (F : Type)
  /-- nothing: include/strval.h:388, the destructor -/
  | plain
  /-- when `body` is stored, to store `offset` and `num_chars`: include/strval.h:306-309, 317-340, 344-350, 356-359 -/
  | shape (sh : Shape)
  /-- to look at the count: include/strval.h:812 -/
  | unshare (e : Edit F)
  /-- to copy the slice from body `src` to the new body: include/strval.h:797-801 -/
  | copying (e : Edit F) (src : Nat)
  /-- to finish `body = new Body(...)`, to set `offset` to zero (804) and then to edit -/
  | swap (e : Edit F)
  /-- to edit the body -/
  | write (e : Edit F)
deriving DecidableEq, Repr

/-- the variable the call is going to read besides those of its job -/
def Task.addend : Task F → Option Nat
  | .unshare e | .copying e _ | .swap e | .write e => e.addend
  | _ => none

structure State (F : Type) where
  objs : List RC.Obj
  bodies : List Text
  /-- `none` is a destroyed StrVal, `some p` one with `body = p` -/
  vars : List (Option (Option Nat))
  shapes : List Shape
  work : List (RC.Job × Task F)
deriving DecidableEq, Repr

def init : State F := ⟨[], [], [], [], []⟩

/-- The reference counting of a state -/
def State.rc (s : State F) : RC.State := ⟨s.objs, s.vars, s.work.map (·.1)⟩

/-- `offset` and `num_chars` of variable `v` -/
def shapeOf (s : State F) (v : Nat) : Res Shape :=
  match s.shapes[v]? with
  | some sh => .ok sh
  | none => .error .ub

/-- the text of a body that has not been deleted -/
def bodyOf (s : State F) (o : Nat) : Res Text := do
  let _ ← RC.obj s.rc o
  match s.bodies[o]? with
  | some b => .ok b
  | none => .error .ub

/-- `body` of variable `v`, to be dereferenced -/
def ptrOf (s : State F) (v : Nat) : Res Nat :=
  match s.vars[v]? with
  | some (some (some o)) => .ok o
  | _ => .error .ub

/-- The characters of a slice; reading past the end of the body is undefined behaviour -/
def sliceOf (b : Text) (sh : Shape) : Res Text :=
  if sh.off + sh.num ≤ b.length then .ok ((b.drop sh.off).take sh.num) else .error .ub

/-- reading the characters of a string: include/strval.h:423-445 -/
def text (s : State F) (v : Nat) : Res Text := do
  let o ← ptrOf s v
  let b ← bodyOf s o
  let sh ← shapeOf s v
  sliceOf b sh

/-- include/strval.h:354 `length` -/
def length (s : State F) (v : Nat) : Res Nat := do
  let _ ← ptrOf s v
  let sh ← shapeOf s v
  .ok sh.num

/-- The characters of the new body made by include/strval.h:801 of those of the slice: a length of zero stands for `strlen`
(81), so the rest of the body is taken. -/
def copied (b : Text) (sh : Shape) : Res Text :=
  if sh.num = 0 then .ok (b.drop sh.off) else sliceOf b sh

inductive Call (F : Type)
  /-- include/strval.h:311-340, 401-412 -/
  | ofText (t : Text)
  /-- include/strval.h:390-395, 306-309 -/
  | copy (w : Nat)
  /-- include/strval.h:344-350 -/
  | assign (v w : Nat)
  /-- include/strval.h:388 -/
  | destroy (v : Nat)
  /-- include/strval.h:465-491 -/
  | substr (w at_ len : Nat)
  /-- include/strval.h:686-710 -/
  | insert (v pos w : Nat)
  /-- include/strval.h:714-735, 950-958 -/
  | transform (v : Nat) (f : F)
deriving DecidableEq, Repr

/-- Start a call on the `Ref`s, with the given task -/
def spawn (s : State F) (c : RC.Call) (t : Task F) : State F :=
  let rc := RC.start s.rc c
  { s with objs := rc.objs, vars := rc.vars, work := s.work ++ (rc.jobs.drop s.work.length).map (fun j => (j, t)) }

/-- Start a call. A variable that does not exist is undefined behaviour. -/
def start (s : State F) : Call F → Res (State F)
  | .ofText t => .ok (spawn { s with bodies := s.bodies ++ [t], shapes := s.shapes ++ [⟨0, t.length⟩] } .construct (.shape ⟨0, t.length⟩))
  | .copy w => do
    let sh ← shapeOf s w
    .ok (spawn { s with shapes := s.shapes ++ [sh] } (.copy w) (.shape sh))
  | .assign v w => do
    let sh ← shapeOf s w
    .ok (spawn s (.assign v w) (.shape sh))
  | .destroy v => .ok (spawn s (.destroy v) .plain)
  | .substr w at_ len => do
    let sh ← shapeOf s w
    if len = 0 ∨ at_ ≥ sh.num then .error .ub
    else
      let n := if len > sh.num - at_ then sh.num - at_ else len
      .ok (spawn { s with shapes := s.shapes ++ [⟨sh.off + at_, n⟩] } (.copy w) (.shape ⟨sh.off + at_, n⟩))
  | .insert v pos w => do
    let o ← ptrOf s v
    let p ← ptrOf s w
    let sh ← shapeOf s v
    let sh' ← shapeOf s w
    if pos = sh.num ∧ o = p ∧ sh.off + pos = sh'.off then
      .ok { s with shapes := s.shapes.set v { sh with num := sh.num + sh'.num } }
    else if v = w then .error .ub
    else .ok (spawn s (.unshare v) (.unshare (.ins pos w)))
  | .transform v f => do
    let _ ← ptrOf s v
    .ok (spawn s (.unshare v) (.unshare (.trans f)))

/-- The edit of a body with text `b` that a string with slice `sh` shows: the new text of the body and the new slice.
`nthChar(pos)` is null for `pos` past the end of the string (775-778). -/
def Edit.run (s : State F) (b : Text) (sh : Shape) : Edit F → Res (Text × Shape)
  | .trans f => .ok (ap f b, { sh with num := (ap f b).length })
  | .ins pos w => do
    let a ← text s w
    if sh.off = 0 ∧ pos ≤ sh.num then .ok (b.take pos ++ a ++ b.drop pos, { sh with num := sh.num + a.length }) else .error .ub

/-- The next action of job `i` on the `Ref`s: the objects and variables after it, and the job unless it has ended -/
def advance (s : State F) (i : Nat) : Res (List RC.Obj × List (Option (Option Nat)) × Option RC.Job) := do
  let rc ← RC.tick s.rc i
  .ok (rc.objs, rc.vars, if rc.jobs.length < s.work.length then none else rc.jobs[i]?)

/-- the variable a job writes -/
def dst (j : RC.Job) : Nat := j.writes.getD 0

/-- Run the next action of call `i` -/
def tick (s : State F) (i : Nat) : Res (State F) :=
  match s.work[i]? with
  | none => .ok s
  | some (_, .plain) => do
    let (objs, vars, j') ← advance s i
    match j' with
    | some j' => .ok { s with objs := objs, vars := vars, work := s.work.set i (j', .plain) }
    | none => .ok { s with objs := objs, vars := vars, work := s.work.eraseIdx i }
  | some (j, .shape sh) => do
    let (objs, vars, j') ← advance s i
    match j' with
    | some j' => .ok { s with objs := objs, vars := vars, work := s.work.set i (j', .shape sh) }
    | none => .ok { s with objs := objs, vars := vars, shapes := s.shapes.set (dst j) sh, work := s.work.eraseIdx i }
  | some (j, .unshare e) => do
    let src ← ptrOf s (dst j)
    let (objs, vars, j') ← advance s i
    match j' with
    | some ⟨r, w, .write d o⟩ => .ok { s with objs := objs, vars := vars, work := s.work.set i (⟨r, w, .write d o⟩, .write e) }
    | some j' => .ok { s with objs := objs, bodies := s.bodies ++ [[]], vars := vars, work := s.work.set i (j', .copying e src) }
    | none => .error .ub
  | some (⟨r, w, .addRef d o'⟩, .copying e src) => do
    let b ← bodyOf s src
    let _ ← bodyOf s o'
    let sh ← shapeOf s d
    let t ← copied b sh
    .ok { s with bodies := s.bodies.set o' t, work := s.work.set i (⟨r, w, .addRef d o'⟩, .swap e) }
  | some (_, .copying _ _) => .error .ub
  | some (j, .swap e) => do
    let sh ← shapeOf s (dst j)
    let (objs, vars, j') ← advance s i
    match j' with
    | some j' => .ok { s with objs := objs, vars := vars, work := s.work.set i (j', .swap e) }
    | none =>
      match vars[dst j]? with
      | some (some (some o)) => .ok { s with objs := objs, vars := vars, shapes := s.shapes.set (dst j) ⟨0, sh.num⟩, work := s.work.set i (⟨none, some (dst j), .write (dst j) o⟩, .write e) }
      | _ => .error .ub
  | some (⟨_, _, .write d o⟩, .write e) => do
    let b ← bodyOf s o
    let sh ← shapeOf s d
    let r ← e.run ap s b sh
    let (objs, vars, _) ← advance s i
    .ok { s with objs := objs, bodies := s.bodies.set o r.1, vars := vars, shapes := s.shapes.set d r.2, work := s.work.eraseIdx i }
  | some (_, .write _) => .error .ub

end Strpp.TextPar
