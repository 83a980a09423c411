import Verif.Spec.Rx
/-!
A check on regular expressions that assures that matching does not run out of room for its threads. It is about places
which are reached *blindly*: behind an anchor, and behind the end of an alternative (other than the last) the matcher goes
on without looking whether another thread is already there. Independent of the compiler and the matcher.
-/
namespace Strpp.Spec

/-- There is nothing to do for `r` -/
def Re.noCode : Re → Bool
  | .empty => true
  | .seq a b => a.noCode && b.noCode
  | .grp _ a => a.noCode
  | _ => false

/-- `r` begins with a character or class -/
def Re.startsOne : Re → Bool
  | .chr .. | .any | .cls .. | .prop .. => true
  | .seq a _ | .grp _ a | .plus a => a.startsOne
  | _ => false

/-- From the beginning of `r` one can get, without reading a character, to an anchor or to the end of an alternative; or
to the end of `r`, where that is the case (`e`) -/
def Re.opens (e : Bool) : Re → Bool
  | .empty => e
  | .bol | .eol => true
  | .seq a b => a.opens (b.opens e)
  | .alt a b => a.opens true || b.opens e
  | .star a => e || a.opens false
  | .plus a => a.opens (e || a.opens false)
  | .opt a => e || a.opens e
  | .grp _ a => a.opens e
  | _ => false

/-- `r` does not begin with a character after which that is so -/
def Re.spare (e : Bool) : Re → Bool
  | .chr .. | .any | .cls .. | .prop .. => !e
  | .seq a b => if a.noCode then b.spare e else a.spare (b.opens e)
  | .plus a => a.spare (e || a.opens false)
  | .grp _ a => a.spare e
  | _ => true

/-- The end of `r` is reached blindly -/
def Re.lands : Re → Bool
  | .bol | .eol | .alt .. => true
  | .seq a b => b.lands || (b.noCode && a.lands)
  | .opt a | .grp _ a => a.lands
  | _ => false

/-- No character leads to two anchors or ends of alternatives (or to one of them in two ways), and no character after which there is
one of them is reached blindly. Again, `e` tells that what follows is such a place. -/
def Re.tame (e : Bool) : Re → Bool
  | .seq a b => b.tame e && a.tame (b.opens e) && (!a.lands || b.opens e || b.spare e)
  | .alt a b => a.tame true && b.tame e && !(a.opens true && b.opens e)
  | .star a | .plus a => a.tame (e || a.opens false) && !(e && a.opens true)
  | .opt a => a.tame e && !(e && a.opens e)
  | .rep .. => false
  | .grp _ a => a.tame e
  | _ => true

/-- The places where a thread can branch to: two for each repetition and each `|`, without those at a character or class -/
def Re.branches : Re → Nat
  | .seq a b => a.branches + b.branches
  | .alt a b => a.branches + b.branches + (if a.startsOne then 0 else 1) + (if b.startsOne then 0 else 1)
  | .star a | .plus a | .opt a => a.branches + if a.startsOne then 1 else 2
  | .grp _ a => a.branches
  | _ => 0

/-- The check. A `^` in front does no harm. -/
def Re.steady : Re → Bool
  | .seq .bol r => r.tame false && decide (r.branches ≤ 9)
  | r => r.tame false && decide (r.branches ≤ 9)

end Strpp.Spec
