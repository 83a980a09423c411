/-! The places at which the binary search of this library looks, in terms of numbers only. -/
namespace Strpp.Spec

/-- the place looked at when the places after `l`, up to `r`, are left -/
def midPlace (l r : Nat) : Nat := l + (r - l + 1) / 2

/-- `Looks t l r m`: searching the places after `l` up to `r` it looks at place `m`. What is searched for is at place
`t / 2` if `t` is even; it is between two places if `t` is odd (e.g. `t = -1`: before all of them). The place after the
one looked at is skipped when going on to the right. -/
inductive Looks (t : Int) : Nat → Nat → Nat → Prop where
  | here {l r : Nat} : l < r → Looks t l r (midPlace l r)
  | left {l r m : Nat} : l < r → t < 2 * midPlace l r → Looks t l (midPlace l r - 1) m → Looks t l r m
  | right {l r m : Nat} : l < r → 2 * midPlace l r < t → Looks t (midPlace l r + 1) r m → Looks t l r m

end Strpp.Spec
