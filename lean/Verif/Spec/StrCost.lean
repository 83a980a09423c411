/-!
Distances and sums, for C102.
-/
namespace Strpp.Spec

/-- How far character `j` of `n` is from the nearer of the two places around it that are known: the beginning or the
bookmark (at character `m`, none if 0) before it, the bookmark or the end behind it. -/
def walk (n m j : Nat) : Nat :=
  if m = 0 then min j (n - j)
  else if m ≤ j then min (j - m) (n - j)
  else min j (m - j)

/-- `f 0 + ... + f (n-1)` -/
def sumTo (f : Nat → Nat) : Nat → Nat
  | 0 => 0
  | n + 1 => sumTo f n + f n

end Strpp.Spec
