import Mathlib.Data.Rat.Defs
import Mathlib.Algebra.Order.Ring.Rat
import Mathlib.Algebra.Order.Group.Abs
import Mathlib.Data.Finset.Image
import Mathlib.Order.Interval.Finset.Nat

/-!
# Specification of angular momentum coupling (independent of the model)
-/

namespace Verif.Spec

/-- A non-negative integer or half-integer. -/
def HalfInt (q : ℚ) : Prop := ∃ n : ℕ, q = n / 2

/-- Angular momenta `a` and `b` can couple to `c`: the triangle inequalities hold and
`a + b + c` is an integer. -/
def Couples (a b c : ℚ) : Prop := |a - b| ≤ c ∧ c ≤ a + b ∧ ∃ k : ℤ, a + b + c = k

end Verif.Spec
