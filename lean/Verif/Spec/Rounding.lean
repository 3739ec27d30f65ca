import Mathlib.Data.Rat.Defs
import Mathlib.Algebra.Order.Ring.Rat
import Mathlib.Algebra.Ring.Parity

/-!
# Specification vocabulary: rounding to integers

Nothing here refers to the model of the code.
-/

namespace Spec

/-- `k` is the greatest integer not above `x`. -/
def IsFloor (x : ℚ) (k : ℤ) : Prop := (k : ℚ) ≤ x ∧ x < k + 1

/-- `k` is the least integer not below `x`. -/
def IsCeil (x : ℚ) (k : ℤ) : Prop := x ≤ k ∧ (k : ℚ) < x + 1

/-- `k` is `x` without its fractional part. -/
def IsTrunc (x : ℚ) (k : ℤ) : Prop := (0 ≤ x → IsFloor x k) ∧ (x ≤ 0 → IsCeil x k)

/-- `k` is an integer nearest to `x`; between two, it is the even one. -/
def IsNearest (x : ℚ) (k : ℤ) : Prop := |x - k| ≤ 1 / 2 ∧ (|x - k| = 1 / 2 → Even k)

end Spec
