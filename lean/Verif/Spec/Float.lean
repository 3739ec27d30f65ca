import Mathlib.Data.Rat.Defs
import Mathlib.Algebra.Order.Ring.Rat
import Mathlib.Algebra.Order.Field.Power

/-!
# Specification vocabulary: IEEE doubles

Nothing here refers to the model of the code.
-/

namespace Spec

/-- The rational `x` is a finite IEEE 754 double. -/
def IsDouble (x : ℚ) : Prop := ∃ m e : ℤ, |m| < 2 ^ 53 ∧ -1074 ≤ e ∧ e ≤ 971 ∧ x = (m : ℚ) * 2 ^ e

/-- `x` is a double, and no double is closer to `q`. -/
def NearestDouble (q x : ℚ) : Prop := IsDouble x ∧ ∀ y, IsDouble y → |q - x| ≤ |q - y|

end Spec
