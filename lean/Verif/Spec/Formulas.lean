import Mathlib.Data.Nat.Choose.Basic
import Mathlib.Data.Rat.Defs
import Mathlib.Data.Fintype.Pi
import Mathlib.Algebra.BigOperators.Fin

/-!
# Textbook formulas
-/

namespace Spec

/-- The probability of `i` successes in `n` independent attempts that succeed with probability `p`. -/
def binomial (n : ℕ) (p : ℚ) (i : ℕ) : ℚ := n.choose i * p ^ i * (1 - p) ^ (n - i)

/-- The number of ways in which `n` dice with `m` sides show `s` in total. -/
def ways (n m : ℕ) (s : ℤ) : ℕ := (Finset.univ.filter fun r : Fin n → Fin m => ∑ i, ((r i : ℕ) + 1 : ℤ) = s).card

end Spec
