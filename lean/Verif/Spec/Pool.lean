import Verif.Spec.Law

/-! # Specification vocabulary: positions in a pool of dice -/

namespace Spec

/-- The `k`-th largest element of `xs` (counting from 1), 0 if there is none. -/
def kthHighest (xs : List ℤ) (k : ℤ) : ℤ := if 1 ≤ k then (descending xs).getD (k - 1).toNat 0 else 0

/-- The `k`-th smallest element of `xs` (counting from 1), 0 if there is none. -/
def kthLowest (xs : List ℤ) (k : ℤ) : ℤ := if 1 ≤ k then (ascending xs).getD (k - 1).toNat 0 else 0

end Spec
