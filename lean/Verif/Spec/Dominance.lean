import Verif.Spec.Law

/-!
# Specification vocabulary: better dice
-/

namespace Spec

/-- One die is at least as good as another: it reaches every number with at least the same probability. -/
def AtLeastAsGood (l m : List (ℤ × ℕ)) : Prop := ∀ t : ℤ, Pr m (t ≤ ·) ≤ Pr l (t ≤ ·)

end Spec
