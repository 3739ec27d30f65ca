import Verif.Spec.Law

/-!
# Specification vocabulary: laws that nearly agree
-/

namespace Spec

variable {α : Type}

/-- Values between 0 and 1, as of the indicator function of an event. -/
def UnitValued (f : α → ℚ) : Prop := ∀ v, 0 ≤ f v ∧ f v ≤ 1

/-- The law given by the weights and the law with the expectations `E` differ by at most `ε`: no event, and no function with values between 0 and 1,
has expectations that are farther apart. -/
def CloseTo (l : List (α × ℕ)) (E : (α → ℚ) → ℚ) (ε : ℚ) : Prop := mass l ≠ 0 ∧ ∀ f, UnitValued f → |Ex l f - E f| ≤ ε

/-- Expectations of values between 0 and 1 are between 0 and 1. -/
def UnitLaw (E : (ℤ → ℚ) → ℚ) : Prop := ∀ f, UnitValued f → 0 ≤ E f ∧ E f ≤ 1

/-- Expectation over `n` independent outcomes with the law `E`. -/
def Repeated (E : (ℤ → ℚ) → ℚ) : ℕ → (List ℤ → ℚ) → ℚ
  | 0, f => f []
  | n + 1, f => E fun x => Repeated E n fun xs => f (x :: xs)

end Spec
