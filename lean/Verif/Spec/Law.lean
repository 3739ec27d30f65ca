import Mathlib.Data.Rat.Defs
import Mathlib.Algebra.Order.Ring.Rat
import Mathlib.Algebra.BigOperators.Group.List.Basic
import Mathlib.Data.List.Sort

/-!
# Specification vocabulary: finite laws

Nothing here refers to the model of the code.  A finite law is given by a list of
`(outcome, weight)` pairs; repeated outcomes are allowed and their weights add up.
-/

namespace Spec

variable {α β : Type}

/-- `∑ weight * f outcome` over a weighted list. -/
def wsum (l : List (α × ℕ)) (f : α → ℚ) : ℚ := (l.map fun vp => (vp.2 : ℚ) * f vp.1).sum

/-- Total weight. -/
def mass (l : List (α × ℕ)) : ℚ := wsum l fun _ => 1

/-- Expectation of `f` under the law proportional to the weights
(meaningful when `mass l ≠ 0`). -/
def Ex (l : List (α × ℕ)) (f : α → ℚ) : ℚ := wsum l f / mass l

/-- Probability of an event. -/
def Pr (l : List (α × ℕ)) (p : α → Prop) [DecidablePred p] : ℚ :=
  Ex l fun v => if p v then 1 else 0

/-- Total weight listed for outcome `v`. -/
def weightOf [DecidableEq α] (l : List (α × ℕ)) (v : α) : ℕ :=
  ((l.filter fun x => x.1 = v).map (·.2)).sum

/-- Total weight listed for outcomes up to `v`. -/
def weightUpTo [LinearOrder α] (l : List (α × ℕ)) (v : α) : ℕ :=
  ((l.filter fun x => x.1 ≤ v).map (·.2)).sum

/-- Expectation of `g [x₁, …, xₙ]` over `n` independent draws from `l`. -/
def ExN : ℕ → List (α × ℕ) → (List α → ℚ) → ℚ
  | 0, _, g => g []
  | n + 1, l, g => Ex l fun x => ExN n l fun xs => g (x :: xs)

/-- Expectation under the mixture of laws (given by their expectation functionals) with the given
weights. -/
def mixture (l : List (ℚ × ((α → ℚ) → ℚ))) (f : α → ℚ) : ℚ :=
  (l.map fun wE => wE.1 * wE.2 f).sum / (l.map fun wE => wE.1).sum

/-- The elements of `xs` in descending order. -/
def descending [LinearOrder α] (xs : List α) : List α := xs.insertionSort fun a b => b ≤ a

/-- The elements of `xs` in ascending order. -/
def ascending [LinearOrder α] (xs : List α) : List α := xs.insertionSort fun a b => a ≤ b

/-- The greatest common divisor of the list is 1. -/
def Coprime (ps : List ℕ) : Prop := ∀ d, (∀ p ∈ ps, d ∣ p) → d = 1

end Spec
