import Mathlib.Data.Nat.Log
import Mathlib.Data.List.Basic

/-!
# What remembering results may cost
-/

namespace Spec

/-- A table with further entries, none for a key it had, and no key twice among the further ones. -/
def Grown {κ β : Type} (old new : List (κ × β)) : Prop :=
  ∃ added : List (κ × β), new = added ++ old ∧ (added.map (·.1)).Nodup ∧ ∀ k ∈ added.map (·.1), k ∉ old.map (·.1)

/-- `n`, its half, the half of the half … as long as they are at least two. -/
def halvings (n : ℕ) : List ℕ := if h : 2 ≤ n then n :: halvings (n / 2) else []
decreasing_by omega

end Spec
