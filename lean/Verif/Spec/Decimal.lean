import Verif.Spec.Text
import Mathlib.Algebra.Order.Field.Rat
import Mathlib.Algebra.Order.Group.Abs

/-!
# Specification vocabulary: decimal notation of hundredths, and lines of tables

Nothing here refers to the model of the code.
-/

namespace Spec

/-- `cs` is `n` hundredths in decimal notation: whole part, point, one digit after the point, and a second one unless it is 0. -/
def ShortHundredths (n : ℕ) (cs : List Char) : Prop :=
  ∃ ds, NatText (n / 100) ds ∧ cs = ds ++ '.' :: digitChar (n % 100 / 10) :: if n % 10 = 0 then [] else [digitChar (n % 10)]

/-- The same after a minus sign, if there is one. -/
def SignedHundredths (neg : Bool) (n : ℕ) (cs : List Char) : Prop :=
  ∃ t, cs = (if neg then ['-'] else []) ++ t ∧ ShortHundredths n t

/-- A line of the table: the outcome in decimal, right-aligned to `lw` characters; its probability in percent with two decimals; a bar
whose length is the probability times `blocks`, rounded. -/
def RowShows (lw blocks : ℕ) (v : ℤ) (p : ℚ) (line : List Char) : Prop :=
  ∃ a label b pct k n, line = List.replicate a ' ' ++ label ++ [':', ' '] ++ List.replicate b ' ' ++ pct ++ [' ', ' '] ++ List.replicate k '█' ∧
    IntText v label ∧ a + label.length = lw ∧ HundredthsText n pct ∧ 5 ≤ b + pct.length ∧
    |(n : ℚ) / 100 - 100 * p| ≤ 1 / 200 + 1 / 2 ^ 44 ∧ |(k : ℚ) - p * blocks| ≤ 1 / 2 + blocks / 2 ^ 50

end Spec
