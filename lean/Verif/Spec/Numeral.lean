import Mathlib.Data.Rat.Defs
import Mathlib.Algebra.Order.Ring.Rat
import Mathlib.Algebra.Order.Field.Power

/-!
# Specification vocabulary: the text of a float

Nothing here refers to the model of the code.
-/

namespace Spec

/-- A digit. -/
def IsDigit (c : Char) : Prop := '0' ≤ c ∧ c ≤ '9'

/-- The number that digits stand for. -/
def digitsValue (cs : List Char) : ℕ := cs.foldl (fun a c => 10 * a + (c.toNat - 48)) 0

/-- The part with the exponent: nothing, or `e`, a sign and at least two digits. -/
def ExponentText (ex : ℤ) (cs : List Char) : Prop :=
  cs = [] ∧ ex = 0 ∨
    ∃ ds, (∀ c ∈ ds, IsDigit c) ∧ 2 ≤ ds.length ∧ cs = 'e' :: (if ex < 0 then '-' else '+') :: ds ∧ digitsValue ds = ex.natAbs

/-- `cs` is a float as Python writes it, and its value is `v` (`-v` if there is a sign): a whole part and a fraction, one of which has all digits
if there is no exponent; in front of an exponent there is one digit, and a fraction only if there are more.  There is an exponent exactly for
numbers that are below `1 / 10 ^ 4`, but not zero, and for those from `10 ^ 16` on. -/
def FloatText (neg : Bool) (v : ℚ) (cs : List Char) : Prop :=
  ∃ (whole fraction exponent : List Char) (ex : ℤ),
    cs = (if neg then ['-'] else []) ++ whole ++ (if fraction = [] then [] else '.' :: fraction) ++ exponent ∧
    whole ≠ [] ∧ (∀ c ∈ whole, IsDigit c) ∧ (∀ c ∈ fraction, IsDigit c) ∧ ExponentText ex exponent ∧
    (exponent = [] → fraction ≠ []) ∧ (exponent ≠ [] → whole.length = 1) ∧ (exponent = [] ↔ v = 0 ∨ 1 / 10 ^ 4 ≤ v ∧ v < 10 ^ 16) ∧
    v = digitsValue (whole ++ fraction) * 10 ^ (ex - fraction.length)

end Spec
