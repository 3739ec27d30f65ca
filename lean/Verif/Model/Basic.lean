import Mathlib.Data.Rat.Defs
import Mathlib.Data.Rat.Floor
import Mathlib.Algebra.Order.Ring.Rat
import Mathlib.Data.Int.Log
import Mathlib.Order.Defs.LinearOrder

/-!
# Model: errors, settings, floats, module state

Cited sources are relative to `/repo`.
-/

namespace PythonDice

/-- The Python exceptions raised by the modelled code. -/
inductive Err
  | assertion      -- AssertionError
  | type           -- TypeError
  | value          -- ValueError
  | zeroDivision   -- ZeroDivisionError
  | index          -- IndexError
  | attribute      -- AttributeError
  | overflow       -- OverflowError
  | notImplemented -- NotImplementedError
  | key            -- KeyError
  | user           -- an exception raised by user code
  | name           -- NameError, UnboundLocalError
  | floatResult    -- not an exception: the Python result is a float, outside the int model
  | unmodelled     -- not an exception: Python code that runs into something outside the model
  | fuel           -- not an exception: calls nested deeper than the bound given to a run
  deriving DecidableEq, Repr

/-- src/settings.py:12 `'position order'`. -/
inductive PosOrder
  | highestFirst
  | lowestFirst
  deriving DecidableEq, Repr

/-- src/settings.py:4-16 `DEFAULT_SETTINGS` / `SETTINGS`.
Simplification: a record instead of a dict (`settings_set` can only ever touch these keys);
the print function is represented by an identifier (0 = the builtin `print`). -/
structure Settings where
  rvTrunc : Bool := false
  rvIgnoreZeroProbs : Bool := false
  defaultOutputWidth : ℤ := 180
  defaultPrintFn : ℕ := 0
  currDepth : ℤ := 0
  currDepthWarningPrinted : Bool := false
  positionOrder : PosOrder := .highestFirst
  explodeDepth : ℤ := 2
  maxFuncDepth : ℤ := 10
  deriving DecidableEq, Repr

/-- The outcome types dice can have: linearly ordered (Python `<`, `==` on non-NaN numbers and on
string outcomes), with the int `0` and the builtin `int(...)` conversion used by `RV_TRUNC`. -/
class PyVal (α : Type) [LinearOrder α] where
  zero : α
  trunc : α → Except Err α

/-- Python ints: `int(v)` is the identity. -/
instance : PyVal ℤ where
  zero := 0
  trunc v := .ok v

/-- Idealised floats (exact rationals, no NaN / inf / rounding): `int(v)` rounds towards zero. -/
instance : PyVal ℚ where
  zero := 0
  trunc v := .ok (if 0 ≤ v then (⌊v⌋ : ℤ) else (⌈v⌉ : ℤ))

/-! ## IEEE double rounding (used where the code computes with floats on huge ints) -/

/-- Round to nearest integer, ties to even. -/
def roundHalfEven (q : ℚ) : ℤ :=
  let f := ⌊q⌋
  let d := q - f
  if d < 1 / 2 then f else if 1 / 2 < d then f + 1 else if f % 2 = 0 then f else f + 1

/-- The double nearest to a rational (53-bit significand, ties to even).
Simplification: the exponent range is unbounded here; overflow is handled explicitly where the
code can meet it, subnormals are not modelled. -/
def fl (q : ℚ) : ℚ :=
  if q = 0 then 0
  else
    let e : ℤ := Int.log 2 |q| - 52
    (roundHalfEven (q / 2 ^ e) : ℚ) * 2 ^ e

end PythonDice
