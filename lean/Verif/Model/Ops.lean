import Verif.Model.RV
import Mathlib.Data.Int.Bitwise

/-!
# Model of operators on ints

The binary operators a die supports and their meaning on Python ints.
-/

namespace PythonDice

/-- The binary operators of `RV` (src/randvar.py:263-336), except `@`. -/
inductive BinOp
  | add | sub | mul | floordiv | truediv | pow | mod
  | eq | ne | lt | le | gt | ge
  | or_ | and_
  deriving DecidableEq, Repr

/-- `1 if b else 0`. -/
def ofBool (b : Bool) : ℤ := if b then 1 else 0

/-- The operation passed to `_convolve` / `_rconvolve` (src/randvar.py:263-336), on ints.
`//` and `%` are Python's floor division and modulus.  `/` and `**` with a negative exponent give
floats in Python; floats are outside the int model and are flagged with `Err.floatResult`
(but a zero divisor raises). -/
def BinOp.eval : BinOp → ℤ → ℤ → Except Err ℤ
  | .add, x, y => .ok (x + y)
  | .sub, x, y => .ok (x - y)
  | .mul, x, y => .ok (x * y)
  | .floordiv, x, y => if y = 0 then .error .zeroDivision else .ok (x.fdiv y)
  | .truediv, _, y => if y = 0 then .error .zeroDivision else .error .floatResult
  | .mod, x, y => if y = 0 then .error .zeroDivision else .ok (x.fmod y)
  | .pow, x, y =>
    if 0 ≤ y then .ok (x ^ y.toNat) else if x = 0 then .error .zeroDivision else .error .floatResult
  | .eq, x, y => .ok (ofBool (decide (x = y)))
  | .ne, x, y => .ok (ofBool (decide (x ≠ y)))
  | .lt, x, y => .ok (ofBool (decide (x < y)))
  | .le, x, y => .ok (ofBool (decide (x ≤ y)))
  | .gt, x, y => .ok (ofBool (decide (y < x)))
  | .ge, x, y => .ok (ofBool (decide (y ≤ x)))
  | .or_, x, y => .ok (ofBool (decide (x ≠ 0 ∨ y ≠ 0)))
  | .and_, x, y => .ok (ofBool (decide (x ≠ 0 ∧ y ≠ 0)))

/-- src/randvar.py:263-336: `X op Y` for two dice. -/
def RV.binop (st : Settings) (op : BinOp) (a b : RV ℤ) : Except Err (RV ℤ × Bool) :=
  RV.convolveRV st a b op.eval

/-- src/randvar.py:208-209: `X op n` for a number (and, lines 204-207, a sequence with sum `n`). -/
def RV.binopNum (st : Settings) (op : BinOp) (a : RV ℤ) (n : ℤ) : Except Err (RV ℤ) :=
  RV.mapVals st a fun v => op.eval v n

/-- src/randvar.py:215-223: `n op X` through `__radd__` etc. -/
def RV.rbinopNum (st : Settings) (op : BinOp) (n : ℤ) (a : RV ℤ) : Except Err (RV ℤ) :=
  RV.mapVals st a fun v => op.eval n v

/-- src/randvar.py:351-352 `__neg__`: `0 - self`. -/
def RV.neg (st : Settings) (a : RV ℤ) : Except Err (RV ℤ) := RV.rbinopNum st .sub 0 a

/-- src/randvar.py:357-358 `__abs__`. -/
def RV.abs (st : Settings) (a : RV ℤ) : Except Err (RV ℤ) := RV.mapVals st a fun v => .ok |v|

/-- src/randvar.py:354-355 `__invert__`. -/
def RV.invert (st : Settings) (a : RV ℤ) : Except Err (RV ℤ) :=
  if a.vals = [0] ∧ a.probs = [1] then RV.fromConst st 1 else RV.fromConst st 0

/-- src/randvar.py:348-349 `__pos__`. -/
def RV.pos (a : RV ℤ) : RV ℤ := a

end PythonDice
