import Verif.Model.Stats
import Verif.Model.Ops

/-!
# Rounding dice and dividing them with `/`

Dice with float outcomes are `RV ℚ`: an outcome is the rational number that the float is.  NaN and the infinities are not modelled, and `-0.0` is `0`
(Python compares them equal).
-/

namespace PythonDice
namespace RV

/-- src/randvar.py:363-364 `math.floor(X)`. -/
def floor (st : Settings) (a : RV ℚ) : Except Err (RV ℤ) := mapVals st a fun v => .ok ⌊v⌋

/-- src/randvar.py:366-367 `math.ceil(X)`. -/
def ceil (st : Settings) (a : RV ℚ) : Except Err (RV ℤ) := mapVals st a fun v => .ok ⌈v⌉

/-- Python's `math.trunc` of a float. -/
def truncQ (v : ℚ) : ℤ := if 0 ≤ v then ⌊v⌋ else ⌈v⌉

/-- src/randvar.py:369-370 `math.trunc(X)`. -/
def trunc (st : Settings) (a : RV ℚ) : Except Err (RV ℤ) := mapVals st a fun v => .ok (truncQ v)

/-- src/randvar.py:360-361 `round(X)` (`n=0`): Python's `round(x, 0)` of a float is a float. -/
def round (st : Settings) (a : RV ℚ) : Except Err (RV ℚ) := mapVals st a fun v => .ok (roundHalfEven v : ℚ)

/-- Python's `round(x, n)` of an int: the int itself if `n` is not negative, otherwise the nearest multiple of `10 ** -n`, between two the one
that is an even multiple. -/
def roundInt (n x : ℤ) : ℤ :=
  if 0 ≤ n then x else roundHalfEven ((x : ℚ) / ((10 ^ (-n).toNat : ℤ) : ℚ)) * 10 ^ (-n).toNat

/-- src/randvar.py:360-361 `round(X, n)` for int outcomes. -/
def roundI (st : Settings) (a : RV ℤ) (n : ℤ := 0) : Except Err (RV ℤ) := mapVals st a fun v => .ok (roundInt n v)

/-- src/randvar.py:363-370 `math.floor`, `math.ceil` and `math.trunc` of a die with int outcomes: all three are the identity on ints. -/
def integral (st : Settings) (a : RV ℤ) : Except Err (RV ℤ) := mapVals st a fun v => .ok v

/-- Python's `int / int`: the correctly rounded quotient, ZeroDivisionError or OverflowError. -/
def pyDiv (x y : ℤ) : Except Err ℚ := if y = 0 then .error .zeroDivision else toDouble ((x : ℚ) / (y : ℚ))

/-- src/randvar.py:288-289, 208-209 `X / n`. -/
def truedivNum (st : Settings) (a : RV ℤ) (n : ℤ) : Except Err (RV ℚ) := mapVals st a fun v => pyDiv v n

/-- src/randvar.py:291-292, 223 `n / X`. -/
def rtruedivNum (st : Settings) (n : ℤ) (a : RV ℤ) : Except Err (RV ℚ) := mapVals st a fun v => pyDiv n v

/-- src/randvar.py:288-289, 210-213 `X / Y` (the flag tells whether the limiter of probabilities warned). -/
def truediv (st : Settings) (a b : RV ℤ) : Except Err (RV ℚ × Bool) := convolveRV st a b pyDiv

end RV
end PythonDice
