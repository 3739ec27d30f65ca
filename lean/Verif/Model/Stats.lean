import Verif.Model.Cast
import Verif.Model.SeqOps

/-!
# Model of the statistics and rendering functions

`RV.mean`, `RV.std`, `RV.get_vals_probs` (src/randvar.py), `output` (src/output.py), `roller`
(src/roller.py).  Double arithmetic is modelled exactly: rationals rounded to the nearest double after
each operation, with gradual underflow, ties to even; overflow raises where Python raises.
-/

namespace PythonDice

/-- Round to the nearest double (ties to even), subnormals included; meant for `|q| < floatOverflow`. -/
def dbl (q : ℚ) : ℚ :=
  if q = 0 then 0
  else
    let e : ℤ := max (Int.log 2 |q| - 52) (-1074)
    (roundHalfEven (q / 2 ^ e) : ℚ) * 2 ^ e

/-- The double nearest to `q`, for operations that raise OverflowError when there is none. -/
def toDouble (q : ℚ) : Except Err ℚ := if (RV.floatOverflow : ℚ) ≤ |q| then .error .overflow else .ok (dbl q)

namespace RV

/-- src/randvar.py:120-123 `mean` for int outcomes: Python's `int / int` is the correctly rounded
quotient, or OverflowError. -/
def mean (r : RV ℤ) : Except Err (Option ℚ) :=
  if r.sumProbs = 0 then .ok none
  else do
    let q ← toDouble (((r.pairs.map fun vp => vp.1 * (vp.2 : ℤ)).sum : ℚ) / (r.sumProbs : ℚ))
    return some q

/-- src/randvar.py:125-131 `std` up to `var = EX2 - EX**2` (None if the total weight is 0).  `EX**2` is a
correctly rounded product (C `pow`). -/
def var (st : Settings) (r : RV ℤ) : Except Err (Option ℚ) :=
  if r.sumProbs = 0 then .ok none
  else do
    let sq ← RV.binopNum st .pow r 2
    match ← sq.mean, ← r.mean with
    | some ex2, some ex =>
      let ee ← toDouble (ex * ex)
      return some (dbl (ex2 - ee))
    | _, _ => throw .assertion

/-- src/randvar.py:125-132 `std`, up to the final square root: the number whose root is returned
(`math.sqrt(var) if var >= 0 else 0`). -/
def stdSquare (st : Settings) (r : RV ℤ) : Except Err (Option ℚ) :=
  (r.var st).map (Option.map fun v => if 0 ≤ v then v else 0)

/-- src/randvar.py:148: `(v, p / s)` for every outcome; `p / 0` raises. -/
def valsProbs (r : RV ℤ) : Except Err (List (ℤ × ℚ)) :=
  r.pairs.mapM fun vp => if r.sumProbs = 0 then .error .zeroDivision else .ok (vp.1, dbl ((vp.2 : ℚ) / (r.sumProbs : ℚ)))

/-- src/randvar.py:155 `accumulate(..., lambda x, y: (y[0], x[1] + y[1]), initial=x)`. -/
def accumProbs (x : ℤ × ℚ) : List (ℤ × ℚ) → List (ℤ × ℚ)
  | [] => [x]
  | y :: ys => x :: accumProbs (y.1, dbl (x.2 + y.2)) ys

/-- src/randvar.py:154-156 `vals_to_cut`. -/
def valsToCut (vp : List (ℤ × ℚ)) (cut : ℚ) : List ℤ :=
  ((accumProbs (0, 0) (vp.insertionSort fun a b => a.2 ≤ b.2)).filter fun x => decide (x.2 < cut)).map (·.1)

/-- src/randvar.py:144-158 `get_vals_probs(cdf_cut)` for int outcomes (lines 150-152 concern string
outcomes only). -/
def getValsProbs (r : RV ℤ) (cut : ℚ) : Except Err (List (ℤ × ℚ)) :=
  if ¬ (0 ≤ cut ∧ cut < 1) then .error .assertion
  else do
    let vp ← valsProbs r
    if 0 < cut then return vp.filter fun x => decide (x.1 ∉ valsToCut vp cut)
    else return vp

end RV

/-! ## `roller` -/

/-- `bisect.bisect_right(a, x, 0, hi)` on a nondecreasing list: the first index below `hi` whose element exceeds `x`, else `hi`. -/
def bisectRight (a : List ℕ) (x : ℚ) (hi : ℕ) : ℕ := ((a.take hi).takeWhile fun c => decide ((c : ℚ) ≤ x)).length

/-- CPython `random.choices(vals, probs)[0]` (Lib/random.py, used at src/roller.py:126) when `random()` returns `u`:
`total = cum_weights[-1] + 0.0; population[bisect(cum_weights, random() * total, 0, n - 1)]`. -/
def choices (r : RV ℤ) (u : ℚ) : Except Err ℤ :=
  if (RV.floatOverflow : ℚ) ≤ r.sumProbs then .error .overflow
  else if r.sumProbs = 0 then .error .value
  else match r.vals[bisectRight (RV.accumFrom 0 r.probs) (dbl (u * dbl r.sumProbs)) (r.vals.length - 1)]? with
    | some v => .ok v
    | none => .error .index

/-- src/roller.py:122-126 `roller(rv)`, given what `random()` returns. -/
def roller (o : Obj) (u : ℚ) : M ℤ := do
  let r ← getRv o
  M.ofSettings fun _ => choices r u

/-- src/roller.py:122-127 `roller(rv, count)`, given what the `count` calls of `random()` return. -/
def rollerN (o : Obj) (us : List ℚ) : M (List ℤ) := do
  let r ← getRv o
  M.forList (fun u => M.ofSettings fun _ => choices r u) us

end PythonDice
