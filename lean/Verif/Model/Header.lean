import Verif.Model.Output

/-!
# Model of the header line of `output` (src/output.py:22-29)

`round(x, 2)` and `repr` of doubles, and the square root of `std` (src/randvar.py:132).  A double is a
rational; the sign of a zero is carried separately.
-/

namespace PythonDice

/-- `round(x, 2)` of a double `x ≥ 0` (CPython `double_round`): the exact value rounded to hundredths, ties
to even, then read back as a double. -/
def round2 (x : ℚ) : ℚ := dbl ((roundHalfEven (100 * x) : ℚ) / 100)

/-- The integer square root of `n`, bit by bit from bit `k - 1`. -/
def isqrtFrom (n : ℕ) : ℕ → ℕ → ℕ
  | 0, acc => acc
  | k + 1, acc => if (acc + 2 ^ k) ^ 2 ≤ n then isqrtFrom n k (acc + 2 ^ k) else isqrtFrom n k acc

/-- `⌊√n⌋`. -/
def isqrt (n : ℕ) : ℕ := isqrtFrom n (n.log2 / 2 + 1) 0

/-- `math.sqrt(x)` of a double `x ≥ 0`, correctly rounded: a double is a whole number of `2 ^ -1074`, whose root is computed to 60 bits
more than the whole part; a remainder counts as a half. -/
def sqrtDouble (x : ℚ) : ℚ :=
  let n := (x * 2 ^ 1074).floor.toNat * 4 ^ 60
  let s := isqrt n
  dbl ((if s * s = n then (s : ℚ) else s + 1 / 2) / 2 ^ 597)

/-- Digits and exponent without trailing zeros; at most `k` are dropped. -/
def dropZeros : ℕ → ℕ × ℤ → ℕ × ℤ
  | 0, c => c
  | k + 1, c => if c.1 % 10 = 0 then dropZeros k (c.1 / 10, c.2 + 1) else c

/-- The decimal with `i + 1` significant digits nearest to `x > 0`: digits and exponent. -/
def nearDecimal (x : ℚ) (i : ℕ) : ℕ × ℤ := ((roundHalfEven (x / 10 ^ (Int.log 10 x - i))).toNat, Int.log 10 x - i)

/-- The decimal with `i + 1` significant digits next above `x > 0` (it can be the one that reads back as `x` when `x` is a power of two,
where doubles are closer together below `x` than above). -/
def upDecimal (x : ℚ) (i : ℕ) : ℕ × ℤ := (⌈x / 10 ^ (Int.log 10 x - i)⌉.toNat, Int.log 10 x - i)

/-- The value of digits and exponent. -/
def decimalValue (c : ℕ × ℤ) : ℚ := c.1 * 10 ^ c.2

/-- The fewest digits that read back as the double `x > 0` (`repr`, David Gay's mode 0); 17 always do. -/
def shortDecimal (x : ℚ) : ℕ × ℤ :=
  dropZeros 17 ((((List.range 17).flatMap fun i => [nearDecimal x i, upDecimal x i]).find? fun c =>
    decide (dbl (decimalValue c) = x)).getD (nearDecimal x 16))

/-- Digits as characters. -/
def digitText (ds : List ℕ) : List Char := ds.map fun d => charOf (some d)

/-- At least two digits. -/
def exponentText (n : ℕ) : List Char := if n < 10 then charOf (some 0) :: digitText (decDigits n) else digitText (decDigits n)

/-- `repr` of a finite double: sign and absolute value (CPython `format_float_short` with code `'r'`: exponent notation if the decimal
point would be more than 16 digits to the right or at least 4 to the left). -/
def floatText (neg : Bool) (x : ℚ) : List Char :=
  (if neg then ['-'] else []) ++
    (if x = 0 then ['0', '.', '0']
    else
      let c := shortDecimal x
      let ds := decDigits c.1
      let point : ℤ := ds.length + c.2
      if -4 < point ∧ point ≤ 16 then
        if point ≤ 0 then ['0', '.'] ++ List.replicate (-point).toNat '0' ++ digitText ds
        else if (ds.length : ℤ) ≤ point then digitText ds ++ List.replicate (point - ds.length).toNat '0' ++ ['.', '0']
        else digitText (ds.take point.toNat) ++ '.' :: digitText (ds.drop point.toNat)
      else
        digitText (ds.take 1) ++ (if ds.length ≤ 1 then [] else '.' :: digitText (ds.drop 1)) ++
          ['e', if point - 1 < 0 then '-' else '+'] ++ exponentText (point - 1).natAbs)

/-- src/output.py:23-24: the mean as shown.  A negative number that rounds to 0 keeps its sign. -/
def meanText : Option ℚ → List Char
  | none => "None".toList
  | some m => floatText (decide (m < 0)) (round2 |m|)

/-- src/output.py:25-26, src/randvar.py:132: the deviation as shown, given the variance; the `0` for a negative variance is an int. -/
def stdText : Option ℚ → List Char
  | none => "None".toList
  | some v => if 0 ≤ v then floatText false (round2 (sqrtDouble v)) else ['0']

/-- src/output.py:27 `f'{mean} ± {std}'`. -/
def headerText (m v : Option ℚ) : List Char := meanText m ++ " ± ".toList ++ stdText v

/-- src/output.py:8-44 `output(…, print_=False)`. -/
def outputFull (rv : Option Obj) (named : Option (List Char)) (showPdf : Bool) (blocksWidth : Option ℤ) (cut : ℚ) : M (List Char) :=
  outputText headerText rv named showPdf blocksWidth cut

end PythonDice
