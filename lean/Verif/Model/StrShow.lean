import Verif.Model.StringDice
import Verif.Model.Output

/-!
# Model of how string outcomes are listed and rendered

`src/string_rvs.py` (`is_number`, `__repr__`, `__format__`), `src/randvar.py` (`get_vals_probs`) and `src/output.py` for dice with string outcomes.
`dig` says which characters `\d` matches (the Unicode decimal digits).
-/

namespace PythonDice

namespace StrVal

/-- `re.match(r'^-?\d+(\.\d+)?$', s)` (src/string_rvs.py:33) after the optional minus sign; `$` also matches before a newline at the end. -/
def unsignedRe (dig : Char → Bool) (s : PyStr) : Bool :=
  decide (s.takeWhile dig ≠ []) && match s.dropWhile dig with
    | [] => true
    | ['\n'] => true
    | '.' :: t => decide (t.takeWhile dig ≠ []) && (decide (t.dropWhile dig = []) || decide (t.dropWhile dig = ['\n']))
    | _ => false

/-- src/string_rvs.py:33: the regular expression. -/
def numberRe (dig : Char → Bool) : PyStr → Bool
  | '-' :: s => unsignedRe dig s
  | s => unsignedRe dig s

/-- src/string_rvs.py:31-33 `is_number`. -/
def isNumber (dig : Char → Bool) (a : StrVal) : Bool := match a.keys with
  | [k] => numberRe dig k
  | _ => false

/-- src/string_rvs.py:49-57: the loop of `__repr__`; `r` and `last` are its variables. -/
def reprLoop (d : CoefDict) : List PyStr → List PyStr → PyStr → List PyStr × PyStr
  | [], r, last => (r, last)
  | k :: ks, r, last =>
    if k = constKey then reprLoop d ks r (" + ".toList ++ strOfInt (dictGet d k))
    else if dictGet d k = 1 then reprLoop d ks (r ++ [k]) last
    else reprLoop d ks (r ++ [strOfInt (dictGet d k) ++ '*' :: k]) last

/-- src/string_rvs.py:46-61 `__repr__` (and `__format__`). -/
def repr (a : StrVal) : PyStr :=
  List.intercalate " + ".toList (reprLoop a.data a.keys [] []).1 ++ (reprLoop a.data a.keys [] []).2

end StrVal

namespace Out

/-- What `get_vals_probs` lists for an outcome: an int, or a `str`. -/
inductive Label
  | num (n : ℤ)
  | text (s : PyStr)
  deriving DecidableEq

/-- src/randvar.py:150-152. -/
def label (dig : Char → Bool) : Out → Label
  | num n => .num n
  | str a => if a.isNumber dig then .text ('"' :: a.repr ++ ['"']) else .text a.repr

/-- src/randvar.py:148-152. -/
def valsProbs (dig : Char → Bool) (r : RV Out) : Except Err (List (Label × ℚ)) :=
  r.pairs.mapM fun vp => if r.sumProbs = 0 then .error .zeroDivision else .ok (label dig vp.1, dbl ((vp.2 : ℚ) / (r.sumProbs : ℚ)))

/-- src/randvar.py:155 `accumulate(..., lambda x, y: (y[0], x[1] + y[1]), initial=x)`. -/
def accumProbs (x : Label × ℚ) : List (Label × ℚ) → List (Label × ℚ)
  | [] => [x]
  | y :: ys => x :: accumProbs (y.1, dbl (x.2 + y.2)) ys

/-- src/randvar.py:154-156 `vals_to_cut`. -/
def valsToCut (vp : List (Label × ℚ)) (cut : ℚ) : List Label :=
  ((accumProbs (.num 0, 0) (vp.insertionSort fun a b => a.2 ≤ b.2)).filter fun x => decide (x.2 < cut)).map (·.1)

/-- src/randvar.py:144-158 `get_vals_probs(cdf_cut)`. -/
def getValsProbs (dig : Char → Bool) (r : RV Out) (cut : ℚ) : Except Err (List (Label × ℚ)) :=
  if ¬ (0 ≤ cut ∧ cut < 1) then .error .assertion
  else do
    let vp ← valsProbs dig r
    if 0 < cut then return vp.filter fun x => decide (x.1 ∉ valsToCut vp cut)
    else return vp

/-- `str(v)` of what is listed. -/
def Label.shown : Label → PyStr
  | .num n => strOfInt n
  | .text s => s

/-- src/output.py:36: one line, without its leading newline. -/
def outputRow (maxValLen : ℕ) (blocks : ℕ) (vp : Label × ℚ) : PyStr :=
  padLeft maxValLen vp.1.shown ++ [':', ' '] ++ padLeft 5 (fixed2 (dbl (100 * vp.2))) ++ [' ', ' '] ++
    List.replicate (roundHalfEven (dbl (vp.2 * dbl blocks))).toNat '█'

/-- src/output.py:31-37: the table. -/
def outputTable (width : ℤ) (vp : List (Label × ℚ)) : Except Err PyStr :=
  match (vp.map fun x => x.1.shown.length).max? with
  | none => .error .value
  | some maxValLen =>
    let blocks := (width - maxValLen).toNat
    if RV.floatOverflow ≤ blocks then .error .overflow
    else .ok (vp.flatMap (fun x => '\n' :: outputRow maxValLen blocks x) ++ '\n' :: outputSep width)

/-- src/output.py:22-29 for a die with a string outcome: `v * p` raises TypeError (src/randvar.py:121), unless the weights sum to 0, when mean and
deviation are `None` (src/randvar.py:119-120, 124-125). -/
def header (fmt : Option ℚ → Option ℚ → List Char) (r : RV Out) : PyStr :=
  if r.sumProbs = 0 then fmt none none else "NaN ± NaN".toList

/-- src/output.py:8-44 `output(rv, named, blocks_width=width, print_=False, cdf_cut=cut)` of a die with a string outcome. -/
def outputText (dig : Char → Bool) (fmt : Option ℚ → Option ℚ → List Char) (r : RV Out) (named : Option PyStr) (width : ℤ) (cut : ℚ) :
    Except Err PyStr := do
  let vp ← getValsProbs dig r (dbl (cut / 100))
  let tbl ← outputTable width vp
  return outputName named ++ header fmt r ++ tbl

end Out

end PythonDice
