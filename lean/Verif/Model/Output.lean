import Verif.Model.Stats

/-!
# Model of `src/output.py`: rendering as text (`print_=False`)

Texts are lists of characters.  The rendering of the mean and the standard deviation in the header
(`round(x, 2)` of a double and its `repr`) is a parameter here; Model/Header.lean supplies it.
-/

namespace PythonDice

/-- A character of `str(n)`. -/
def charOf : Option ℕ → Char
  | none => '-'
  | some d => ['0', '1', '2', '3', '4', '5', '6', '7', '8', '9'].getD d '?'

/-- `str(n)` for an int. -/
def strOfInt (n : ℤ) : List Char := (strInt n).map charOf

/-- `f'{x:.2f}'` for a double `x ≥ 0`: the exact value rounded to hundredths, ties to even. -/
def fixed2 (x : ℚ) : List Char :=
  let n := (roundHalfEven (100 * x)).toNat
  (decDigits (n / 100)).map (fun d => charOf (some d)) ++ ['.', charOf (some (n % 100 / 10)), charOf (some (n % 10))]

/-- `f'{s:>w}'`. -/
def padLeft (w : ℕ) (s : List Char) : List Char := List.replicate (w - s.length) ' ' ++ s

/-- src/output.py:36: one line, without its leading newline.  `p * blocks` and `100 * p` are rounded to doubles. -/
def outputRow (maxValLen : ℕ) (blocks : ℕ) (vp : ℤ × ℚ) : List Char :=
  padLeft maxValLen (strOfInt vp.1) ++ [':', ' '] ++ padLeft 5 (fixed2 (dbl (100 * vp.2))) ++ [' ', ' '] ++
    List.replicate (roundHalfEven (dbl (vp.2 * dbl blocks))).toNat '█'

/-- src/output.py:37, 52: `'-' * (blocks_width + 8)`. -/
def outputSep (width : ℤ) : List Char := List.replicate (width + 8).toNat '-'

/-- src/output.py:18-20, 48-50: `named + ' '`. -/
def outputName : Option (List Char) → List Char
  | some n => n ++ [' ']
  | none => []

/-- src/output.py:22-29: mean and deviation, or `NaN ± NaN` if computing them raises; `fmt` is given the mean and the variance whose
root is the deviation. -/
def outputHeader (fmt : Option ℚ → Option ℚ → List Char) (st : Settings) (r : RV ℤ) : List Char :=
  match r.mean, r.var st with
  | .ok m, .ok s => fmt m s
  | _, _ => "NaN ± NaN".toList

/-- src/output.py:47-60 `_output_blank`. -/
def outputBlank (named : Option (List Char)) (width : ℤ) : List Char :=
  outputName named ++ '\n' :: outputSep width

/-- src/output.py:31-37: the table.  `max()` of no lengths raises ValueError; a width too large for a double raises. -/
def outputTable (width : ℤ) (vp : List (ℤ × ℚ)) : Except Err (List Char) :=
  match (vp.map fun x => (strOfInt x.1).length).max? with
  | none => .error .value
  | some maxValLen =>
    let blocks := (width - maxValLen).toNat
    if RV.floatOverflow ≤ blocks then .error .overflow
    else .ok (vp.flatMap (fun x => '\n' :: outputRow maxValLen blocks x) ++ '\n' :: outputSep width)

/-- src/output.py:31: the table if `show_pdf`. -/
def outputPdf (showPdf : Bool) (width : ℤ) (cut : ℚ) (r : RV ℤ) : Except Err (List Char) :=
  if showPdf then do
    let vp ← r.getValsProbs (dbl (cut / 100))
    outputTable width vp
  else .ok []

/-- src/output.py:11-15: what is drawn as blank (`none` is Python's `None`). -/
def outputsBlank : Option Obj → Bool
  | none => true
  | some (.seq s) => s.length = 0
  | some (.blank _) => true
  | _ => false

/-- src/output.py:8-44 `output(rv, named, show_pdf, blocks_width, print_=False, cdf_cut)`. -/
def outputText (fmt : Option ℚ → Option ℚ → List Char) (rv : Option Obj) (named : Option (List Char)) (showPdf : Bool)
    (blocksWidth : Option ℤ) (cut : ℚ) : M (List Char) := do
  let st ← M.settings
  let width := blocksWidth.getD st.defaultOutputWidth
  if outputsBlank rv then pure (outputBlank named width)
  else
    let r ← getRv (rv.getD (.blank false))
    let tbl ← M.ofSettings fun _ => outputPdf showPdf width cut r
    pure (outputName named ++ outputHeader fmt st r ++ tbl)

end PythonDice
