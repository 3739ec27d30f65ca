import Verif.Spec.Naive
import Verif.Spec.Text
import Verif.Spec.Decimal
import Mathlib.Analysis.Real.Sqrt

/-!
# Specification vocabulary: the table that is printed for a value
-/

namespace Spec.Naive

/-- The die that is drawn for a value: a number is certain, the elements of a sequence are equally likely; nothing is drawn for an empty sequence
and for a blank. -/
def drawn : Val → Option Law
  | .num n => some (sure n)
  | .seq s => if s = [] then none else some (uniform s)
  | .die l _ => some l
  | .blank _ => none

/-- Mean and deviation in hundredths; the deviation of something certain may be written `0`. -/
def Header (mean variance : ℚ) (line : List Char) : Prop :=
  ∃ (neg : Bool) (n k : ℕ) (tm ts : List Char), line = tm ++ " ± ".toList ++ ts ∧ SignedHundredths neg n tm ∧ (neg = true → mean < 0) ∧
    |(if neg then -((n : ℚ) / 100) else (n : ℚ) / 100) - mean| ≤ 1 / 200 + 1 / 10 ^ 12 ∧ (ShortHundredths k ts ∨ ts = ['0'] ∧ k = 0) ∧
    |(k : ℝ) / 100 - √(variance : ℝ)| ≤ 1 / 200 + 1 / 10000

/-- The table of a value: a line with the name and mean and deviation (if outcomes are not too large), then a line for every possible outcome in
ascending order, then a line of dashes; if there is nothing to draw, the line with the name and the line of dashes. -/
def PrintedTable (W : ℤ) (named : Option (List Char)) (v : Val) (lines : List (List Char)) : Prop :=
  match drawn v with
  | none => lines = [(named.map (· ++ [' '])).getD [], List.replicate (W + 8).toNat '-']
  | some l => ∃ header rows lw vs, lines = ((named.map (· ++ [' '])).getD [] ++ header) :: (rows ++ [List.replicate (W + 8).toNat '-']) ∧
      vs.Pairwise (· < ·) ∧ (∀ x, x ∈ vs ↔ prob l x ≠ 0) ∧ List.Forall₂ (fun x row => RowShows lw (W - lw).toNat x (prob l x) row) vs rows ∧
      ((mean l fun x => (x : ℚ) ^ 2) ≤ 1000000 →
        Header (mean l fun x => (x : ℚ)) (mean l fun x => ((x : ℚ) - mean l fun y => (y : ℚ)) ^ 2) header)

end Spec.Naive
