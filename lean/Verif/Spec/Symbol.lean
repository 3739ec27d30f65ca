import Mathlib.Data.Int.Notation

/-!
# Specification vocabulary: sums of words and numbers

Nothing here refers to the model of the code.
-/

namespace Spec.Symbol

/-- A number, or words with the numbers of their occurrences (`none` for words that do not occur). -/
abbrev Content := ℤ ⊕ (List Char → Option ℤ)

/-- The occurrences of words; a number occurs that many times as a word of its own. -/
def count : Content → List Char → Option ℤ
  | .inl n, k => if k = "_UNIQUE_STRING".toList then some n else none
  | .inr c, k => c k

/-- Occurrences add up. -/
def both : Option ℤ → Option ℤ → Option ℤ
  | none, none => none
  | p, q => some (p.getD 0 + q.getD 0)

/-- The sum of two contents. -/
def plus : Content → Content → Content
  | .inl m, .inl n => .inl (m + n)
  | c, d => .inr fun k => both (count c k) (count d k)

/-- The sum of a list of contents. -/
def total : List Content → Content
  | [] => .inl 0
  | [c] => c
  | c :: cs => plus c (total cs)

end Spec.Symbol
