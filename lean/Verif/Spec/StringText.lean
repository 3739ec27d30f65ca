import Verif.Spec.Text
import Mathlib.Data.List.Lex
import Mathlib.Data.Char

/-!
# Specification vocabulary: how outcomes made of strings are written

Nothing here refers to the model of the code.  What a string outcome contains is a function from strings to the number of times they occur (`none` if
they do not); the number that was added to it is recorded under `numberKey`.
-/

namespace Spec

/-- The name under which the added number is recorded. -/
def numberKey : List Char := "_UNIQUE_STRING".toList

/-- `t` is how `n` times the string `k` is written: `k` alone if once, else `n*k`. -/
def TermText (k : List Char) (n : ℤ) (t : List Char) : Prop := if n = 1 then t = k else ∃ ds, IntText n ds ∧ t = ds ++ '*' :: k

/-- `t` is how the added number is written at the end. -/
def TailText (c : Option ℤ) (t : List Char) : Prop := match c with
  | none => t = []
  | some n => ∃ ds, IntText n ds ∧ t = [' ', '+', ' '] ++ ds

/-- Terms separated by ` + `. -/
def plusJoin : List (List Char) → List Char
  | [] => []
  | [t] => t
  | t :: u :: ts => t ++ [' ', '+', ' '] ++ plusJoin (u :: ts)

/-- `t` lists the strings in ascending order, each with the number of times it occurs, then the added number. -/
def SumText (coef : List Char → Option ℤ) (t : List Char) : Prop :=
  ∃ ks terms tail, ks.Pairwise (· < ·) ∧ (∀ k, k ∈ ks ↔ k ≠ numberKey ∧ coef k ≠ none) ∧
    List.Forall₂ (fun k u => ∃ n, coef k = some n ∧ TermText k n u) ks terms ∧ TailText (coef numberKey) tail ∧ t = plusJoin terms ++ tail

/-- A string that looks like a number: an optional minus sign, digits, possibly a point and more digits, possibly a newline. -/
def Numeral (dig : Char → Bool) (s : List Char) : Prop :=
  ∃ sign a b nl, s = sign ++ a ++ b ++ nl ∧ (sign = [] ∨ sign = ['-']) ∧ a ≠ [] ∧ (∀ c ∈ a, dig c = true) ∧
    (b = [] ∨ ∃ f, b = '.' :: f ∧ f ≠ [] ∧ ∀ c ∈ f, dig c = true) ∧ (nl = [] ∨ nl = ['\n'])

/-- What is assumed of the class of digits: it contains the ten ASCII digits, and no letter, sign, point, newline, underscore or quote. -/
structure DigitClass (dig : Char → Bool) : Prop where
  ascii : ∀ d < 10, dig (digitChar d) = true
  alpha : ∀ c, c.isAlpha = true → dig c = false
  other : ∀ c ∈ ['-', '.', '\n', '_', '"'], dig c = false

/-- The strings that occur are one numeral. -/
def OneNumeral (dig : Char → Bool) (coef : List Char → Option ℤ) : Prop := ∃ s, Numeral dig s ∧ ∀ k, coef k ≠ none ↔ k = s

/-- `t` is how an outcome is shown: a number in decimal; strings as by `SumText`, between quotes if they are one numeral. -/
def Shows (dig : Char → Bool) : ℤ ⊕ (List Char → Option ℤ) → List Char → Prop
  | .inl n, t => IntText n t
  | .inr f, t => ∃ u, SumText f u ∧ (OneNumeral dig f ∧ t = '"' :: u ++ ['"'] ∨ ¬ OneNumeral dig f ∧ t = u)

/-- A string that begins with a letter and contains neither `+` nor `*`. -/
def PlainName (k : List Char) : Prop := (∃ c cs, k = c :: cs ∧ c.isAlpha = true) ∧ '+' ∉ k ∧ '*' ∉ k

/-- Outcomes that can be read back: numbers, sums of plain strings and possibly a number, and strings that look like numbers. -/
def Readable (dig : Char → Bool) : ℤ ⊕ (List Char → Option ℤ) → Prop
  | .inl _ => True
  | .inr f => (∀ k, k ≠ numberKey → f k ≠ none → PlainName k) ∨ ∃ s, Numeral dig s ∧ ∀ k, f k = if k = s then some 1 else none

end Spec
