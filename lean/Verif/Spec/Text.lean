import Mathlib.Data.List.Basic
import Mathlib.Data.Int.Basic

/-!
# Specification vocabulary: text

Nothing here refers to the model of the code.
-/

namespace Spec

/-- The lines of a text (the pieces between newline characters). -/
def splitLines : List Char → List (List Char)
  | [] => [[]]
  | c :: cs =>
    if c = '\n' then [] :: splitLines cs
    else match splitLines cs with
      | [] => [[c]]
      | l :: ls => (c :: l) :: ls

/-- The ten digit characters. -/
def digitChar (d : ℕ) : Char := ['0', '1', '2', '3', '4', '5', '6', '7', '8', '9'].getD d '?'

/-- `cs` is the decimal notation of `n`: digits, no leading zero, the right value. -/
structure NatText (n : ℕ) (cs : List Char) : Prop where
  ex : ∃ ds : List ℕ, cs = ds.map digitChar ∧ (∀ d ∈ ds, d < 10) ∧ ds ≠ [] ∧ (ds.head? = some 0 → ds = [0]) ∧
    ds.foldl (fun a d => 10 * a + d) 0 = n

/-- `cs` is the decimal notation of the integer `n`, with a minus sign if negative. -/
def IntText (n : ℤ) (cs : List Char) : Prop :=
  if n < 0 then ∃ ds, cs = '-' :: ds ∧ NatText n.natAbs ds else NatText n.natAbs cs

/-- `cs` is `n` hundredths in decimal: integer part, point, two digits. -/
def HundredthsText (n : ℕ) (cs : List Char) : Prop :=
  ∃ ds, NatText (n / 100) ds ∧ cs = ds ++ ['.', digitChar (n % 100 / 10), digitChar (n % 10)]

/-- The white space Python's `int()` ignores around a literal (ASCII). -/
def blankChars : List Char := ['\t', '\n', '\x0b', '\x0c', '\r', '\x1c', '\x1d', '\x1e', '\x1f', ' ']

/-- The digits of an integer literal: each may be separated from the previous one by a single underscore. -/
def litDigits : List (Bool × ℕ) → List Char
  | [] => []
  | (u, d) :: ds => (if u then ['_', digitChar d] else [digitChar d]) ++ litDigits ds

/-- What Python's `int()` accepts (ASCII), with its value: white space, at most one sign, digits, white space. -/
structure IntLiteral (n : ℤ) (cs : List Char) : Prop where
  ex : ∃ (a sign : List Char) (d : ℕ) (ds : List (Bool × ℕ)) (b : List Char),
    cs = a ++ (sign ++ digitChar d :: litDigits ds) ++ b ∧ (∀ c ∈ a, c ∈ blankChars) ∧ (∀ c ∈ b, c ∈ blankChars) ∧
    d < 10 ∧ (∀ x ∈ ds, x.2 < 10) ∧
    (sign = ['-'] ∧ n = -((ds.foldl (fun a x => 10 * a + x.2) d : ℕ) : ℤ) ∨
      (sign = [] ∨ sign = ['+']) ∧ n = ((ds.foldl (fun a x => 10 * a + x.2) d : ℕ) : ℤ))

theorem splitLines_single {a : List Char} (h : '\n' ∉ a) : splitLines a = [a] := by
  induction a with
  | nil => rfl
  | cons c a ih =>
    rw [List.mem_cons, not_or] at h
    rw [splitLines, if_neg (Ne.symm h.1), ih h.2]

theorem splitLines_cons {a b : List Char} (h : '\n' ∉ a) : splitLines (a ++ '\n' :: b) = a :: splitLines b := by
  induction a with
  | nil => rw [List.nil_append, splitLines, if_pos rfl]
  | cons c a ih =>
    rw [List.mem_cons, not_or] at h
    rw [List.cons_append, splitLines, if_neg (Ne.symm h.1), ih h.2]

end Spec
