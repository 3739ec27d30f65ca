import Mathlib.Data.Nat.Notation
import Mathlib.Data.Int.Notation

/-!
# Model of `factorial` with its table: `src/utils.py:23-29`

`Model/RV.lean` has the function without the table.  Here the table is kept between calls, and a call has a number of frames left before Python
raises `RecursionError`; the first one is that of the call itself.
-/

namespace PythonDice.Factorial

/-- src/utils.py:23 `_memoized`, the last entry first. -/
abbrev Memo := List (ℤ × ℤ)

/-- src/utils.py:26-29 `factorial`, with a number of frames; no value stands for `RecursionError`.  An entry is made after the recursive call has
returned. -/
def factorial : ℕ → ℤ → Memo → Option ℤ × Memo
  | 0, _, t => (none, t)
  | f + 1, n, t =>
    match t.lookup n with
    | some v => (some v, t)
    | none =>
      if n > 1 then
        match factorial f (n - 1) t with
        | (some v, t') => (some (n * v), (n, n * v) :: t')
        | (none, t') => (none, t')
      else (some 1, (n, 1) :: t)

/-- The table after a history of calls, each with its frames and its argument; exceptions are caught by the caller. -/
def after (h : List (ℕ × ℤ)) : Memo := h.foldl (fun t c => (factorial c.1 c.2 t).2) []

end PythonDice.Factorial
