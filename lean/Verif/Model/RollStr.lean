import Verif.Model.Roll

/-!
# Model of `roll('NdM')` (src/roller.py)

Texts are lists of characters.  Simplification: ASCII only (Python's `int()` also accepts other Unicode digits and strips
other Unicode spaces).
-/

namespace PythonDice

/-- `s.split(c)`. -/
def splitChar (c : Char) : List Char → List (List Char)
  | [] => [[]]
  | x :: xs =>
    if x = c then [] :: splitChar c xs
    else match splitChar c xs with
      | [] => [[x]]
      | l :: ls => (x :: l) :: ls

/-- The whitespace `int()` strips. -/
def isSpace (c : Char) : Bool := (9 ≤ c.toNat && c.toNat ≤ 13) || (28 ≤ c.toNat && c.toNat ≤ 32)

/-- `s.strip()`. -/
def strip (s : List Char) : List Char := ((s.dropWhile isSpace).reverse.dropWhile isSpace).reverse

/-- The value of a decimal digit. -/
def digitVal (c : Char) : Option ℕ := if 48 ≤ c.toNat ∧ c.toNat ≤ 57 then some (c.toNat - 48) else none

/-- The rest of an `int()` literal after at least one digit: digits, single underscores allowed between digits. -/
def parseDigits : ℕ → List Char → Option ℕ
  | acc, [] => some acc
  | acc, '_' :: c :: cs => match digitVal c with
    | some d => parseDigits (10 * acc + d) cs
    | none => none
  | acc, c :: cs => match digitVal c with
    | some d => parseDigits (10 * acc + d) cs
    | none => none

/-- The digits of an `int()` literal. -/
def parseNat : List Char → Option ℕ
  | [] => none
  | c :: cs => match digitVal c with
    | some d => parseDigits d cs
    | none => none

/-- The sign and digits of an `int()` literal. -/
def parseSigned : List Char → Option ℤ
  | '-' :: cs => (parseNat cs).map fun n : ℕ => -(n : ℤ)
  | '+' :: cs => (parseNat cs).map fun n : ℕ => (n : ℤ)
  | cs => (parseNat cs).map fun n : ℕ => (n : ℤ)

/-- `int(s)` for a string: ValueError unless it is an integer literal. -/
def pyInt (s : List Char) : Except Err ℤ := match parseSigned (strip s) with
  | some n => .ok n
  | none => .error .value

/-- src/roller.py:104-106: an empty number of dice means 1. -/
def parseCount (a : List Char) : Except Err ℤ := if a = [] then .ok 1 else pyInt a

/-- src/roller.py:102-107 `_parse_from_str`: unpacking anything but two parts raises ValueError. -/
def parseFromStr (s : List Char) : Except Err (ℤ × ℤ) :=
  match splitChar 'd' s with
  | [a, b] => do
    let n ← parseCount a
    let d ← pyInt b
    return (n, d)
  | _ => .error .value

/-- src/roller.py:21-23 `roll(s)` for a string. -/
def rollStr (s : List Char) : M Obj := do
  let nd ← M.ofSettings fun _ => parseFromStr s
  roll (.num nd.1) (.num nd.2)

end PythonDice
