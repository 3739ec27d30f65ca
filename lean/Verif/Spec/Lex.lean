import Mathlib.Data.List.Basic

/-!
# Specification vocabulary: the surface of anydice programs

Nothing here refers to the model of the code.
-/

namespace Spec

/-- Text that separates tokens: spaces, tabs, newlines, comments `\...\`. -/
inductive Layout : List Char → Prop
  | space : Layout [' ']
  | tab : Layout ['\t']
  | newline : Layout ['\n']
  | comment (body : List Char) (h : '\\' ∉ body) : Layout ('\\' :: body ++ ['\\'])
  | append {a b : List Char} (ha : Layout a) (hb : Layout b) : Layout (a ++ b)

/-- Where a character of a program stands. -/
inductive Place
  | code
  | literal
  | comment
  deriving DecidableEq

/-- Reading a program character by character: `"` opens and closes string literals, `\` opens a comment if there is another `\` to
close it; quotes in comments and backslashes in literals mean nothing. -/
def placeAfter : Place → List Char → Place
  | p, [] => p
  | .code, c :: cs =>
    if c = '"' then placeAfter .literal cs
    else if c = '\\' ∧ '\\' ∈ cs then placeAfter .comment cs
    else placeAfter .code cs
  | .literal, c :: cs => if c = '"' then placeAfter .code cs else placeAfter .literal cs
  | .comment, c :: cs => if c = '\\' then placeAfter .code cs else placeAfter .comment cs

/-- The words that are not names. -/
def reservedWords : List String :=
  ["d", "output", "function", "loop", "over", "named", "set", "to", "if", "else", "result"]

/-- Letters of function names. -/
def LowLetter (c : Char) : Prop := 'a' ≤ c ∧ c ≤ 'z'
  deriving Decidable

/-- Letters of variable names. -/
def UpLetter (c : Char) : Prop := ('A' ≤ c ∧ c ≤ 'Z') ∨ c = '_'
  deriving Decidable

/-- Characters of string literals other than `[`. -/
def LitChar (c : Char) : Prop := c ≠ '\n' ∧ c ≠ '"' ∧ c ≠ '['
  deriving Decidable

end Spec
