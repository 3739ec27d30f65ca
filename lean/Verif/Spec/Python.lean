import Verif.Spec.Lex

/-!
# Specification vocabulary: how Python reads text

The parts of Python's lexical structure and expression grammar (The Python Language Reference, sections 2 and 6) that the generated code
can touch.  Nothing here refers to the model of the code.
-/

namespace Spec.Py

/-! ## f-strings -/

/-- What an f-string consists of: characters and replacement fields, given by the text of their expression. -/
inductive FPiece
  | char (c : Char)
  | field (e : List Char)
  deriving DecidableEq

/-- Escape sequences of one character, and whether a backslash before the character begins some other escape sequence. -/
def escape (c : Char) : Option (Option Char) :=
  if c = '\\' then some (some '\\')
  else if c = '"' then some (some '"')
  else if c = '\'' then some (some '\'')
  else if c = 'n' then some (some '\n')
  else if c = 't' then some (some '\t')
  else if c = 'r' then some (some '\r')
  else if c ∈ ['\n', 'a', 'b', 'f', 'v', 'x', 'N', 'u', 'U', '0', '1', '2', '3', '4', '5', '6', '7'] then some none
  else none

/-- Reading the rest of an f-string after `f"`, up to and including the closing quote: the pieces, and what follows.  `none` is an error.
The first argument bounds the number of steps. -/
def readF : ℕ → List Char → Option (List FPiece × List Char)
  | 0, _ => none
  | _ + 1, [] => none
  | n + 1, c :: cs =>
    if c = '"' then some ([], cs)
    else if c = '\n' ∨ c = '\r' ∨ c = '\x00' then none
    else if c = '{' then
      if cs.head? = some '{' then (readF n cs.tail).map fun r => (.char '{' :: r.1, r.2)
      else if (cs.dropWhile (· != '}')).head? = some '}' then
        (readF n (cs.dropWhile (· != '}')).tail).map fun r => (.field (cs.takeWhile (· != '}')) :: r.1, r.2)
      else none
    else if c = '}' then
      if cs.head? = some '}' then (readF n cs.tail).map fun r => (.char '}' :: r.1, r.2) else none
    else if c = '\\' then
      match cs.head?.bind escape with
      | some (some d) => (readF n cs.tail).map fun r => (.char d :: r.1, r.2)
      | some none => none
      | none => (readF n cs).map fun r => (.char '\\' :: r.1, r.2)
    else (readF n cs).map fun r => (.char c :: r.1, r.2)

/-- The value of a replacement field that is a variable `X` or `vars['X']`, given the texts of the variables. -/
def fieldValue (env : List Char → List Char) (e : List Char) : List Char :=
  if "vars['".toList <+: e ∧ "']".toList <:+ e then env ((e.drop 6).dropLast.dropLast) else env e

/-- The text an f-string evaluates to. -/
def fValue (env : List Char → List Char) (ps : List FPiece) : List Char := ps.flatMap fun
  | .char c => [c]
  | .field e => fieldValue env e

/-! ## Lines and blocks -/

/-- Physical lines: both `\n` and `\r` end a line. -/
def lines : List Char → List (List Char)
  | [] => [[]]
  | c :: cs =>
    if c = '\n' ∨ c = '\r' then [] :: lines cs
    else match lines cs with
      | l :: ls => (c :: l) :: ls
      | [] => [[c]]

/-- A text consists of the lines. -/
def IsLines (s : List Char) (ls : List (List Char)) : Prop := ls ≠ [] ∧ (∀ l ∈ ls, '\n' ∉ l) ∧ ['\n'].intercalate ls = s

/-- A line of white space. -/
def BlankLine (l : List Char) : Prop :=
  ∀ c ∈ l, c = ' ' ∨ (9 ≤ c.toNat ∧ c.toNat ≤ 13) ∨ (28 ≤ c.toNat ∧ c.toNat ≤ 31)

instance (l : List Char) : Decidable (BlankLine l) := by unfold BlankLine; infer_instance

/-- The depth and the content of a line; nothing for a blank line. -/
def readLine (l : List Char) : Option (ℕ × List Char) :=
  if l.dropWhile (· == ' ') = [] then none
  else some ((l.takeWhile (· == ' ')).length, l.dropWhile (· == ' '))

mutual

/-- A line and the block under it. -/
inductive Tree
  | node (line : List Char) (kids : Forest)

/-- A block. -/
inductive Forest
  | nil
  | cons (t : Tree) (f : Forest)

end

/-- A line that opens a block. -/
def Opens (l : List Char) : Prop := l.getLast? = some ':'
  deriving Decidable

/-- Reading a block at a depth: the lines at this depth, and under each line that opens a block — and under no other — a deeper block.
`none` is an `IndentationError`.  The first argument bounds the number of steps. -/
def readForest : ℕ → ℕ → List (ℕ × List Char) → Option (Forest × List (ℕ × List Char))
  | 0, _, _ => none
  | _ + 1, _, [] => some (.nil, [])
  | n + 1, k, (d, t) :: ls =>
    if d < k then some (.nil, (d, t) :: ls)
    else if k < d then none
    else if Opens t then
      match ls.head? with
      | none => none
      | some h =>
        if k < h.1 then
          (readForest n h.1 ls).bind fun r => (readForest n k r.2).map fun s => (.cons (.node t r.1) s.1, s.2)
        else none
    else (readForest n k ls).map fun s => (.cons (.node t .nil) s.1, s.2)

/-- The block structure of a file. -/
def readFile (s : List Char) : Option Forest :=
  match readForest (((lines s).filterMap readLine).length + 1) 0 ((lines s).filterMap readLine) with
  | some (f, []) => some f
  | _ => none

/-! ## Tokens -/

/-- Tokens of expressions. -/
inductive Tok
  | name (s : List Char)
  | int (s : List Char)
  | float (a b : List Char)
  | fstr (ps : List FPiece)
  | str (s : List Char)
  | op (s : List Char)
  deriving DecidableEq

/-- The words that are not names. -/
def keywords : List (List Char) :=
  ["False", "None", "True", "and", "as", "assert", "async", "await", "break", "class", "continue", "def", "del", "elif", "else", "except",
    "finally", "for", "from", "global", "if", "import", "in", "is", "lambda", "nonlocal", "not", "or", "pass", "raise", "return", "try",
    "while", "with", "yield"].map String.toList

/-- Characters names begin with (ASCII). -/
def nameStart (c : Char) : Bool := c.isAlpha || c == '_'

/-- Characters of names (ASCII). -/
def nameChar (c : Char) : Bool := c.isAlphanum || c == '_'

/-- Operators of two characters. -/
def ops2 : List (List Char) :=
  ["**", "//", "==", "!=", "<=", ">=", "<<", ">>", "+=", "-=", "*=", "/=", "@=", "&=", "|=", "->"].map String.toList

/-- Operators of one character. -/
def ops1 : List (List Char) := ["+", "-", "*", "/", "@", "&", "|", "~", "<", ">", "=", "(", ")", "[", "]", ","].map String.toList

/-- Decimal integers: no leading zeros, unless there are only zeros. -/
def IntLiteral (w : List Char) : Prop := w.head? ≠ some '0' ∨ ∀ c ∈ w, c = '0'

instance (w : List Char) : Decidable (IntLiteral w) := by unfold IntLiteral; infer_instance

/-- The tokens of a line, by the longest match; `none` is an error.  The first argument bounds the number of steps. -/
def lex : ℕ → List Char → Option (List Tok)
  | 0, _ => none
  | _ + 1, [] => some []
  | n + 1, c :: cs =>
    if c = ' ' then lex n cs
    else if nameStart c = true then
      if c = 'f' ∧ cs.head? = some '"' then (readF n cs.tail).bind fun p => (lex n p.2).map (.fstr p.1 :: ·)
      else if c :: cs.takeWhile nameChar ∈ keywords then none
      else (lex n (cs.dropWhile nameChar)).map (.name (c :: cs.takeWhile nameChar) :: ·)
    else if c.isDigit = true then
      if (cs.dropWhile Char.isDigit).head? = some '.' then
        if (cs.dropWhile Char.isDigit).tail.takeWhile Char.isDigit = [] then none
        else (lex n ((cs.dropWhile Char.isDigit).tail.dropWhile Char.isDigit)).map
          (.float (c :: cs.takeWhile Char.isDigit) ((cs.dropWhile Char.isDigit).tail.takeWhile Char.isDigit) :: ·)
      else if IntLiteral (c :: cs.takeWhile Char.isDigit) then
        (lex n (cs.dropWhile Char.isDigit)).map (.int (c :: cs.takeWhile Char.isDigit) :: ·)
      else none
    else if c = '\'' then
      if (cs.dropWhile (· != '\'')).head? = some '\'' then
        (lex n (cs.dropWhile (· != '\'')).tail).map (.str (cs.takeWhile (· != '\'')) :: ·)
      else none
    else if c :: cs.take 1 ∈ ops2 then (lex n cs.tail).map (.op (c :: cs.take 1) :: ·)
    else if [c] ∈ ops1 then (lex n cs).map (.op [c] :: ·)
    else none

/-! ## Expressions -/

mutual

/-- The structure of an expression.  Parentheses leave no trace.  `cmp true` continues a chain: `a < b < c` is
`cmp true "<" (cmp false "<" a b) c`, which means `a < b and b < c`. -/
inductive Expr
  | name (s : List Char)
  | int (s : List Char)
  | float (a b : List Char)
  | fstr (ps : List FPiece)
  | str (s : List Char)
  | bin (op : List Char) (l r : Expr)
  | cmp (chained : Bool) (op : List Char) (l r : Expr)
  | unary (op : List Char) (e : Expr)
  | call (f : Expr) (args : Args)
  | index (e i : Expr)
  | list (args : Args)
  deriving DecidableEq

/-- Arguments and elements. -/
inductive Args
  | nil
  | cons (e : Expr) (as : Args)
  deriving DecidableEq

end

/-- The binary operators, from those that bind least: comparisons, `|`, `&`, sums, products. -/
def binOps : ℕ → List (List Char)
  | 0 => ["<", ">", "==", "!=", "<=", ">="].map String.toList
  | 1 => ["|".toList]
  | 2 => ["&".toList]
  | 3 => ["+", "-"].map String.toList
  | 4 => ["*", "/", "//", "@"].map String.toList
  | _ => []

/-- The unary operators. -/
def unaryOps : List (List Char) := ["+", "-", "~"].map String.toList

/-- The operator that comes next. -/
def opHead : List Tok → Option (List Char)
  | .op o :: _ => some o
  | _ => none

mutual

/-- Reading an expression in which the operators outside parentheses have at least a level: 0 comparison, 1 `|`, 2 `&`, 3 sum, 4 product,
5 unary, 6 power, 7 calls, subscripts and atoms. -/
def parse : ℕ → ℕ → List Tok → Option (Expr × List Tok)
  | 0, _, _ => none
  | n + 1, k, ts =>
    if k = 0 then (parse n 1 ts).bind fun r => chain n false r.1 r.2
    else if k ≤ 4 then (parse n (k + 1) ts).bind fun r => loop n k r.1 r.2
    else if k = 5 then
      match opHead ts with
      | some o => if o ∈ unaryOps then (parse n 5 ts.tail).map fun r => (.unary o r.1, r.2) else parse n 6 ts
      | none => parse n 6 ts
    else if k = 6 then (parse n 7 ts).bind fun r => power n r.1 r.2
    else (atom n ts).bind fun r => trailers n r.1 r.2

/-- The rest of a chain of comparisons. -/
def chain : ℕ → Bool → Expr → List Tok → Option (Expr × List Tok)
  | 0, _, _, _ => none
  | n + 1, b, a, ts =>
    match opHead ts with
    | some o => if o ∈ binOps 0 then (parse n 1 ts.tail).bind fun r => chain n true (.cmp b o a r.1) r.2 else some (a, ts)
    | none => some (a, ts)

/-- The rest of a chain of binary operators of a level; they associate to the left. -/
def loop : ℕ → ℕ → Expr → List Tok → Option (Expr × List Tok)
  | 0, _, _, _ => none
  | n + 1, k, a, ts =>
    match opHead ts with
    | some o => if o ∈ binOps k then (parse n (k + 1) ts.tail).bind fun r => loop n k (.bin o a r.1) r.2 else some (a, ts)
    | none => some (a, ts)

/-- An exponent: it extends as far as possible to the right, and may be signed. -/
def power : ℕ → Expr → List Tok → Option (Expr × List Tok)
  | 0, _, _ => none
  | n + 1, a, ts =>
    match opHead ts with
    | some o => if o = "**".toList then (parse n 5 ts.tail).map fun r => (.bin o a r.1, r.2) else some (a, ts)
    | none => some (a, ts)

/-- Names, numbers, strings, parentheses, lists. -/
def atom : ℕ → List Tok → Option (Expr × List Tok)
  | 0, _ => none
  | n + 1, ts =>
    match ts with
    | .name s :: ts => some (.name s, ts)
    | .int s :: ts => some (.int s, ts)
    | .float a b :: ts => some (.float a b, ts)
    | .fstr ps :: ts => some (.fstr ps, ts)
    | .str s :: ts => some (.str s, ts)
    | .op o :: ts =>
      if o = "(".toList then
        (parse n 0 ts).bind fun r => if opHead r.2 = some ")".toList then some (r.1, r.2.tail) else none
      else if o = "[".toList then (args n "]".toList ts).map fun r => (.list r.1, r.2)
      else none
    | [] => none

/-- Calls and subscripts. -/
def trailers : ℕ → Expr → List Tok → Option (Expr × List Tok)
  | 0, _, _ => none
  | n + 1, a, ts =>
    match opHead ts with
    | some o =>
      if o = "(".toList then (args n ")".toList ts.tail).bind fun r => trailers n (.call a r.1) r.2
      else if o = "[".toList then
        (parse n 0 ts.tail).bind fun r => if opHead r.2 = some "]".toList then trailers n (.index a r.1) r.2.tail else none
      else some (a, ts)
    | none => some (a, ts)

/-- Arguments or elements, up to the closing bracket. -/
def args : ℕ → List Char → List Tok → Option (Args × List Tok)
  | 0, _, _ => none
  | n + 1, close, ts =>
    if opHead ts = some close then some (.nil, ts.tail)
    else (parse n 0 ts).bind fun r =>
      if opHead r.2 = some ",".toList then (args n close r.2.tail).map fun s => (.cons r.1 s.1, s.2)
      else if opHead r.2 = some close then some (.cons r.1 .nil, r.2.tail)
      else none

end

/-- Python reads the text as the expression. -/
def ReadsAs (s : List Char) (e : Expr) : Prop :=
  ∃ N, ∀ n, N ≤ n → ∃ ts, lex n s = some ts ∧ parse n 0 ts = some (e, [])

end Spec.Py

namespace Spec

/-- The text of a string literal with every `[NAME]` replaced by the text of the variable.  The first argument counts characters still to be
skipped. -/
def substitute (env : List Char → List Char) : ℕ → List Char → List Char
  | _, [] => []
  | n + 1, _ :: cs => substitute env n cs
  | 0, c :: cs =>
    if c = '[' ∧ cs.takeWhile (fun c => decide (UpLetter c)) ≠ [] ∧ (cs.dropWhile fun c => decide (UpLetter c)).head? = some ']' then
      env (cs.takeWhile fun c => decide (UpLetter c)) ++ substitute env ((cs.takeWhile fun c => decide (UpLetter c)).length + 1) cs
    else c :: substitute env 0 cs

end Spec
