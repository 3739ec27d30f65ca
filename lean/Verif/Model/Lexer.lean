import Mathlib.Data.List.Basic

/-!
# Model of the tokenizer: the rules of `src/parser/myparser.py` run by `src/parser/ply/lex.py`

PLY tries the rules given by functions in the order of their definition, then the rules given by strings in order of
decreasing length of the regular expression (ply/lex.py:575-581, 774-799).  Texts are lists of characters.  `\d` matches every
Unicode decimal digit; which characters these are is the parameter `dig`.
-/

namespace PythonDice.Lexer

/-- A text. -/
abbrev Text := List Char

/-- src/parser/myparser.py:20-33: the token types. -/
inductive Kind
  | plus | minus | times | divide | power | colon | less | greater | equals | notequals | at_ | hash | or_ | and_
  | exclamation | dot | doubleDot | comma | lparen | rparen | lbrace | rbrace | lbracket | rbracket
  | lowername | uppername | number | dOp | instringAny | instringVar | instringNonvar
  | output | function | loop | over | named | set | to | if_ | else_ | result
  deriving DecidableEq, Repr

/-- src/parser/ply/lex.py:69-76 `LexToken`, without its position. -/
structure Token where
  kind : Kind
  value : Text
  deriving DecidableEq, Repr

/-- The states of the lexer, src/parser/myparser.py:16-18. -/
inductive Mode
  | initial
  | instring
  deriving DecidableEq, Repr

/-- What one turn of the loop of ply/lex.py:205-287 makes of the characters it consumes. -/
inductive Piece
  | token (t : Token)
  | ignored (c : Char)
  | newlines (s : Text)
  | comment (s : Text)
  | quote
  | illegal (c : Char)
  deriving DecidableEq, Repr

/-- The characters consumed. -/
def Piece.text : Piece → Text
  | .token t => t.value
  | .ignored c => [c]
  | .newlines s => s
  | .comment s => s
  | .quote => ['"']
  | .illegal c => [c]

/-- `[a-z]` -/
def isLow (c : Char) : Bool := decide (97 ≤ c.toNat ∧ c.toNat ≤ 122)

/-- `[A-Z_]` -/
def isUp (c : Char) : Bool := decide (65 ≤ c.toNat ∧ c.toNat ≤ 90) || c == '_'

/-- src/parser/myparser.py:101 `strbody`: `[^\n"[]`. -/
def strBody (c : Char) : Bool := c != '\n' && c != '"' && c != '['

/-- src/parser/myparser.py:21-22, 88-91: the type of a lower case word. -/
def lowerKind (w : Text) : Kind :=
  if w = "d".toList then .dOp
  else if w = "output".toList then .output
  else if w = "function".toList then .function
  else if w = "loop".toList then .loop
  else if w = "over".toList then .over
  else if w = "named".toList then .named
  else if w = "set".toList then .set
  else if w = "to".toList then .to
  else if w = "if".toList then .if_
  else if w = "else".toList then .else_
  else if w = "result".toList then .result
  else .lowername

/-- src/parser/myparser.py:40-67: the tokens of one character. -/
def symKind (c : Char) : Option Kind :=
  if c = '+' then some .plus
  else if c = '-' then some .minus
  else if c = '*' then some .times
  else if c = '/' then some .divide
  else if c = '^' then some .power
  else if c = ':' then some .colon
  else if c = '<' then some .less
  else if c = '>' then some .greater
  else if c = '=' then some .equals
  else if c = '@' then some .at_
  else if c = '#' then some .hash
  else if c = '|' then some .or_
  else if c = '&' then some .and_
  else if c = '!' then some .exclamation
  else if c = '.' then some .dot
  else if c = ',' then some .comma
  else if c = '(' then some .lparen
  else if c = ')' then some .rparen
  else if c = '{' then some .lbrace
  else if c = '}' then some .rbrace
  else if c = '[' then some .lbracket
  else if c = ']' then some .rbracket
  else none

/-- src/parser/myparser.py:40-67: symbols; `!=` and `..` are tried before `!` and `.`.  Otherwise `t_ANY_error`
(lines 118-121) reports the character. -/
def stepSymbol (c : Char) (cs : Text) : Piece × Text :=
  if c = '!' ∧ cs.head? = some '=' then (.token ⟨.notequals, ['!', '=']⟩, cs.tail)
  else if c = '.' ∧ cs.head? = some '.' then (.token ⟨.doubleDot, ['.', '.']⟩, cs.tail)
  else match symKind c with
    | some k => (.token ⟨k, [c]⟩, cs)
    | none => (.illegal c, cs)

/-- One turn in state INITIAL: `t_ignore` (src/parser/myparser.py:36), then the rules of lines 74-98, 112-114, then 40-69. -/
def stepInitial (dig : Char → Bool) (c : Char) (cs : Text) : Piece × Mode × Text :=
  if c = ' ' ∨ c = '\t' then (.ignored c, .initial, cs)
  else if c = '\\' ∧ '\\' ∈ cs then
    (.comment ('\\' :: cs.takeWhile (· != '\\') ++ ['\\']), .initial, (cs.dropWhile (· != '\\')).tail)
  else if dig c then (.token ⟨.number, c :: cs.takeWhile dig⟩, .initial, cs.dropWhile dig)
  else if isLow c then
    (.token ⟨lowerKind (c :: cs.takeWhile isLow), c :: cs.takeWhile isLow⟩, .initial, cs.dropWhile isLow)
  else if c = '"' then (.quote, .instring, cs)
  else if c = '\n' then (.newlines (c :: cs.takeWhile (· == '\n')), .initial, cs.dropWhile (· == '\n'))
  else if isUp c then (.token ⟨.uppername, c :: cs.takeWhile isUp⟩, .initial, cs.dropWhile isUp)
  else ((stepSymbol c cs).1, .initial, (stepSymbol c cs).2)

/-- One turn in state instring: src/parser/myparser.py:100-108; `t_instring_ignore` is empty. -/
def stepString (c : Char) (cs : Text) : Piece × Mode × Text :=
  if c = '"' then (.quote, .initial, cs)
  else if c = '[' then
    if cs.takeWhile isUp ≠ [] ∧ (cs.dropWhile isUp).head? = some ']' then
      (.token ⟨.instringVar, '[' :: cs.takeWhile isUp ++ [']']⟩, .instring, (cs.dropWhile isUp).tail)
    else (.token ⟨.instringNonvar, '[' :: cs.takeWhile strBody⟩, .instring, cs.dropWhile strBody)
  else if strBody c then (.token ⟨.instringAny, c :: cs.takeWhile strBody⟩, .instring, cs.dropWhile strBody)
  else (.illegal c, .instring, cs)

/-- One turn of the loop. -/
def step (dig : Char → Bool) : Mode → Char → Text → Piece × Mode × Text
  | .initial, c, cs => stepInitial dig c cs
  | .instring, c, cs => stepString c cs

/-- src/parser/ply/lex.py:198-303 `token`, called until the end of the input: the pieces and the final state.  The first
argument bounds the number of turns. -/
def loop (dig : Char → Bool) : ℕ → Mode → Text → List Piece × Mode
  | _, m, [] => ([], m)
  | 0, m, _ => ([], m)
  | n + 1, m, c :: cs =>
    ((step dig m c cs).1 :: (loop dig n (step dig m c cs).2.1 (step dig m c cs).2.2).1,
      (loop dig n (step dig m c cs).2.1 (step dig m c cs).2.2).2)

/-- The whole input; every turn consumes a character. -/
def run (dig : Char → Bool) (m : Mode) (s : Text) : List Piece × Mode := loop dig s.length m s

/-- The token of a piece. -/
def Piece.token? : Piece → Option Token
  | .token t => some t
  | _ => none

/-- The tokens returned for a text, src/parser/parse_and_exec.py:17-19 `do_lex`. -/
def tokens (dig : Char → Bool) (s : Text) : List Token := (run dig .initial s).1.filterMap Piece.token?

/-- An entry of `LEX_ILLEGAL_CHARS`: an illegal character or 'Non-closed string', `lexpos`, `lineno`, column. -/
structure Report where
  what : Option Char
  pos : ℕ
  line : ℕ
  col : ℕ
  deriving DecidableEq, Repr

/-- `inp.rfind('\n', 0, lexpos) + 1`: the highest index of a newline, or -1, plus 1. -/
def lineStart (s : Text) (pos : ℕ) : ℕ :=
  match ((List.range pos).filter fun i => s[i]? == some '\n').getLast? with
  | some i => i + 1
  | none => 0

/-- src/parser/myparser.py:132-134 `find_column`. -/
def findColumn (s : Text) (pos : ℕ) : ℕ := pos - lineStart s pos + 1

/-- src/parser/myparser.py:112-114: the newlines that are counted. -/
def Piece.lineno : Piece → ℕ
  | .newlines s => s.count '\n'
  | _ => 0

/-- src/parser/myparser.py:118-121: what `t_ANY_error` appends for a piece met at `pos` on line `line`. -/
def Piece.reports (data : Text) (pos line : ℕ) : Piece → List Report
  | .illegal c => [⟨some c, pos, line, findColumn data pos⟩]
  | _ => []

/-- src/parser/myparser.py:118-129: `LEX_ILLEGAL_CHARS` after the loop. -/
def reportsFrom (data : Text) (m : Mode) : ℕ → ℕ → List Piece → List Report
  | pos, line, [] => if m = .instring then [⟨none, pos, line, findColumn data pos⟩] else []
  | pos, line, p :: ps => p.reports data pos line ++ reportsFrom data m (pos + p.text.length) (line + p.lineno) ps

/-- `LEX_ILLEGAL_CHARS` after `do_lex` with a new lexer. -/
def reports (dig : Char → Bool) (s : Text) : List Report :=
  reportsFrom s (run dig .initial s).2 0 1 (run dig .initial s).1

end PythonDice.Lexer
