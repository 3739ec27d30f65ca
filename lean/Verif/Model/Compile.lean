import Verif.Model.Parser

/-!
# Model of `compile_anydice`: `src/parser/parse_and_exec.py:76-86`

The lexer runs over the text once (`do_lex`), then the parser calls the same lexer again (`do_yacc`).  `Lexer.input` (ply/lex.py:152-155)
sets the position to 0 but not the line.
-/

namespace PythonDice.Yacc

open Lexer (Kind Token)

/-! ## The parser with its recovery from errors -/

/-- What the loop of `LRParser.parse` ends with: a value, `None` or an exception, and for each call of `p_error` with a token the tokens from
this token on. -/
structure Parsed where
  result : Except ParseErr (Option Val)
  illegal : List (List Token)

/-- ply/yacc.py:323-581: the loop, with `errorcount`.  No rule mentions the token `error`, so that no state has an action for it: after a
syntax error all states are popped (lines 570-576), then the token `error` and with it the token that was read are dropped (lines 532-539);
at the end of the input the parser gives up (lines 544-546).  `p_error` (src/parser/myparser.py:617-622) records the token.  The first
argument bounds the number of turns. -/
def loop (T : Tables) : ℕ → Config → ℕ → List (List Token) → Option Parsed
  | 0, _, _, _ => none
  | n + 1, c, count, bad =>
    match step T c with
    | .done v => some ⟨.ok (some v), bad⟩
    | .more d => loop T n d (if d.input.length < c.input.length then count - 1 else count) bad
    | .fail .syntaxError =>
      match c.input with
      | [] => some ⟨.ok none, bad⟩
      | t :: ts => loop T n ⟨[], ts⟩ 3 (if count = 0 then bad ++ [t :: ts] else bad)
    | .fail e => some ⟨.error e, bad⟩

/-- `yaccer.parse`; the number of turns is sufficient (`C59_parser_ends`). -/
def parse (T : Tables) (ts : List Token) : Option Parsed := loop T (10 * ts.length + 4) (start ts) 0 []

end PythonDice.Yacc

namespace PythonDice.Compiler

open Lexer (Kind Token Piece Report)

/-- The tokens with `lexpos` and `lineno`, from a position and a line on. -/
def placed : ℕ → ℕ → List Piece → List (Token × ℕ × ℕ)
  | _, _, [] => []
  | pos, line, .token t :: ps => (t, pos, line) :: placed (pos + t.value.length) line ps
  | pos, line, p :: ps => placed (pos + p.text.length) (line + p.lineno) ps

/-- `lexer.lineno` after a pass. -/
def lineAfter (line : ℕ) (ps : List Piece) : ℕ := line + (ps.map Piece.lineno).sum

/-- An entry of `YACC_ILLEGALs`: `p.value`, `p.lexpos`, `p.lineno`, column. -/
structure YaccReport where
  value : Text
  pos : ℕ
  line : ℕ
  col : ℕ
  deriving DecidableEq, Repr

/-- The failures of `compile_anydice`: the assertions of src/parser/parse_and_exec.py:77, 80, 82, those of the resolver, and exceptions in
the actions of the parser. -/
inductive CompileErr
  | empty
  | lex (rs : List Report)
  | yacc (rs : List YaccReport)
  | action (e : Yacc.ParseErr)
  | resolver (e : Err)
  | internal
  deriving DecidableEq, Repr

/-- src/parser/myparser.py:617-622 `p_error`: what is recorded for a token, given the tokens in their places. -/
def yaccReport (s : Text) (tok : Token × ℕ × ℕ) : YaccReport := ⟨tok.1.value, tok.2.1, tok.2.2, Lexer.findColumn s tok.2.1⟩

/-- `YACC_ILLEGALs`: the second pass over the text starts on the line on which the first has ended. -/
def yaccReports (dig : Char → Bool) (s : Text) (bad : List (List Token)) : List YaccReport :=
  let ps := (Lexer.run dig .initial s).1
  let toks := placed 0 (lineAfter 1 ps) ps
  bad.filterMap fun ts => (toks[toks.length - ts.length]?).map (yaccReport s)

/-- src/parser/parse_and_exec.py:81-85. -/
def compileTree (T : Yacc.Tables) (fl : Flags) (dig : Char → Bool) (s : Text) : Except CompileErr Text :=
  match Yacc.parse T (Lexer.tokens dig s) with
  | some ⟨.ok (some (.block b)), []⟩ =>
    match resolve fl b with
    | .ok t => .ok t
    | .error e => .error (.resolver e)
  | some ⟨.ok _, bad⟩ => .error (.yacc (yaccReports dig s bad))
  | some ⟨.error e, _⟩ => .error (.action e)
  | none => .error .internal

/-- src/parser/parse_and_exec.py:76-86 `compile_anydice`, for given tables of the parser. -/
def compileWith (T : Yacc.Tables) (fl : Flags) (dig : Char → Bool) (s : Text) : Except CompileErr Text :=
  if blank s then .error .empty
  else if Lexer.reports dig s ≠ [] then .error (.lex (Lexer.reports dig s))
  else compileTree T fl dig s

/-- src/parser/parse_and_exec.py:76-86 `compile_anydice`. -/
def compile (fl : Flags) (dig : Char → Bool) (s : Text) : Except CompileErr Text := compileWith Yacc.tables fl dig s

end PythonDice.Compiler
