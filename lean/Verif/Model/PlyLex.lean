import Mathlib.Data.List.Sort
import Verif.Model.Regex
import Verif.Model.Lexer

/-!
# Model of PLY's tokenizer: `src/parser/ply/lex.py` applied to the rules of `src/parser/myparser.py`

Model/Lexer.lean describes the pieces of a text directly.  Here they come about as in the code: `lex()` collects the names that begin with `t_`,
splits them into states and token types, sorts the rules, joins their regular expressions to one for each state and compiles it;
`token()` matches it at the current position and calls the function of the rule.  Names and types are texts.
-/

namespace PythonDice.PlyLex

open Lexer (Text Report Kind Mode findColumn)
open Regex (Re)

/-! ## The module `myparser` -/

/-- The functions among the rules, src/parser/myparser.py:74-129. -/
inductive Act
  | comment
  | number
  | lowername
  | beginString
  | endString
  | newlines
  | error
  | eof
  deriving DecidableEq, Repr

/-- The value of a name of the module: a string, or a function with its line and its docstring. -/
inductive Sym
  | str (s : Text)
  | fn (line : ℕ) (doc : Text) (act : Act)
  deriving DecidableEq, Repr

/-- src/parser/myparser.py:101 `strbody`. -/
def strbody : Text := r#"[^\n"[]"#.toList

/-- src/parser/myparser.py:36-129: the names that begin with `t_`, in the order of their definition, which is that of the dictionary returned by
`get_caller_module_dict` (ply/lex.py:337-339). -/
def symbols : List (Text × Sym) :=
  [ ("t_ignore".toList, .str " \t".toList),
    ("t_instring_ignore".toList, .str []),
    ("t_PLUS".toList, .str r"\+".toList),
    ("t_MINUS".toList, .str r"-".toList),
    ("t_TIMES".toList, .str r"\*".toList),
    ("t_DIVIDE".toList, .str r"/".toList),
    ("t_POWER".toList, .str r"\^".toList),
    ("t_COLON".toList, .str r":".toList),
    ("t_LESS".toList, .str r"<".toList),
    ("t_GREATER".toList, .str r">".toList),
    ("t_EQUALS".toList, .str r"=".toList),
    ("t_NOTEQUALS".toList, .str r"!=".toList),
    ("t_AT".toList, .str r"\@".toList),
    ("t_HASH".toList, .str r"\#".toList),
    ("t_OR".toList, .str r"\|".toList),
    ("t_AND".toList, .str r"&".toList),
    ("t_EXCLAMATION".toList, .str r"!".toList),
    ("t_DOUBLE_DOT".toList, .str r"\.\.".toList),
    ("t_DOT".toList, .str r"\.".toList),
    ("t_COMMA".toList, .str r",".toList),
    ("t_LPAREN".toList, .str r"\(".toList),
    ("t_RPAREN".toList, .str r"\)".toList),
    ("t_LBRACE".toList, .str r"\{".toList),
    ("t_RBRACE".toList, .str r"\}".toList),
    ("t_LBRACKET".toList, .str r"\[".toList),
    ("t_RBRACKET".toList, .str r"\]".toList),
    ("t_UPPERNAME".toList, .str r"[A-Z_][A-Z_]*".toList),
    ("t_ignore_COMMENT".toList, .fn 74 r"\\(.|\n)*?\\".toList .comment),
    ("t_NUMBER".toList, .fn 80 r"\d+".toList .number),
    ("t_LOWERNAME".toList, .fn 86 r"[a-z][a-z]*".toList .lowername),
    ("t_begin_instring".toList, .fn 95 r#"""#.toList .beginString),
    ("t_instring_INSTRING_VAR".toList, .str r"\[[A-Z_]+\]".toList),
    ("t_instring_INSTRING_NONVAR".toList, .str (r"\[".toList ++ strbody ++ r"*".toList)),
    ("t_instring_INSTRING_ANY".toList, .str (strbody ++ r"+".toList)),
    ("t_instring_end".toList, .fn 106 r#"""#.toList .endString),
    ("t_INITIAL_ignore_newline".toList, .fn 112 r"\n+".toList .newlines),
    ("t_ANY_error".toList, .fn 118 [] .error),
    ("t_ANY_eof".toList, .fn 125 [] .eof) ]

/-- src/parser/myparser.py:21 `_reserved`. -/
def reserved : List Text :=
  ["output", "function", "loop", "over", "named", "set", "to", "if", "else", "result"].map String.toList

/-- `str.upper` on the reserved words. -/
def upper (w : Text) : Text := w.map Char.toUpper

/-- src/parser/myparser.py:24-33 `tokens`. -/
def tokenNames : List Text :=
  ["PLUS", "MINUS", "TIMES", "DIVIDE", "POWER", "COLON", "LESS", "GREATER", "EQUALS", "NOTEQUALS", "AT", "HASH", "OR", "AND", "EXCLAMATION",
    "DOT", "DOUBLE_DOT", "COMMA", "LPAREN", "RPAREN", "LBRACE", "RBRACE", "LBRACKET", "RBRACKET", "LOWERNAME", "UPPERNAME", "NUMBER", "D_OP",
    "INSTRING_ANY", "INSTRING_VAR", "INSTRING_NONVAR"].map String.toList ++ reserved.map upper

/-- ply/lex.py:723 and 486-511: the states, `INITIAL` and those of src/parser/myparser.py:16-18.  `instring` is exclusive: it does not get the
rules of `INITIAL` (ply/lex.py:806-811). -/
def stateNames : List Text := ["INITIAL".toList, "instring".toList]

/-! ## Building the lexer -/

/-- `s.split('_')` -/
def split : Text → List Text
  | [] => [[]]
  | c :: cs =>
    if c = '_' then [] :: split cs
    else match split cs with
      | [] => [[c]]
      | w :: ws => (c :: w) :: ws

/-- `'_'.join(parts)` -/
def join (parts : List Text) : Text := List.intercalate ['_'] parts

/-- ply/lex.py:388-406 `_statetoken`: the states and the token type in a name.  The loop of lines 390-392 stops at the first part, after `t`, that
is no state, at the latest at the last part. -/
def stateToken (s : Text) : List Text × Text :=
  let parts := split s
  let i := min (((parts.drop 1).takeWhile fun p => p ∈ stateNames ∨ p = "ANY".toList).length + 1) (parts.length - 1)
  let states := if i > 1 then (parts.take i).drop 1 else ["INITIAL".toList]
  (if "ANY".toList ∈ states then stateNames else states, join (parts.drop i))

/-- A rule: its name, the token type, the regular expression and the function, if it is one. -/
structure Rule where
  name : Text
  type : Text
  regex : Text
  act : Option Act
  deriving DecidableEq, Repr

/-- ply/lex.py:537-559 and 576-577: the rules given by functions in a state, sorted by line (`funcsym`). -/
def functions (ss : List (Text × Sym)) (st : Text) : List Rule :=
  ((ss.filterMap fun f => match f.2 with
    | .fn line doc act =>
      if st ∈ (stateToken f.1).1 ∧ (stateToken f.1).2 ∉ ["error".toList, "eof".toList] then
        some (line, (⟨f.1, (stateToken f.1).2, doc, some act⟩ : Rule))
      else none
    | .str _ => none).insertionSort fun a b => a.1 ≤ b.1).map (·.2)

/-- ply/lex.py:560-571 and 579-581: the rules given by strings in a state, sorted by decreasing length of the regular expression (`strsym`). -/
def strings (ss : List (Text × Sym)) (st : Text) : List Rule :=
  (ss.filterMap fun f => match f.2 with
    | .str s =>
      if st ∈ (stateToken f.1).1 ∧ (stateToken f.1).2 ≠ "ignore".toList then some (⟨f.1, (stateToken f.1).2, s, none⟩ : Rule) else none
    | .fn .. => none).insertionSort fun a b => b.regex.length ≤ a.regex.length

/-- ply/lex.py:560-563: the characters ignored in a state. -/
def ignored (ss : List (Text × Sym)) (st : Text) : Text :=
  (ss.findSome? fun f => match f.2 with
    | .str s => if st ∈ (stateToken f.1).1 ∧ (stateToken f.1).2 = "ignore".toList then some s else none
    | .fn .. => none).getD []

/-- ply/lex.py:543-548: the function for errors or for the end of the input in a state. -/
def handler (ss : List (Text × Sym)) (type : Text) (st : Text) : Option Act :=
  ss.findSome? fun f => match f.2 with
    | .fn _ _ act => if st ∈ (stateToken f.1).1 ∧ (stateToken f.1).2 = type then some act else none
    | .str _ => none

/-- `'(?P<%s>%s)' % (name, regex)`, ply/lex.py:782, 788. -/
def Rule.master (r : Rule) : Text := "(?P<".toList ++ r.name ++ ">".toList ++ r.regex ++ ")".toList

/-- The rules of a state in the order in which they are tried, ply/lex.py:778-791. -/
def rules (ss : List (Text × Sym)) (st : Text) : List Rule := functions ss st ++ strings ss st

/-- ply/lex.py:354 `'|'.join(relist)`. -/
def masterText (ss : List (Text × Sym)) (st : Text) : Text := List.intercalate ['|'] ((rules ss st).map Rule.master)

/-- `f.find('ignore_') > 0` or `tokname.find('ignore_') >= 0`: does the text occur? -/
def occurs (w : Text) : Text → Bool
  | [] => w.isEmpty
  | c :: cs => w.isPrefixOf (c :: cs) || occurs w cs

/-- ply/lex.py:592-650: does the rule pass `validate_rules`?  The functions have one argument each. -/
def valid (dig : Char → Bool) (r : Rule) : Bool :=
  !r.regex.isEmpty &&
  (r.act.isSome || r.type ∈ tokenNames || occurs "ignore_".toList r.type) &&
  match Regex.compile r.master with
  | some (e, _) => (Regex.matchAt dig e []).isNone
  | none => false

/-- What the lexer knows about a state: the master regular expression, `lexindexfunc`, the characters ignored, the functions for errors and for
the end. -/
structure Table where
  state : Text
  regex : Re
  index : List (ℕ × Option Act × Option Text)
  ignore : Text
  error : Option Act
  eof : Option Act
  deriving DecidableEq, Repr

/-- ply/lex.py:357-372: `lexindexfunc`, for the groups with names. -/
def indexFunc (rs : List Rule) (names : List (Text × ℕ)) : List (ℕ × Option Act × Option Text) :=
  names.filterMap fun g => (rs.find? fun r => r.name = g.1).map fun r =>
    (g.2, r.act, if r.act.isNone && occurs "ignore_".toList r.name then none else some r.type)

/-- ply/lex.py:774-827, for a state.  The master regular expression compiles at once; lines 374-378 are not needed. -/
def table (ss : List (Text × Sym)) (st : Text) : Option Table :=
  (Regex.compile (masterText ss st)).map fun c =>
    ⟨st, c.1, indexFunc (rules ss st) c.2, ignored ss st, handler ss "error".toList st, handler ss "eof".toList st⟩

/-- ply/lex.py:717-848 `lex()`: `none` if a rule is not valid (`SyntaxError`). -/
def build (dig : Char → Bool) (ss : List (Text × Sym)) : Option (List Table) :=
  if stateNames.all fun st => (rules ss st).all (valid dig) then stateNames.mapM (table ss) else none

/-! ## Running it -/

/-- ply/lex.py:69-76 `LexToken`. -/
structure Tok where
  type : Text
  value : Text
  lineno : ℕ
  lexpos : ℕ
  deriving DecidableEq, Repr

/-- The attributes of the lexer that change, ply/lex.py:91-121, and `LEX_ILLEGAL_CHARS`. -/
structure Lex where
  lexpos : ℕ
  lineno : ℕ
  state : Text
  illegal : List Report
  deriving DecidableEq, Repr

/-- A new lexer: ply/lex.py:91-121 and src/parser/parse_and_exec.py:10-14. -/
def Lex.new : Lex := ⟨0, 1, "INITIAL".toList, []⟩

/-- src/parser/myparser.py:74-129: what the functions return for a token, and what they do to the lexer. -/
def Act.run (data : Text) (t : Tok) (l : Lex) : Act → Option Tok × Lex
  | .comment => (none, l)
  | .number => (some t, l)
  | .lowername =>
    (some { t with type := if t.value = ['d'] then "D_OP".toList else if t.value ∈ reserved then upper t.value else "LOWERNAME".toList }, l)
  | .beginString => (none, { l with state := "instring".toList })
  | .endString => (none, { l with state := "INITIAL".toList })
  | .newlines => (none, { l with lineno := l.lineno + t.value.count '\n' })
  | .error =>
    (none, { l with illegal := l.illegal ++ [⟨t.value.head?, t.lexpos, l.lineno, findColumn data t.lexpos⟩], lexpos := l.lexpos + 1 })
  | .eof =>
    (none, if l.state = "instring".toList then
      { l with illegal := l.illegal ++ [⟨none, t.lexpos, l.lineno, findColumn data t.lexpos⟩] } else l)

/-- The table of the current state (ply/lex.py:160-168 `begin`). -/
def tableOf (ts : List Table) (st : Text) : Option Table := ts.find? fun t => t.state = st

/-- ply/lex.py:202-303 `token`, with `lexdata`; `lexliterals` is empty.  The local variable `lexpos` is kept in the lexer.  The first argument
bounds the number of turns of the loop.  A `LexError` (lines 281, 287-288), which needs a state without a function for errors, is not
modelled: `none`. -/
def token (dig : Char → Bool) (ts : List Table) (data : Text) : ℕ → Lex → Option Tok × Lex
  | 0, l => (none, l)
  | n + 1, l =>
    match tableOf ts l.state with
    | none => (none, l)
    | some tab =>
      match data.drop l.lexpos with
      | [] =>
        match tab.eof with
        | some f => f.run data ⟨"eof".toList, [], l.lineno, l.lexpos⟩ l
        | none => (none, { l with lexpos := l.lexpos + 1 })
      | c :: cs =>
        if c ∈ tab.ignore then token dig ts data n { l with lexpos := l.lexpos + 1 }
        else match Regex.matchAt dig tab.regex (c :: cs) with
          | some (rest, last) =>
            let value := (c :: cs).take ((c :: cs).length - rest.length)
            let l' := { l with lexpos := l.lexpos + value.length }
            match tab.index.find? fun e => some e.1 = last with
            | some (_, none, some type) => (some ⟨type, value, l.lineno, l.lexpos⟩, l')
            | some (_, some f, type) =>
              match f.run data ⟨type.getD [], value, l.lineno, l.lexpos⟩ l' with
              | (some t, l'') => (some t, l'')
              | (none, l'') => token dig ts data n l''
            | _ => token dig ts data n l'
          | none =>
            match tab.error with
            | none => (none, l)
            | some f =>
              match f.run data ⟨"error".toList, c :: cs, l.lineno, l.lexpos⟩ l with
              | (some t, l') => (some t, l')
              | (none, l') => token dig ts data n l'

/-- ply/lex.py:306-313: the tokens of the iteration, and the lexer at its end.  The first argument bounds the number of tokens. -/
def collect (dig : Char → Bool) (ts : List Table) (data : Text) : ℕ → Lex → List Tok × Lex
  | 0, l => ([], l)
  | n + 1, l =>
    match token dig ts data (data.length + 1) l with
    | (none, l') => ([], l')
    | (some t, l') => (t :: (collect dig ts data n l').1, (collect dig ts data n l').2)

/-- src/parser/parse_and_exec.py:17-19 `do_lex`: `input` (ply/lex.py:152-155), then the iteration. -/
def doLex (dig : Char → Bool) (ts : List Table) (data : Text) (l : Lex) : List Tok × Lex :=
  collect dig ts data (data.length + 1) { l with lexpos := 0 }

end PythonDice.PlyLex
