import Verif.Model.Lexer

/-!
# Model of the syntax trees: `Node` of `src/parser/myparser.py` as built by the grammar actions

`Node` is an untyped tree (src/parser/myparser.py:177-199).  The types below have one constructor per form of node that the
actions of lines 208-614 build, so that every value is a tree the resolver can meet.
-/

namespace PythonDice.Compiler

/-- A text. -/
abbrev Text := List Char

/-- src/parser/myparser.py:428-439, 453-465: the operators of `EXPR_OP` nodes other than `d`. -/
inductive BinOp
  | add | sub | mul | div | pow | at_ | and_ | or_ | lt | gt | eq | ne | le | ge
  deriving DecidableEq, Repr

/-- src/parser/myparser.py:475-481: the operators of `UNARY` nodes. -/
inductive UnOp
  | plus | minus | not_
  deriving DecidableEq, Repr

/-- src/parser/myparser.py:311-336: the children of a `STRING` node: text or `STRVAR`. -/
inductive StrPart
  | text (s : Text)
  | var (x : Text)
  deriving DecidableEq, Repr

/-- src/parser/myparser.py:311-336 `p_string_instring`, `p_strvar_instring`: the child made from a token; `[1:-1]` for variables. -/
def strPart (t : Lexer.Token) : StrPart :=
  if t.kind = .instringVar then .var t.value.tail.dropLast else .text t.value

mutual

/-- Expressions, src/parser/myparser.py:428-614. -/
inductive Expr
  | num (n : Text)
  | dec (a b : Text)
  | var (x : Text)
  | str (ps : List StrPart)
  | group (e : Expr)
  | bin (op : BinOp) (l r : Expr)
  | ndm (l r : Expr)
  | dm (r : Expr)
  | unary (op : UnOp) (e : Expr)
  | hash (e : Expr)
  | seq (es : Elems)
  | call (cs : CallParts)

/-- The children of a `SEQ` node, src/parser/myparser.py:521-555. -/
inductive Elems
  | nil
  | expr (e : Expr) (es : Elems)
  | range (l r : Expr) (es : Elems)

/-- The children of a `CALL` node, src/parser/myparser.py:573-614. -/
inductive CallParts
  | nil
  | word (w : Text) (cs : CallParts)
  | arg (e : Expr) (cs : CallParts)

end

/-- The children of a `FUNCNAME_DEF` node, src/parser/myparser.py:339-406: word, `PARAM`, `PARAM_WITH_DTYPE`. -/
inductive DefPart
  | word (w : Text)
  | param (x : Text)
  | typed (x t : Text)
  deriving DecidableEq, Repr

mutual

/-- Statements, src/parser/myparser.py:229-301. -/
inductive Stmt
  | output (e : Expr)
  | outputNamed (e : Expr) (name : List StrPart)
  | set (name : List StrPart) (value : Expr)
  | function (sig : List DefPart) (body : Block)
  | result (e : Expr)
  | cond (c : Expr) (body : Block) (rest : Else)
  | loop (x : Text) (over : Expr) (body : Block)
  | assign (x : Text) (e : Expr)

/-- `MULTILINE_CODE`, src/parser/myparser.py:208-221. -/
inductive Block
  | nil
  | cons (s : Stmt) (b : Block)

/-- The nodes after the first of an `IF_ELIF_ELSE` node, src/parser/myparser.py:259-294. -/
inductive Else
  | done
  | else_ (body : Block)
  | elif (c : Expr) (body : Block) (rest : Else)

end

end PythonDice.Compiler
