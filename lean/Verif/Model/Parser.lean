import Verif.Model.Yacc
import Verif.Model.Resolver

/-!
# Model of the parser: `LRParser.parse` of `src/parser/ply/yacc.py` with the functions `p_...` of `src/parser/myparser.py`

`compile_anydice` rejects a program as soon as the parser has met one syntax error (src/parser/parse_and_exec.py:81-82), so that
error recovery (ply/yacc.py:477-579) is not part of this: the first syntax error ends the run.  `Verif.Model.Compile` adds it.
-/

namespace PythonDice.Yacc

open Lexer (Kind Token)
open Compiler

/-! ## Values -/

/-- src/parser/myparser.py:259-294: the nodes `IF`, `ELSEIF`, `ELSE`. -/
inductive Branch
  | if_ (c : Expr) (b : Block)
  | elseif (c : Expr) (b : Block)
  | else_ (b : Block)

/-- The values on the stack: `None`, texts of tokens, nodes and lists of nodes. -/
inductive Val
  | none
  | text (s : Text)
  | block (b : Block)
  | stmt (s : Stmt)
  | branches (bs : List Branch)
  | str (ps : List StrPart)
  | sig (ds : List DefPart)
  | expr (e : Expr)
  | range (l r : Expr)
  | elems (es : Elems)
  | call (cs : CallParts)

/-- src/parser/myparser.py:183-185 `with_child`, for `MULTILINE_CODE`. -/
def addStmt : Block → Stmt → Block
  | .nil, s => .cons s .nil
  | .cons t b, s => .cons t (addStmt b s)

/-- `with_child`, for `SEQ`. -/
def addElem : Elems → Val → Option Elems
  | .nil, .expr e => some (.expr e .nil)
  | .nil, .range l r => some (.range l r .nil)
  | .nil, _ => .none
  | .expr e es, v => (addElem es v).map (.expr e)
  | .range l r es, v => (addElem es v).map (.range l r)

/-- `with_child`, for `CALL` and words. -/
def addWord : CallParts → Text → CallParts
  | .nil, w => .word w .nil
  | .word v cs, w => .word v (addWord cs w)
  | .arg e cs, w => .arg e (addWord cs w)

/-- `with_child`, for `CALL` and `CALL_EXPR`. -/
def addArg : CallParts → Expr → CallParts
  | .nil, e => .arg e .nil
  | .word v cs, e => .word v (addArg cs e)
  | .arg f cs, e => .arg f (addArg cs e)

/-! ## Actions -/

/-- How an action or the parser fails. -/
inductive ParseErr
  | syntaxError
  | indexError
  | internal
  deriving DecidableEq, Repr

/-- The branches after the first. -/
def elseOf : List Branch → Option Else
  | [] => some .done
  | [.else_ b] => some (.else_ b)
  | .elseif c b :: bs => (elseOf bs).map (.elif c b)
  | _ => .none

/-- src/parser/myparser.py:268: `IF_ELIF_ELSE`. -/
def condOf : List Branch → Option Stmt
  | .if_ c b :: bs => (elseOf bs).map (.cond c b)
  | _ => .none

/-- The operators, by their texts. -/
def binOpOf (s : Text) : Option BinOp :=
  if s = "+".toList then some .add
  else if s = "-".toList then some .sub
  else if s = "*".toList then some .mul
  else if s = "/".toList then some .div
  else if s = "^".toList then some .pow
  else if s = "@".toList then some .at_
  else if s = "&".toList then some .and_
  else if s = "|".toList then some .or_
  else if s = "<".toList then some .lt
  else if s = ">".toList then some .gt
  else if s = "=".toList then some .eq
  else if s = "!=".toList then some .ne
  else if s = "<=".toList then some .le
  else if s = ">=".toList then some .ge
  else .none

/-- The unary operators, by their texts. -/
def unOpOf (s : Text) : Option UnOp :=
  if s = "+".toList then some .plus
  else if s = "-".toList then some .minus
  else if s = "!".toList then some .not_
  else .none

/-- A value, unless it is missing. -/
def orInternal : Option Val → Except ParseErr Val
  | some v => .ok v
  | .none => .error .internal

/-- src/parser/myparser.py:229-256 `p_single_code` -/
def pSingleCode : List Val → Except ParseErr Val
  | [.text k, .expr e] => if k = "output".toList then .ok (.stmt (.output e)) else .error .internal
  | [.text k, .expr e, _, .str n] => if k = "output".toList then .ok (.stmt (.outputNamed e n)) else .error .internal
  | [.text k, _, .sig ds, _, .block b, _] => if k = "function".toList then .ok (.stmt (.function ds b)) else .error .internal
  | [.text k, .text x, _, .expr e, _, .block b, _] => if k = "loop".toList then .ok (.stmt (.loop x e b)) else .error .internal
  | [.text k, .str n, _, .str v] => if k = "set".toList then .ok (.stmt (.set n (.str v))) else .error .internal
  | [.text k, .str n, _, .expr v] => if k = "set".toList then .ok (.stmt (.set n v)) else .error .internal
  | [.text k, _, .expr e] => if k = "result".toList then .ok (.stmt (.result e)) else .error .internal
  | _ => .error .internal

/-- src/parser/myparser.py:259-268 `p_single_code_if_elseif_else` -/
def pIfElseifElse : List Val → Except ParseErr Val
  | [.branches a] => orInternal ((condOf a).map .stmt)
  | [.branches a, .branches b] => orInternal ((condOf (a ++ b)).map .stmt)
  | [.branches a, .branches b, .branches c] => orInternal ((condOf (a ++ b ++ c)).map .stmt)
  | _ => .error .internal

/-- src/parser/myparser.py:285-294 `p_elif` -/
def pElif : List Val → Except ParseErr Val
  | [.branches bs, _, _, .expr c, _, .block b, _] => .ok (.branches (bs ++ [.elseif c b]))
  | [.text _, _, .expr c, _, .block b, _] => .ok (.branches [.elseif c b])
  | _ => .error .internal

/-- src/parser/myparser.py:311-322 `p_string_instring` -/
def pStringInstring : List Val → Except ParseErr Val
  | [.str ps, .text s] => .ok (.str (ps ++ [.text s]))
  | [.text s] => .ok (.str [.text s])
  | _ => .error .internal

/-- src/parser/myparser.py:325-336 `p_strvar_instring` -/
def pStrvarInstring : List Val → Except ParseErr Val
  | [.str ps, .text s] => .ok (.str (ps ++ [.var s.tail.dropLast]))
  | [.text s] => .ok (.str [.var s.tail.dropLast])
  | _ => .error .internal

/-- src/parser/myparser.py:339-367 `p_funcname_def`; lines 370-383 `p_funcname_def_impossibletocall`: `p[1]` does not exist for the
empty rule. -/
def pFuncnameDef : List Val → Except ParseErr Val
  | [.sig ds, .text w] => .ok (.sig (ds ++ [.word w]))
  | [.text w] => .ok (.sig [.word w])
  | [] => .error .indexError
  | _ => .error .internal

/-- src/parser/myparser.py:386-406 `p_funcname_def_param` -/
def pFuncnameDefParam : List Val → Except ParseErr Val
  | [.sig ds, .text x] => .ok (.sig (ds ++ [.param x]))
  | [.sig ds, .text x, _, .text t] => .ok (.sig (ds ++ [.typed x t]))
  | [.text x] => .ok (.sig [.param x])
  | [.text x, _, .text t] => .ok (.sig [.typed x t])
  | _ => .error .internal

/-- src/parser/myparser.py:428-439 `p_expression_binop`, 453-465 `p_expression_comparison` -/
def pExpressionBinop : List Val → Except ParseErr Val
  | [.expr l, .text op, .expr r] => orInternal ((binOpOf op).map fun o => .expr (.bin o l r))
  | [.expr l, .text a, .text b, .expr r] => orInternal ((binOpOf (a ++ b)).map fun o => .expr (.bin o l r))
  | _ => .error .internal

/-- src/parser/myparser.py:442-450 `p_expression_dop` -/
def pExpressionDop : List Val → Except ParseErr Val
  | [.expr l, _, .expr r] => .ok (.expr (.ndm l r))
  | [_, .expr r] => .ok (.expr (.dm r))
  | _ => .error .internal

/-- src/parser/myparser.py:521-530 `p_term_seq` -/
def pTermSeq : List Val → Except ParseErr Val
  | [_, .text _] => .ok (.expr (.seq .nil))
  | [_, .elems es, _] => .ok (.expr (.seq es))
  | _ => .error .internal

/-- src/parser/myparser.py:532-540 `p_elements` -/
def pElements : List Val → Except ParseErr Val
  | [.elems es, _, v] => orInternal ((addElem es v).map .elems)
  | [v] => orInternal ((addElem .nil v).map .elems)
  | _ => .error .internal

/-- src/parser/myparser.py:573-601 `p_call_elements` -/
def pCallElements : List Val → Except ParseErr Val
  | [.call cs, .text w] => .ok (.call (addWord cs w))
  | [.text w] => .ok (.call (.word w .nil))
  | _ => .error .internal

/-- src/parser/myparser.py:604-614 `p_call_elements_expr`: if the first expression is a call, `p[1].type` is `CALL` and `p[2]` does not
exist. -/
def pCallElementsExpr : List Val → Except ParseErr Val
  | [.call cs, .expr e] => .ok (.call (addArg cs e))
  | [.expr (.call _)] => .error .indexError
  | [.expr e] => .ok (.call (.arg e .nil))
  | _ => .error .internal

/-- The functions `p_...`: the value of the left side from those of the right side. -/
def Func.run : Func → List Val → Except ParseErr Val
  | .multilineCode, [.stmt s] => .ok (.block (.cons s .nil))
  | .multilineCode, [.block b, .stmt s] => .ok (.block (addStmt b s))
  | .multilineCodeEmpty, [_] => .ok (.block .nil)
  | .empty, [] => .ok .none
  | .singleCode, vs => pSingleCode vs
  | .singleCodeIfElseifElse, vs => pIfElseifElse vs
  | .if_, [_, .expr c, _, .block b, _] => .ok (.branches [.if_ c b])
  | .else_, [_, _, .block b, _] => .ok (.branches [.else_ b])
  | .elif, vs => pElif vs
  | .varAssign, [.text x, _, .expr e] => .ok (.stmt (.assign x e))
  | .varName, [v] => .ok v
  | .stringInstring, vs => pStringInstring vs
  | .strvarInstring, vs => pStrvarInstring vs
  | .funcnameDef, vs => pFuncnameDef vs
  | .funcnameDefImpossibletocall, vs => pFuncnameDef vs
  | .funcnameDefParam, vs => pFuncnameDefParam vs
  | .expressionBinop, vs => pExpressionBinop vs
  | .expressionDop, vs => pExpressionDop vs
  | .expressionComparison, vs => pExpressionBinop vs
  | .expressionTerm, [v] => .ok v
  | .termUnary, [.text op, .expr e] => orInternal ((unOpOf op).map fun o => .expr (.unary o e))
  | .termHash, [_, .expr e] => .ok (.expr (.hash e))
  | .termGrouped, [_, .expr e, _] => .ok (.expr (.group e))
  | .termNumber, [.text n] => .ok (.expr (.num n))
  | .termNumberDecimal, [.text a, _, .text b] => .ok (.expr (.dec a b))
  | .termName, [.text x] => .ok (.expr (.var x))
  | .termSeq, vs => pTermSeq vs
  | .elements, vs => pElements vs
  | .element, [v] => .ok v
  | .range, [.expr l, _, .expr r] => .ok (.range l r)
  | .strElement, [.str ps] => .ok (.expr (.str ps))
  | .termCall, [_, .call cs, _] => .ok (.expr (.call cs))
  | .callElements, vs => pCallElements vs
  | .callElementsExpr, vs => pCallElementsExpr vs
  | _, _ => .error .internal

/-! ## The parser -/

/-- ply/yacc.py:2404-2410: the tables for the grammar; there are fewer than 200 states. -/
def tables : Tables := build precedence rules 200

/-- `actions[state].get(ltype)`; no state has a single entry that is a reduction, so that `defaulted_states` (ply/yacc.py:255-261) is
empty (`no_defaulted_states`). -/
def action (T : Tables) (s a : ℕ) : Option Action := assoc a (T.action.getD s [])

/-- `goto[state][pname]` -/
def goto (T : Tables) (s : ℕ) (x : NT) : Option ℕ := assoc (ntCode x) (T.goto.getD s [])

/-- ply/yacc.py:307-322: the stacks, top first, and the tokens not yet shifted. -/
structure Config where
  stack : List (ℕ × Val)
  input : List Token

/-- `statestack[-1]` -/
def top : List (ℕ × Val) → ℕ
  | [] => 0
  | (s, _) :: _ => s

/-- ply/yacc.py:331-343: the type of the lookahead. -/
def ahead : List Token → ℕ
  | [] => endCode
  | t :: _ => kindCode t.kind

/-- What a turn of the loop comes to. -/
inductive Outcome
  | done (v : Val)
  | fail (e : ParseErr)
  | more (c : Config)

/-- ply/yacc.py:371-471: a reduction. -/
def reduce (T : Tables) (r : Rule) (c : Config) : Outcome :=
  match r.func.run ((c.stack.take r.rhs.length).reverse.map Prod.snd) with
  | .error e => .fail e
  | .ok v =>
    match goto T (top (c.stack.drop r.rhs.length)) r.lhs with
    | some s => .more ⟨(s, v) :: c.stack.drop r.rhs.length, c.input⟩
    | .none => .fail .internal

/-- ply/yacc.py:323-483: a turn of the loop. -/
def step (T : Tables) (c : Config) : Outcome :=
  match action T (top c.stack) (ahead c.input) with
  | .none => .fail .syntaxError
  | some (.shift s) =>
    match c.input with
    | [] => .fail .internal
    | t :: ts => .more ⟨(s, .text t.value) :: c.stack, ts⟩
  | some (.reduce p) =>
    match rules[p - 1]? with
    | some r => reduce T r c
    | .none => .fail .internal
  | some .accept =>
    match c.stack with
    | (_, v) :: _ => .done v
    | [] => .fail .internal

/-- The loop, for a number of turns. -/
def run (T : Tables) : ℕ → Config → Option (Except ParseErr Val)
  | 0, _ => .none
  | n + 1, c =>
    match step T c with
    | .done v => some (.ok v)
    | .fail e => some (.error e)
    | .more c' => run T n c'

/-- ply/yacc.py:273-322: the start. -/
def start (ts : List Token) : Config := ⟨[], ts⟩

/-- The parser returns a tree for a list of tokens. -/
def Parses (ts : List Token) (b : Block) : Prop := ∃ n, run tables n (start ts) = some (.ok (.block b))

end PythonDice.Yacc
