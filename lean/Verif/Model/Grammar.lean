import Verif.Model.Ast

/-!
# Model of the grammar: `src/parser/myparser.py:202-614`

The rules are the docstrings of the functions `p_...`, in the order of their lines (ply/yacc.py:2184-2202, 1952-1983), each with the
line it is written on.
-/

namespace PythonDice.Yacc

open Lexer (Kind)

/-- The nonterminals; `start` is the `S'` of ply/yacc.py:916-923. -/
inductive NT
  | start | multilineCode | empty | singleCode | ifExpr | elseExpr | elseifExpr | varName | string
  | funcnameDef | expression | term | elements | element | range | callElements
  deriving DecidableEq, Repr

/-- Symbols of the grammar. -/
inductive Sym
  | t (k : Kind)
  | n (x : NT)
  deriving DecidableEq, Repr

/-- The functions `p_...` of src/parser/myparser.py. -/
inductive Func
  | multilineCode | multilineCodeEmpty | empty | singleCode | singleCodeIfElseifElse | if_ | else_ | elif
  | varAssign | varName | stringInstring | strvarInstring | funcnameDef | funcnameDefImpossibletocall | funcnameDefParam
  | expressionBinop | expressionDop | expressionComparison | expressionTerm | termUnary | termHash | termGrouped
  | termNumber | termNumberDecimal | termName | termSeq | elements | element | range | strElement | termCall | callElements | callElementsExpr
  deriving DecidableEq, Repr

/-- What precedence is declared for: tokens, and names for `%prec`. -/
inductive PrecName
  | tok (k : Kind)
  | hashOp
  | uminus
  | uplus
  deriving DecidableEq, Repr

/-- `'left'`, `'right'`, `'nonassoc'` -/
inductive Assoc
  | left
  | right
  | nonassoc
  deriving DecidableEq, Repr

/-- src/parser/myparser.py:410-424 `precedence`. -/
def precedence : List (Assoc × List PrecName) :=
  [(.left, [.tok .or_]),
    (.left, [.tok .and_]),
    (.left, [.tok .less, .tok .greater, .tok .equals, .tok .notequals]),
    (.left, [.tok .plus, .tok .minus]),
    (.left, [.tok .times, .tok .divide]),
    (.left, [.tok .power]),
    (.left, [.tok .at_]),
    (.left, [.tok .dOp]),
    (.right, [.hashOp]),
    (.right, [.tok .exclamation]),
    (.right, [.uminus, .uplus]),
    (.left, [.tok .dot])]

/-- A rule as written: left side, right side, `%prec`, function, line. -/
structure Rule where
  lhs : NT
  rhs : List Sym
  prec : Option PrecName
  func : Func
  line : ℕ
  deriving DecidableEq, Repr

/-- src/parser/myparser.py:208-216 `p_multiline_code` -/
def multilineCodeRules : List Rule :=
  [⟨.multilineCode, [.n .singleCode], none, .multilineCode, 210⟩,
    ⟨.multilineCode, [.n .multilineCode, .n .singleCode], none, .multilineCode, 211⟩]

/-- src/parser/myparser.py:219-221 `p_multiline_code_empty` -/
def multilineCodeEmptyRules : List Rule :=
  [⟨.multilineCode, [.n .empty], none, .multilineCodeEmpty, 220⟩]

/-- src/parser/myparser.py:224-226 `p_empty` -/
def emptyRules : List Rule :=
  [⟨.empty, [], none, .empty, 225⟩]

/-- src/parser/myparser.py:229-256 `p_single_code` -/
def singleCodeRules : List Rule :=
  [⟨.singleCode, [.t .output, .n .expression], none, .singleCode, 231⟩,
    ⟨.singleCode, [.t .output, .n .expression, .t .named, .n .string], none, .singleCode, 232⟩,
    ⟨.singleCode, [.t .function, .t .colon, .n .funcnameDef, .t .lbrace, .n .multilineCode, .t .rbrace],
      none, .singleCode, 234⟩,
    ⟨.singleCode, [.t .loop, .n .varName, .t .over, .n .expression, .t .lbrace, .n .multilineCode, .t .rbrace],
      none, .singleCode, 236⟩,
    ⟨.singleCode, [.t .result, .t .colon, .n .expression], none, .singleCode, 238⟩,
    ⟨.singleCode, [.t .set, .n .string, .t .to, .n .string], none, .singleCode, 239⟩,
    ⟨.singleCode, [.t .set, .n .string, .t .to, .n .expression], none, .singleCode, 240⟩]

/-- src/parser/myparser.py:259-268 `p_single_code_if_elseif_else` -/
def singleCodeIfElseifElseRules : List Rule :=
  [⟨.singleCode, [.n .ifExpr], none, .singleCodeIfElseifElse, 261⟩,
    ⟨.singleCode, [.n .ifExpr, .n .elseExpr], none, .singleCodeIfElseifElse, 262⟩,
    ⟨.singleCode, [.n .ifExpr, .n .elseifExpr], none, .singleCodeIfElseifElse, 263⟩,
    ⟨.singleCode, [.n .ifExpr, .n .elseifExpr, .n .elseExpr], none, .singleCodeIfElseifElse, 264⟩]

/-- src/parser/myparser.py:271-275 `p_if` -/
def ifRules : List Rule :=
  [⟨.ifExpr, [.t .if_, .n .expression, .t .lbrace, .n .multilineCode, .t .rbrace], none, .if_, 273⟩]

/-- src/parser/myparser.py:278-282 `p_else` -/
def elseRules : List Rule :=
  [⟨.elseExpr, [.t .else_, .t .lbrace, .n .multilineCode, .t .rbrace], none, .else_, 280⟩]

/-- src/parser/myparser.py:285-294 `p_elif` -/
def elifRules : List Rule :=
  [⟨.elseifExpr, [.t .else_, .t .if_, .n .expression, .t .lbrace, .n .multilineCode, .t .rbrace], none, .elif, 287⟩,
    ⟨.elseifExpr, [.n .elseifExpr, .t .else_, .t .if_, .n .expression, .t .lbrace, .n .multilineCode, .t .rbrace],
      none, .elif, 288⟩]

/-- src/parser/myparser.py:297-301 `p_var_assign` -/
def varAssignRules : List Rule :=
  [⟨.singleCode, [.n .varName, .t .colon, .n .expression], none, .varAssign, 299⟩]

/-- src/parser/myparser.py:304-308 `p_var_name` -/
def varNameRules : List Rule :=
  [⟨.varName, [.t .uppername], none, .varName, 306⟩]

/-- src/parser/myparser.py:311-322 `p_string_instring` -/
def stringInstringRules : List Rule :=
  [⟨.string, [.t .instringAny], none, .stringInstring, 313⟩,
    ⟨.string, [.t .instringNonvar], none, .stringInstring, 314⟩,
    ⟨.string, [.n .string, .t .instringAny], none, .stringInstring, 315⟩,
    ⟨.string, [.n .string, .t .instringNonvar], none, .stringInstring, 316⟩]

/-- src/parser/myparser.py:325-336 `p_strvar_instring` -/
def strvarInstringRules : List Rule :=
  [⟨.string, [.t .instringVar], none, .strvarInstring, 327⟩,
    ⟨.string, [.n .string, .t .instringVar], none, .strvarInstring, 328⟩]

/-- src/parser/myparser.py:339-367 `p_funcname_def` -/
def funcnameDefRules : List Rule :=
  [⟨.funcnameDef, [.t .lowername], none, .funcnameDef, 341⟩,
    ⟨.funcnameDef, [.t .output], none, .funcnameDef, 342⟩,
    ⟨.funcnameDef, [.t .function], none, .funcnameDef, 343⟩,
    ⟨.funcnameDef, [.t .loop], none, .funcnameDef, 344⟩,
    ⟨.funcnameDef, [.t .over], none, .funcnameDef, 345⟩,
    ⟨.funcnameDef, [.t .named], none, .funcnameDef, 346⟩,
    ⟨.funcnameDef, [.t .set], none, .funcnameDef, 347⟩,
    ⟨.funcnameDef, [.t .to], none, .funcnameDef, 348⟩,
    ⟨.funcnameDef, [.t .if_], none, .funcnameDef, 349⟩,
    ⟨.funcnameDef, [.t .else_], none, .funcnameDef, 350⟩,
    ⟨.funcnameDef, [.t .result], none, .funcnameDef, 351⟩,
    ⟨.funcnameDef, [.n .funcnameDef, .t .lowername], none, .funcnameDef, 352⟩,
    ⟨.funcnameDef, [.n .funcnameDef, .t .output], none, .funcnameDef, 353⟩,
    ⟨.funcnameDef, [.n .funcnameDef, .t .function], none, .funcnameDef, 354⟩,
    ⟨.funcnameDef, [.n .funcnameDef, .t .loop], none, .funcnameDef, 355⟩,
    ⟨.funcnameDef, [.n .funcnameDef, .t .over], none, .funcnameDef, 356⟩,
    ⟨.funcnameDef, [.n .funcnameDef, .t .named], none, .funcnameDef, 357⟩,
    ⟨.funcnameDef, [.n .funcnameDef, .t .set], none, .funcnameDef, 358⟩,
    ⟨.funcnameDef, [.n .funcnameDef, .t .to], none, .funcnameDef, 359⟩,
    ⟨.funcnameDef, [.n .funcnameDef, .t .if_], none, .funcnameDef, 360⟩,
    ⟨.funcnameDef, [.n .funcnameDef, .t .else_], none, .funcnameDef, 361⟩,
    ⟨.funcnameDef, [.n .funcnameDef, .t .result], none, .funcnameDef, 362⟩]

/-- src/parser/myparser.py:370-383 `p_funcname_def_impossibletocall` -/
def funcnameDefImpossibletocallRules : List Rule :=
  [⟨.funcnameDef, [], none, .funcnameDefImpossibletocall, 372⟩,
    ⟨.funcnameDef, [.t .dOp], none, .funcnameDefImpossibletocall, 373⟩,
    ⟨.funcnameDef, [.n .funcnameDef, .t .dOp], none, .funcnameDefImpossibletocall, 374⟩]

/-- src/parser/myparser.py:386-406 `p_funcname_def_param` -/
def funcnameDefParamRules : List Rule :=
  [⟨.funcnameDef, [.n .varName], none, .funcnameDefParam, 388⟩,
    ⟨.funcnameDef, [.n .varName, .t .colon, .t .dOp], none, .funcnameDefParam, 389⟩,
    ⟨.funcnameDef, [.n .varName, .t .colon, .t .lowername], none, .funcnameDefParam, 390⟩,
    ⟨.funcnameDef, [.n .funcnameDef, .n .varName], none, .funcnameDefParam, 391⟩,
    ⟨.funcnameDef, [.n .funcnameDef, .n .varName, .t .colon, .t .dOp], none, .funcnameDefParam, 392⟩,
    ⟨.funcnameDef, [.n .funcnameDef, .n .varName, .t .colon, .t .lowername], none, .funcnameDefParam, 393⟩]

/-- src/parser/myparser.py:428-439 `p_expression_binop` -/
def expressionBinopRules : List Rule :=
  [⟨.expression, [.n .expression, .t .plus, .n .expression], none, .expressionBinop, 430⟩,
    ⟨.expression, [.n .expression, .t .minus, .n .expression], none, .expressionBinop, 431⟩,
    ⟨.expression, [.n .expression, .t .times, .n .expression], none, .expressionBinop, 432⟩,
    ⟨.expression, [.n .expression, .t .divide, .n .expression], none, .expressionBinop, 433⟩,
    ⟨.expression, [.n .expression, .t .power, .n .expression], none, .expressionBinop, 434⟩,
    ⟨.expression, [.n .expression, .t .at_, .n .expression], none, .expressionBinop, 435⟩,
    ⟨.expression, [.n .expression, .t .and_, .n .expression], none, .expressionBinop, 436⟩,
    ⟨.expression, [.n .expression, .t .or_, .n .expression], none, .expressionBinop, 437⟩]

/-- src/parser/myparser.py:442-450 `p_expression_dop` -/
def expressionDopRules : List Rule :=
  [⟨.expression, [.n .term, .t .dOp, .n .term], some (.tok .dOp), .expressionDop, 444⟩,
    ⟨.expression, [.t .dOp, .n .term], some (.tok .dOp), .expressionDop, 445⟩]

/-- src/parser/myparser.py:453-465 `p_expression_comparison` -/
def expressionComparisonRules : List Rule :=
  [⟨.expression, [.n .expression, .t .less, .n .expression], none, .expressionComparison, 455⟩,
    ⟨.expression, [.n .expression, .t .greater, .n .expression], none, .expressionComparison, 456⟩,
    ⟨.expression, [.n .expression, .t .equals, .n .expression], none, .expressionComparison, 457⟩,
    ⟨.expression, [.n .expression, .t .notequals, .n .expression], none, .expressionComparison, 458⟩,
    ⟨.expression, [.n .expression, .t .less, .t .equals, .n .expression], none, .expressionComparison, 459⟩,
    ⟨.expression, [.n .expression, .t .greater, .t .equals, .n .expression], none, .expressionComparison, 460⟩]

/-- src/parser/myparser.py:468-472 `p_expression_term` -/
def expressionTermRules : List Rule :=
  [⟨.expression, [.n .term], none, .expressionTerm, 470⟩]

/-- src/parser/myparser.py:475-481 `p_term_unary` -/
def termUnaryRules : List Rule :=
  [⟨.term, [.t .plus, .n .term], some .uplus, .termUnary, 477⟩,
    ⟨.term, [.t .minus, .n .term], some .uminus, .termUnary, 478⟩,
    ⟨.term, [.t .exclamation, .n .term], some (.tok .exclamation), .termUnary, 479⟩]

/-- src/parser/myparser.py:484-488 `p_term_hash` -/
def termHashRules : List Rule :=
  [⟨.term, [.t .hash, .n .term], some .hashOp, .termHash, 486⟩]

/-- src/parser/myparser.py:491-495 `p_term_grouped` -/
def termGroupedRules : List Rule :=
  [⟨.term, [.t .lparen, .n .expression, .t .rparen], none, .termGrouped, 493⟩]

/-- src/parser/myparser.py:498-502 `p_term_number` -/
def termNumberRules : List Rule :=
  [⟨.term, [.t .number], none, .termNumber, 500⟩]

/-- src/parser/myparser.py:505-509 `p_term_number_decimal` -/
def termNumberDecimalRules : List Rule :=
  [⟨.term, [.t .number, .t .dot, .t .number], none, .termNumberDecimal, 507⟩]

/-- src/parser/myparser.py:512-516 `p_term_name` -/
def termNameRules : List Rule :=
  [⟨.term, [.n .varName], none, .termName, 514⟩]

/-- src/parser/myparser.py:521-529 `p_term_seq` -/
def termSeqRules : List Rule :=
  [⟨.term, [.t .lbrace, .t .rbrace], none, .termSeq, 523⟩,
    ⟨.term, [.t .lbrace, .n .elements, .t .rbrace], none, .termSeq, 524⟩]

/-- src/parser/myparser.py:532-540 `p_elements` -/
def elementsRules : List Rule :=
  [⟨.elements, [.n .elements, .t .comma, .n .element], none, .elements, 534⟩,
    ⟨.elements, [.n .element], none, .elements, 535⟩]

/-- src/parser/myparser.py:543-548 `p_element` -/
def elementRules : List Rule :=
  [⟨.element, [.n .expression], none, .element, 545⟩,
    ⟨.element, [.n .range], none, .element, 546⟩]

/-- src/parser/myparser.py:551-555 `p_range` -/
def rangeRules : List Rule :=
  [⟨.range, [.n .expression, .t .doubleDot, .n .expression], none, .range, 553⟩]

/-- src/parser/myparser.py:558-562 `p_str_element` -/
def strElementRules : List Rule :=
  [⟨.term, [.n .string], none, .strElement, 560⟩]

/-- src/parser/myparser.py:566-570 `p_term_call` -/
def termCallRules : List Rule :=
  [⟨.term, [.t .lbracket, .n .callElements, .t .rbracket], none, .termCall, 568⟩]

/-- src/parser/myparser.py:573-601 `p_call_elements` -/
def callElementsRules : List Rule :=
  [⟨.callElements, [.t .lowername], none, .callElements, 575⟩,
    ⟨.callElements, [.t .output], none, .callElements, 576⟩,
    ⟨.callElements, [.t .function], none, .callElements, 577⟩,
    ⟨.callElements, [.t .loop], none, .callElements, 578⟩,
    ⟨.callElements, [.t .over], none, .callElements, 579⟩,
    ⟨.callElements, [.t .named], none, .callElements, 580⟩,
    ⟨.callElements, [.t .set], none, .callElements, 581⟩,
    ⟨.callElements, [.t .to], none, .callElements, 582⟩,
    ⟨.callElements, [.t .if_], none, .callElements, 583⟩,
    ⟨.callElements, [.t .else_], none, .callElements, 584⟩,
    ⟨.callElements, [.t .result], none, .callElements, 585⟩,
    ⟨.callElements, [.n .callElements, .t .lowername], none, .callElements, 586⟩,
    ⟨.callElements, [.n .callElements, .t .output], none, .callElements, 587⟩,
    ⟨.callElements, [.n .callElements, .t .function], none, .callElements, 588⟩,
    ⟨.callElements, [.n .callElements, .t .loop], none, .callElements, 589⟩,
    ⟨.callElements, [.n .callElements, .t .over], none, .callElements, 590⟩,
    ⟨.callElements, [.n .callElements, .t .named], none, .callElements, 591⟩,
    ⟨.callElements, [.n .callElements, .t .set], none, .callElements, 592⟩,
    ⟨.callElements, [.n .callElements, .t .to], none, .callElements, 593⟩,
    ⟨.callElements, [.n .callElements, .t .if_], none, .callElements, 594⟩,
    ⟨.callElements, [.n .callElements, .t .else_], none, .callElements, 595⟩,
    ⟨.callElements, [.n .callElements, .t .result], none, .callElements, 596⟩]

/-- src/parser/myparser.py:604-614 `p_call_elements_expr` -/
def callElementsExprRules : List Rule :=
  [⟨.callElements, [.n .expression], none, .callElementsExpr, 606⟩,
    ⟨.callElements, [.n .callElements, .n .expression], none, .callElementsExpr, 607⟩]

/-- All rules, in order. -/
def rules : List Rule :=
  multilineCodeRules ++ multilineCodeEmptyRules ++ emptyRules ++ singleCodeRules ++ singleCodeIfElseifElseRules ++
    ifRules ++ elseRules ++ elifRules ++ varAssignRules ++ varNameRules ++ stringInstringRules ++
    strvarInstringRules ++ funcnameDefRules ++ funcnameDefImpossibletocallRules ++ funcnameDefParamRules ++
    expressionBinopRules ++ expressionDopRules ++ expressionComparisonRules ++ expressionTermRules ++
    termUnaryRules ++ termHashRules ++ termGroupedRules ++ termNumberRules ++ termNumberDecimalRules ++
    termNameRules ++ termSeqRules ++ elementsRules ++ elementRules ++ rangeRules ++ strElementRules ++
    termCallRules ++ callElementsRules ++ callElementsExprRules

end PythonDice.Yacc
