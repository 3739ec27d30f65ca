import Verif.Model.Ast
import Verif.Spec.Lex

/-!
# Specification vocabulary: what occurs in a program

Stated on syntax trees; nothing here refers to the code generator.
-/

namespace Spec

open PythonDice.Compiler

/-- A signature: words, and `none` for each argument position. -/
abbrev Sig := List (Option (List Char))

/-- The signature of a definition. -/
def defSig (d : List DefPart) : Sig := d.map fun
  | .word w => some w
  | .param _ => none
  | .typed _ _ => none

/-- The signature of a call. -/
def callSig : CallParts → Sig
  | .nil => []
  | .word w cs => some w :: callSig cs
  | .arg _ cs => none :: callSig cs

/-- A word of a function name. -/
def Word (w : List Char) : Prop := w ≠ [] ∧ ∀ c ∈ w, LowLetter c

/-- A name of a variable. -/
def VarName (w : List Char) : Prop := w ≠ [] ∧ ∀ c ∈ w, UpLetter c

/-- Signatures as they can be written. -/
def SigOK (s : Sig) : Prop := ∀ w, some w ∈ s → Word w

/-- The signatures of the function library. -/
def librarySigs : List Sig :=
  [[some "absolute".toList, none], [none, some "contains".toList, none],
    [some "count".toList, none, some "in".toList, none], [some "explode".toList, none],
    [some "highest".toList, none, some "of".toList, none], [some "lowest".toList, none, some "of".toList, none],
    [some "middle".toList, none, some "of".toList, none],
    [some "highest".toList, some "of".toList, none, some "and".toList, none],
    [some "lowest".toList, some "of".toList, none, some "and".toList, none], [some "maximum".toList, some "of".toList, none],
    [some "reverse".toList, none], [some "sort".toList, none], [some "true".toList, some "div".toList, none, none]]

mutual

/-- The first expression occurs in the second. -/
inductive SubExpr : Expr → Expr → Prop
  | refl (e) : SubExpr e e
  | group {s e} : SubExpr s e → SubExpr s (.group e)
  | binL {s op l r} : SubExpr s l → SubExpr s (.bin op l r)
  | binR {s op l r} : SubExpr s r → SubExpr s (.bin op l r)
  | ndmL {s l r} : SubExpr s l → SubExpr s (.ndm l r)
  | ndmR {s l r} : SubExpr s r → SubExpr s (.ndm l r)
  | dm {s r} : SubExpr s r → SubExpr s (.dm r)
  | unary {s op e} : SubExpr s e → SubExpr s (.unary op e)
  | hash {s e} : SubExpr s e → SubExpr s (.hash e)
  | seq {s es} : SubElem s es → SubExpr s (.seq es)
  | call {s cs} : SubArg s cs → SubExpr s (.call cs)

/-- The expression occurs in an element. -/
inductive SubElem : Expr → Elems → Prop
  | expr {s e es} : SubExpr s e → SubElem s (.expr e es)
  | rangeL {s l r es} : SubExpr s l → SubElem s (.range l r es)
  | rangeR {s l r es} : SubExpr s r → SubElem s (.range l r es)
  | afterExpr {s e es} : SubElem s es → SubElem s (.expr e es)
  | afterRange {s l r es} : SubElem s es → SubElem s (.range l r es)

/-- The expression occurs in an argument. -/
inductive SubArg : Expr → CallParts → Prop
  | arg {s e cs} : SubExpr s e → SubArg s (.arg e cs)
  | afterWord {s w cs} : SubArg s cs → SubArg s (.word w cs)
  | afterArg {s e cs} : SubArg s cs → SubArg s (.arg e cs)

end

mutual

/-- The statement occurs in the block, at any depth. -/
inductive StmtIn : Stmt → Block → Prop
  | head (s b) : StmtIn s (.cons s b)
  | tail {s t b} : StmtIn s b → StmtIn s (.cons t b)
  | function {s sig body b} : StmtIn s body → StmtIn s (.cons (.function sig body) b)
  | loop {s x e body b} : StmtIn s body → StmtIn s (.cons (.loop x e body) b)
  | cond {s c body rest b} : StmtIn s body → StmtIn s (.cons (.cond c body rest) b)
  | condRest {s c body rest b} : StmtInElse s rest → StmtIn s (.cons (.cond c body rest) b)

/-- The statement occurs in an alternative. -/
inductive StmtInElse : Stmt → Else → Prop
  | else_ {s body} : StmtIn s body → StmtInElse s (.else_ body)
  | elif {s c body rest} : StmtIn s body → StmtInElse s (.elif c body rest)
  | rest {s c body rest} : StmtInElse s rest → StmtInElse s (.elif c body rest)

end

/-- A condition of an `else if`. -/
inductive ElifCond : Expr → Else → Prop
  | here (c body rest) : ElifCond c (.elif c body rest)
  | rest {c c' body rest} : ElifCond c rest → ElifCond c (.elif c' body rest)

/-- The expressions a statement consists of. -/
inductive ExprOf : Expr → Stmt → Prop
  | output (e) : ExprOf e (.output e)
  | outputNamed (e n) : ExprOf e (.outputNamed e n)
  | set (n v) : ExprOf v (.set n v)
  | result (e) : ExprOf e (.result e)
  | cond (c body rest) : ExprOf c (.cond c body rest)
  | elif {c e body rest} : ElifCond e rest → ExprOf e (.cond c body rest)
  | loop (x e body) : ExprOf e (.loop x e body)
  | assign (x e) : ExprOf e (.assign x e)

/-- A program contains a call of a function. -/
def Calls (p : Block) (s : Sig) : Prop := ∃ st e cs, StmtIn st p ∧ ExprOf e st ∧ SubExpr (.call cs) e ∧ callSig cs = s

/-- A program defines a function. -/
def Defines (p : Block) (s : Sig) : Prop := ∃ d body, StmtIn (.function d body) p ∧ defSig d = s

/-- A program outputs something. -/
def Outputs (p : Block) : Prop := (∃ e, StmtIn (.output e) p) ∨ ∃ e n, StmtIn (.outputNamed e n) p

/-! ## Trees made of tokens -/

/-- A number, given the characters that count as digits. -/
def Digits (dig : Char → Bool) (n : List Char) : Prop := n ≠ [] ∧ ∀ c ∈ n, dig c = true

/-- The parts of a string literal over an alphabet. -/
def PartsOK (lit : Char → Prop) (ps : List StrPart) : Prop := ∀ q ∈ ps, match q with
  | .text s => ∀ c ∈ s, lit c
  | .var x => VarName x

mutual

/-- The names, numbers and literals of an expression have the form of the tokens they come from. -/
def ExprOK (dig : Char → Bool) (lit : Char → Prop) : Expr → Prop
  | .num n => Digits dig n
  | .dec a b => Digits dig a ∧ Digits dig b
  | .var x => VarName x
  | .str ps => PartsOK lit ps
  | .group e => ExprOK dig lit e
  | .bin _ l r => ExprOK dig lit l ∧ ExprOK dig lit r
  | .ndm l r => ExprOK dig lit l ∧ ExprOK dig lit r
  | .dm r => ExprOK dig lit r
  | .unary _ e => ExprOK dig lit e
  | .hash e => ExprOK dig lit e
  | .seq es => ElemsOK dig lit es
  | .call cs => cs ≠ .nil ∧ CallOK dig lit cs

/-- The elements of a sequence. -/
def ElemsOK (dig : Char → Bool) (lit : Char → Prop) : Elems → Prop
  | .nil => True
  | .expr e es => ExprOK dig lit e ∧ ElemsOK dig lit es
  | .range l r es => ExprOK dig lit l ∧ ExprOK dig lit r ∧ ElemsOK dig lit es

/-- The parts of a call. -/
def CallOK (dig : Char → Bool) (lit : Char → Prop) : CallParts → Prop
  | .nil => True
  | .word w cs => Word w ∧ CallOK dig lit cs
  | .arg e cs => ExprOK dig lit e ∧ CallOK dig lit cs

end

/-- The parts of a definition. -/
def DefOK : DefPart → Prop
  | .word w => Word w
  | .param x => VarName x
  | .typed x t => VarName x ∧ Word t

mutual

/-- The same of a statement. -/
def StmtOK (dig : Char → Bool) (lit : Char → Prop) : Stmt → Prop
  | .output e => ExprOK dig lit e
  | .outputNamed e n => ExprOK dig lit e ∧ PartsOK lit n
  | .set n v => PartsOK lit n ∧ ExprOK dig lit v
  | .function sig body => (∀ d ∈ sig, DefOK d) ∧ BlockOK dig lit body
  | .result e => ExprOK dig lit e
  | .cond c body rest => ExprOK dig lit c ∧ BlockOK dig lit body ∧ ElseOK dig lit rest
  | .loop x o body => VarName x ∧ ExprOK dig lit o ∧ BlockOK dig lit body
  | .assign x e => VarName x ∧ ExprOK dig lit e

/-- The same of a block. -/
def BlockOK (dig : Char → Bool) (lit : Char → Prop) : Block → Prop
  | .nil => True
  | .cons s b => StmtOK dig lit s ∧ BlockOK dig lit b

/-- The same of alternatives. -/
def ElseOK (dig : Char → Bool) (lit : Char → Prop) : Else → Prop
  | .done => True
  | .else_ body => BlockOK dig lit body
  | .elif c body rest => ExprOK dig lit c ∧ BlockOK dig lit body ∧ ElseOK dig lit rest

end

/-! ## Precedence in anydice -/

/-- How tightly an operator binds. -/
def opLevel : BinOp → ℕ
  | .or_ => 1
  | .and_ => 2
  | .lt | .gt | .eq | .ne | .le | .ge => 3
  | .add | .sub => 4
  | .mul | .div => 5
  | .pow => 6
  | .at_ => 7

/-- How tightly an expression is bound: by its outermost operator; 9 for terms. -/
def level : Expr → ℕ
  | .bin op _ _ => opLevel op
  | .ndm _ _ => 8
  | .dm _ => 8
  | _ => 9

mutual

/-- The trees the grammar has: binary operators associate to the left and bind as given, `d`, unary operators and `#` apply to terms. -/
def Grammatical : Expr → Prop
  | .group e => Grammatical e
  | .bin op l r => opLevel op ≤ level l ∧ opLevel op < level r ∧ Grammatical l ∧ Grammatical r
  | .ndm l r => level l = 9 ∧ level r = 9 ∧ Grammatical l ∧ Grammatical r
  | .dm r => level r = 9 ∧ Grammatical r
  | .unary _ e => level e = 9 ∧ Grammatical e
  | .hash e => level e = 9 ∧ Grammatical e
  | .seq es => GrammaticalE es
  | .call cs => GrammaticalC cs
  | _ => True

/-- The same of elements. -/
def GrammaticalE : Elems → Prop
  | .nil => True
  | .expr e es => Grammatical e ∧ GrammaticalE es
  | .range l r es => Grammatical l ∧ Grammatical r ∧ GrammaticalE es

/-- The same of arguments. -/
def GrammaticalC : CallParts → Prop
  | .nil => True
  | .word _ cs => GrammaticalC cs
  | .arg e cs => Grammatical e ∧ GrammaticalC cs

end

/-- A comparison, not in parentheses. -/
def IsCmp (e : Expr) : Prop := level e = 3

/-- A power, not in parentheses. -/
def IsPow (e : Expr) : Prop := level e = 6

/-- An application of a unary operator, not in parentheses. -/
def unaryOf : Expr → Option UnOp
  | .unary op _ => some op
  | _ => none

/-- The name that a function gets in Python. -/
def pyName (pre : Bool) (s : Sig) : List Char :=
  ['_'].intercalate ((if pre then [['f']] else []) ++ s.map fun w => w.getD ['X'])

end Spec
