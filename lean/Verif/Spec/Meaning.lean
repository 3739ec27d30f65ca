import Verif.Spec.Python
import Verif.Spec.Syntax

/-!
# Specification vocabulary: the Python expression that an expression stands for

Operators become operators or calls with the same operands.  There are no texts and no precedences here.
-/

namespace Spec

open PythonDice.Compiler

/-- How variables and operators are represented. -/
structure Style where
  /-- variables are entries of the dictionary `vars` -/
  dict : Bool
  /-- functions are called `f_...` -/
  pre : Bool
  /-- `@`, `&`, `|`, `!` and `#` are calls -/
  calls : Bool

/-- The pieces of the f-string of a literal. -/
def pieces (dict : Bool) (ps : List StrPart) : List Py.FPiece := ps.flatMap fun
  | .text s => s.map .char
  | .var x => [.field (if dict then "vars['".toList ++ x ++ "']".toList else x)]

/-- Arguments as a list. -/
def toArgs : List Py.Expr → Py.Args
  | [] => .nil
  | e :: es => .cons e (toArgs es)

/-- A call of a named function. -/
def callOf (f : String) (args : List Py.Expr) : Py.Expr := .call (.name f.toList) (toArgs args)

/-- A binary operation. -/
def meanBin (calls : Bool) : BinOp → Py.Expr → Py.Expr → Py.Expr
  | .add, a, b => .bin "+".toList a b
  | .sub, a, b => .bin "-".toList a b
  | .mul, a, b => .bin "*".toList a b
  | .div, a, b => .bin "//".toList a b
  | .pow, a, b => .bin "**".toList a b
  | .lt, a, b => .cmp false "<".toList a b
  | .gt, a, b => .cmp false ">".toList a b
  | .eq, a, b => .cmp false "==".toList a b
  | .ne, a, b => .cmp false "!=".toList a b
  | .le, a, b => .cmp false "<=".toList a b
  | .ge, a, b => .cmp false ">=".toList a b
  | .at_, a, b => if calls then callOf "myMatmul" [a, b] else .bin "@".toList a b
  | .and_, a, b => if calls then callOf "myAnd" [a, b] else .bin "&".toList a b
  | .or_, a, b => if calls then callOf "myOr" [a, b] else .bin "|".toList a b

/-- A unary operation. -/
def meanUnary (calls : Bool) : UnOp → Py.Expr → Py.Expr
  | .not_, a => if calls then callOf "myInvert" [a] else .unary "~".toList a
  | .plus, a => .unary "+".toList a
  | .minus, a => .unary "-".toList a

mutual

/-- What an expression stands for. -/
def mean (st : Style) : Expr → Py.Expr
  | .num n => .int n
  | .dec a b => .float a b
  | .var x => if st.dict then .index (.name "vars".toList) (.str x) else .name x
  | .str ps => .fstr (pieces st.dict ps)
  | .group e => mean st e
  | .bin op l r => meanBin st.calls op (mean st l) (mean st r)
  | .ndm l r => callOf "roll" [mean st l, mean st r]
  | .dm r => callOf "roll" [mean st r]
  | .unary op e => meanUnary st.calls op (mean st e)
  | .hash e => callOf (if st.calls then "myLen" else "len") [mean st e]
  | .seq es => callOf "get_seq" [.list (toArgs (meanE st es))]
  | .call cs => .call (.name (pyName st.pre (callSig cs))) (toArgs (meanC st cs ++ if st.dict then [.name "vars".toList] else []))

/-- The same of elements. -/
def meanE (st : Style) : Elems → List Py.Expr
  | .nil => []
  | .expr e es => mean st e :: meanE st es
  | .range l r es => callOf "myrange" [mean st l, mean st r] :: meanE st es

/-- The same of arguments. -/
def meanC (st : Style) : CallParts → List Py.Expr
  | .nil => []
  | .word _ cs => meanC st cs
  | .arg e cs => mean st e :: meanC st cs

end

/-- The operands of an operator are such that they need no parentheses in Python. -/
structure OperandsOK (calls : Bool) (op : BinOp) (l r : Expr) : Prop where
  /-- comparisons are not chained -/
  chain : opLevel op = 3 → ¬IsCmp l
  /-- `&` and `|` are not applied to comparisons -/
  logic : calls = false → op = .and_ ∨ op = .or_ → ¬IsCmp l ∧ ¬IsCmp r
  /-- the base of a power is neither a power nor signed -/
  base : op = .pow → ¬IsPow l ∧ ∀ u, unaryOf l = some u → u = .not_ ∧ calls = true

end Spec
