import Verif.Spec.Insert

/-!
# Specification vocabulary: an expression in the place of a variable
-/

namespace Spec

open PythonDice.Compiler

mutual

/-- An expression in which a variable is replaced by an expression in parentheses. -/
def replaceE (x : List Char) (e : Expr) : Expr → Expr
  | .num n => .num n
  | .dec a b => .dec a b
  | .var y => if y = x then .group e else .var y
  | .str ps => .str ps
  | .group a => .group (replaceE x e a)
  | .bin op l r => .bin op (replaceE x e l) (replaceE x e r)
  | .ndm l r => .ndm (replaceE x e l) (replaceE x e r)
  | .dm r => .dm (replaceE x e r)
  | .unary op a => .unary op (replaceE x e a)
  | .hash a => .hash (replaceE x e a)
  | .seq es => .seq (replaceElems x e es)
  | .call cs => .call (replaceArgs x e cs)

/-- The same of the elements of a sequence. -/
def replaceElems (x : List Char) (e : Expr) : Elems → Elems
  | .nil => .nil
  | .expr a es => .expr (replaceE x e a) (replaceElems x e es)
  | .range l r es => .range (replaceE x e l) (replaceE x e r) (replaceElems x e es)

/-- The same of the arguments of a call. -/
def replaceArgs (x : List Char) (e : Expr) : CallParts → CallParts
  | .nil => .nil
  | .word w cs => .word w (replaceArgs x e cs)
  | .arg a cs => .arg (replaceE x e a) (replaceArgs x e cs)

end

mutual

/-- The same of a statement.  Names in strings and functions that are defined stay as they are. -/
def replaceS (x : List Char) (e : Expr) : Stmt → Stmt
  | .output a => .output (replaceE x e a)
  | .outputNamed a n => .outputNamed (replaceE x e a) n
  | .set n v => .set n v
  | .function d body => .function d body
  | .result a => .result (replaceE x e a)
  | .cond c b r => .cond (replaceE x e c) (replaceB x e b) (replaceAlt x e r)
  | .loop y a b => .loop y (replaceE x e a) (replaceB x e b)
  | .assign y a => .assign y (replaceE x e a)

/-- The same of a block. -/
def replaceB (x : List Char) (e : Expr) : Block → Block
  | .nil => .nil
  | .cons s b => .cons (replaceS x e s) (replaceB x e b)

/-- The same of alternatives. -/
def replaceAlt (x : List Char) (e : Expr) : Else → Else
  | .done => .done
  | .else_ b => .else_ (replaceB x e b)
  | .elif c b r => .elif (replaceE x e c) (replaceB x e b) (replaceAlt x e r)

end

end Spec
