import Verif.Spec.Insert

/-!
# Specification vocabulary: the body of a function in the place of a call
-/

namespace Spec

open PythonDice PythonDice.Compiler

mutual

/-- An expression in which variables are replaced by expressions in parentheses, all at once. -/
def inlineE (l : List (List Char × Expr)) : Expr → Expr
  | .num n => .num n
  | .dec a b => .dec a b
  | .var y => match l.lookup y with
    | some e => .group e
    | none => .var y
  | .str ps => .str ps
  | .group a => .group (inlineE l a)
  | .bin op a b => .bin op (inlineE l a) (inlineE l b)
  | .ndm a b => .ndm (inlineE l a) (inlineE l b)
  | .dm a => .dm (inlineE l a)
  | .unary op a => .unary op (inlineE l a)
  | .hash a => .hash (inlineE l a)
  | .seq es => .seq (inlineElems l es)
  | .call cs => .call (inlineArgs l cs)

/-- The same of the elements of a sequence. -/
def inlineElems (l : List (List Char × Expr)) : Elems → Elems
  | .nil => .nil
  | .expr a es => .expr (inlineE l a) (inlineElems l es)
  | .range a b es => .range (inlineE l a) (inlineE l b) (inlineElems l es)

/-- The same of the arguments of a call. -/
def inlineArgs (l : List (List Char × Expr)) : CallParts → CallParts
  | .nil => .nil
  | .word w cs => .word w (inlineArgs l cs)
  | .arg a cs => .arg (inlineE l a) (inlineArgs l cs)

end

/-- The arguments of a call. -/
def argsOf : CallParts → List Expr
  | .nil => []
  | .word _ cs => argsOf cs
  | .arg e cs => e :: argsOf cs

/-- The expression that the function gives, with the arguments of a call for its parameters. -/
def inlined (d : List DefPart) (e : Expr) (cs : CallParts) : Expr := inlineE (((paramsOf d).map Prod.fst).zip (argsOf cs)) e

/-- Values that a parameter of this type takes as they are. -/
def fits : Option Ty → Obj → Bool
  | none, _ => true
  | some .N, .num _ => true
  | some .S, .seq _ => true
  | some .D, .rv _ => true
  | some .D, .blank _ => true
  | _, _ => false

/-- After the first part all arguments of the call have values, without output, which the parameters of the function take as they are. -/
def TakesArgs (R : Rules) (n : ℕ) (a : Block) (w : World) (d : List DefPart) (cs : CallParts) : Prop :=
  ∃ outs, (run R n a w).1 = .ok outs ∧ ∀ p ∈ (paramsOf d).zip (argsOf cs), ∃ o, fits p.1.2 o = true ∧
    (run R n (follow a (.cons (.output p.2) .nil)) w).1 = .ok (outs ++ [(o, none)])

/-- A statement without the expression that it begins with. -/
inductive Hole
  | output
  | named (t : List StrPart)
  | assign (x : List Char)
  | cond (b : Block) (r : Else)
  | loop (x : List Char) (b : Block)

/-- The statement with an expression. -/
def Hole.fill : Hole → Expr → Stmt
  | .output, e => .output e
  | .named t, e => .outputNamed e t
  | .assign x, e => .assign x e
  | .cond b r, e => .cond e b r
  | .loop x b, e => .loop x e b

end Spec
