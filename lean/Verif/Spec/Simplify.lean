import Verif.Spec.Sequel
import Mathlib.Logic.Relation

/-!
# Specification vocabulary: other ways to write a program

Rules by which parts of a program, anywhere in it, can be written otherwise.
-/

namespace Spec

open PythonDice PythonDice.Compiler

/-- Calculating with two integers. -/
def constBin : Compiler.BinOp → ℤ → ℤ → Option ℤ
  | .add, a, b => some (a + b)
  | .sub, a, b => some (a - b)
  | .mul, a, b => some (a * b)
  | _, _, _ => none

/-- The value of an expression of numbers, signs, sums, differences and products. -/
def constE : Expr → Option ℤ
  | .num n => some (decimal n)
  | .group e => constE e
  | .unary .plus e => constE e
  | .unary .minus e => (constE e).map fun a => -a
  | .bin op l r =>
    match constE l, constE r with
    | some a, some b => constBin op a b
    | _, _ => none
  | _ => none

/-- The numbers of a sequence that is written out, with ranges. -/
def constItems : Elems → Option (List ℤ)
  | .nil => some []
  | .expr e es =>
    match constE e, constItems es with
    | some a, some l => some (a :: l)
    | _, _ => none
  | .range l r es =>
    match constE l, constE r, constItems es with
    | some a, some b, some l => some ((List.range (b - a + 1).toNat).map (fun i : ℕ => a + (i : ℤ)) ++ l)
    | _, _, _ => none

/-- The block for each of the values of the variable. -/
def unrolled (x : List Char) (b : Block) : List Expr → Block
  | [] => .nil
  | c :: cs => .cons (.assign x c) (follow b (unrolled x b cs))

/-- Alternatives as a block. -/
def elseBlock : Else → Block
  | .done => .nil
  | .else_ b => b
  | .elif c b r => .cons (.cond c b r) .nil

mutual

/-- An expression written otherwise: without parentheses, or with another expression of the same value for an expression of numbers. -/
inductive RewriteX : Expr → Expr → Prop
  | num (n) : RewriteX (.num n) (.num n)
  | dec (a b) : RewriteX (.dec a b) (.dec a b)
  | var (x) : RewriteX (.var x) (.var x)
  | str (ps) : RewriteX (.str ps) (.str ps)
  | group {e e'} : RewriteX e e' → RewriteX (.group e) (.group e')
  | bin (op) {a a' b b'} : RewriteX a a' → RewriteX b b' → RewriteX (.bin op a b) (.bin op a' b')
  | ndm {a a' b b'} : RewriteX a a' → RewriteX b b' → RewriteX (.ndm a b) (.ndm a' b')
  | dm {a a'} : RewriteX a a' → RewriteX (.dm a) (.dm a')
  | unary (op) {a a'} : RewriteX a a' → RewriteX (.unary op a) (.unary op a')
  | hash {a a'} : RewriteX a a' → RewriteX (.hash a) (.hash a')
  | seq {es es'} : RewriteL es es' → RewriteX (.seq es) (.seq es')
  | call {cs cs'} : RewriteC cs cs' → RewriteX (.call cs) (.call cs')
  /-- parentheses -/
  | bare {e e'} : RewriteX e e' → RewriteX (.group e) e'
  /-- calculating with numbers -/
  | calc {e e' n} : constE e = some n → constE e' = some n → RewriteX e e'

/-- The elements of a sequence. -/
inductive RewriteL : Elems → Elems → Prop
  | nil : RewriteL .nil .nil
  | expr {e e' es es'} : RewriteX e e' → RewriteL es es' → RewriteL (.expr e es) (.expr e' es')
  | range {a a' b b' es es'} : RewriteX a a' → RewriteX b b' → RewriteL es es' → RewriteL (.range a b es) (.range a' b' es')

/-- The arguments of a call. -/
inductive RewriteC : CallParts → CallParts → Prop
  | nil : RewriteC .nil .nil
  | word (w) {cs cs'} : RewriteC cs cs' → RewriteC (.word w cs) (.word w cs')
  | arg {e e' cs cs'} : RewriteX e e' → RewriteC cs cs' → RewriteC (.arg e cs) (.arg e' cs')

end

/-- Not a literal. -/
def NoText (e : Expr) : Prop := ∀ ps, e ≠ .str ps

mutual

/-- A statement written otherwise. -/
inductive RewriteS : Stmt → Stmt → Prop
  | output {e e'} : RewriteX e e' → RewriteS (.output e) (.output e')
  | outputNamed (t) {e e'} : RewriteX e e' → RewriteS (.outputNamed e t) (.outputNamed e' t)
  | setText (n ps) : RewriteS (.set n (.str ps)) (.set n (.str ps))
  | set (n) {e e'} : NoText e → NoText e' → RewriteX e e' → RewriteS (.set n e) (.set n e')
  | function (d) {b b'} : RewriteB b b' → RewriteS (.function d b) (.function d b')
  | result {e e'} : RewriteX e e' → RewriteS (.result e) (.result e')
  | cond {c c' b b' r r'} : RewriteX c c' → RewriteB b b' → RewriteE r r' → RewriteS (.cond c b r) (.cond c' b' r')
  | loop (x) {e e' b b'} : RewriteX e e' → RewriteB b b' → RewriteS (.loop x e b) (.loop x e' b')
  | assign (x) {e e'} : RewriteX e e' → RewriteS (.assign x e) (.assign x e')

/-- A block written otherwise: the body of a loop over numbers, at least one, is written for each of them; of a condition with known value only the block that
is done is kept, if the others give no values to variables. -/
inductive RewriteB : Block → Block → Prop
  | nil : RewriteB .nil .nil
  | cons {s s' b b'} : RewriteS s s' → RewriteB b b' → RewriteB (.cons s b) (.cons s' b')
  | unroll (x) {es ns b b' c c'} {cs : List Expr} : constItems es = some ns → cs.map constE = ns.map some → cs ≠ [] → RewriteB b b' → RewriteB c c' →
    RewriteB (.cons (.loop x (.seq es) b) c) (follow (unrolled x b' cs) c')
  | taken {e n b b' r c c'} : constE e = some n → n ≠ 0 → assignsE r = [] → RewriteB b b' → RewriteB c c' →
    RewriteB (.cons (.cond e b r) c) (follow b' c')
  | passed {e b r r' c c'} : constE e = some 0 → assignsB b = [] → RewriteE r r' → RewriteB c c' →
    RewriteB (.cons (.cond e b r) c) (follow (elseBlock r') c')

/-- Alternatives written otherwise: `else if` as a condition in `else`, and nothing as an empty block. -/
inductive RewriteE : Else → Else → Prop
  | done : RewriteE .done .done
  | else_ {b b'} : RewriteB b b' → RewriteE (.else_ b) (.else_ b')
  | elif {c c' b b' r r'} : RewriteX c c' → RewriteB b b' → RewriteE r r' → RewriteE (.elif c b r) (.elif c' b' r')
  | empty : RewriteE .done (.else_ .nil)
  | nest {c c' b b' r r'} : RewriteX c c' → RewriteB b b' → RewriteE r r' → RewriteE (.elif c b r) (.else_ (.cons (.cond c' b' r') .nil))

end

/-- Programs that can be written as each other by these rules, in any number of steps and in both directions. -/
def Rewritten : Block → Block → Prop := Relation.EqvGen RewriteB

end Spec
