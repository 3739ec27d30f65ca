import Verif.Spec.Run
import Verif.Spec.Compile

/-!
# Specification vocabulary: renaming the variables and functions of a program
-/

namespace Spec

open PythonDice PythonDice.Compiler

/-- New names of variables, and new words for the words of function names. -/
structure Renaming where
  var : List Char → List Char
  word : List Char → List Char

namespace Renaming

/-- Different names stay different. -/
def Apart (ρ : Renaming) : Prop := Function.Injective ρ.var ∧ Function.Injective ρ.word

/-- The words of these function names are kept. -/
def Keeps (ρ : Renaming) (l : List Sig) : Prop := ∀ s ∈ l, ∀ w, some w ∈ s → ρ.word w = w

/-- The name of a function. -/
def sig (ρ : Renaming) (s : Sig) : Sig := s.map (Option.map ρ.word)

/-- A piece of a string: `[A]` names a variable. -/
def part (ρ : Renaming) : StrPart → StrPart
  | .text s => .text s
  | .var x => .var (ρ.var x)

/-- A part of the head of a function. -/
def defPart (ρ : Renaming) : DefPart → DefPart
  | .word w => .word (ρ.word w)
  | .param x => .param (ρ.var x)
  | .typed x t => .typed (ρ.var x) t

mutual

/-- Expressions. -/
def expr (ρ : Renaming) : Expr → Expr
  | .num n => .num n
  | .dec a b => .dec a b
  | .var x => .var (ρ.var x)
  | .str ps => .str (ps.map ρ.part)
  | .group e => .group (ρ.expr e)
  | .bin op l r => .bin op (ρ.expr l) (ρ.expr r)
  | .ndm l r => .ndm (ρ.expr l) (ρ.expr r)
  | .dm r => .dm (ρ.expr r)
  | .unary op e => .unary op (ρ.expr e)
  | .hash e => .hash (ρ.expr e)
  | .seq es => .seq (ρ.elems es)
  | .call cs => .call (ρ.callParts cs)

/-- Elements of sequences. -/
def elems (ρ : Renaming) : Elems → Elems
  | .nil => .nil
  | .expr e es => .expr (ρ.expr e) (ρ.elems es)
  | .range l r es => .range (ρ.expr l) (ρ.expr r) (ρ.elems es)

/-- Calls. -/
def callParts (ρ : Renaming) : CallParts → CallParts
  | .nil => .nil
  | .word w cs => .word (ρ.word w) (ρ.callParts cs)
  | .arg e cs => .arg (ρ.expr e) (ρ.callParts cs)

end

mutual

/-- Statements. -/
def stmt (ρ : Renaming) : Stmt → Stmt
  | .output e => .output (ρ.expr e)
  | .outputNamed e n => .outputNamed (ρ.expr e) (n.map ρ.part)
  | .set n v => .set (n.map ρ.part) (ρ.expr v)
  | .function d b => .function (d.map ρ.defPart) (ρ.block b)
  | .result e => .result (ρ.expr e)
  | .cond c b r => .cond (ρ.expr c) (ρ.block b) (ρ.alt r)
  | .loop x e b => .loop (ρ.var x) (ρ.expr e) (ρ.block b)
  | .assign x e => .assign (ρ.var x) (ρ.expr e)

/-- Blocks. -/
def block (ρ : Renaming) : Block → Block
  | .nil => .nil
  | .cons s b => .cons (ρ.stmt s) (ρ.block b)

/-- Alternatives. -/
def alt (ρ : Renaming) : Else → Else
  | .done => .done
  | .else_ b => .else_ (ρ.block b)
  | .elif c b r => .elif (ρ.expr c) (ρ.block b) (ρ.alt r)

end

/-- Two names exchanged. -/
def exchange (a b x : List Char) : List Char := if x = a then b else if x = b then a else x

/-- Two variables, and two words of function names, exchanged. -/
def swap (x y v w : List Char) : Renaming := ⟨exchange x y, exchange v w⟩

end Renaming

end Spec
