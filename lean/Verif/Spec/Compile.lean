import Verif.Spec.Parse

/-!
# Specification vocabulary: programs that can be compiled
-/

namespace Spec

open PythonDice.Compiler
open PythonDice.Lexer (Token)

/-- A parameter without a type has the name of an earlier parameter. -/
def RepeatsUntyped (d : List DefPart) : Prop := ∃ a x b, d = a ++ .param x :: b ∧ (.param x ∈ a ∨ ∃ t, .typed x t ∈ a)

/-- Names that a program cannot define without renaming all its functions. -/
def protectedSigs : List Sig :=
  [[some "output".toList], [some "roll".toList], [some "myrange".toList], [some "max".toList, some "func".toList, some "depth".toList],
    [some "anydice".toList, some "casting".toList], [some "settings".toList, some "set".toList]]

/-- The program defines one of them. -/
def DefinesProtected (b : Block) : Prop := ∃ s ∈ protectedSigs, Defines b s

/-- The source text is that of a tree. -/
def SourceOf (tokens : List Token) (b : Block) : Prop := blockToks b = tokens ∧ WrittenB b

/-- A function without a name is defined: `function : {`. -/
def NamelessFunction (ts : List Token) : Prop :=
  ∃ a b f c l, ts = a ++ f :: c :: l :: b ∧ f.kind = .function ∧ c.kind = .colon ∧ l.kind = .lbrace

/-- A call begins with a call: `[ [`. -/
def CallOfCall (ts : List Token) : Prop := ∃ a b l m, ts = a ++ l :: m :: b ∧ l.kind = .lbracket ∧ m.kind = .lbracket

end Spec
