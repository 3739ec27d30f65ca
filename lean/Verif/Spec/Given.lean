import Verif.Spec.Run

/-!
# Specification vocabulary: programs with variables that have values at the beginning
-/

namespace Spec

open PythonDice PythonDice.Compiler

/-- A program, from its beginning, with the values of some variables: the outputs. -/
def runGiven (R : Rules) (vars : Vars) (n : ℕ) (p : Block) : M (List (Obj × Option PyText)) := do
  M.modify fun w => { w with outs := [] }
  let _ ← runB R (runCall R n) p ⟨if R.lib then libraryFns else [], ⟨none, vars, []⟩⟩
  let w ← M.get
  pure w.outs

/-- A program after assignments of numbers to variables, of which the last are executed first. -/
def preceded : List (List Char × List Char) → Block → Block
  | [], b => b
  | p :: l, b => preceded l (.cons (.assign p.1 (.num p.2)) b)

end Spec
