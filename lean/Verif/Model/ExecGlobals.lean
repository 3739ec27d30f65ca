import Verif.Model.Exec

/-!
# Model of `unsafe_exec` with `global_vars`
-/

namespace PythonDice.Exec

open Spec.Py

/-- src/parser/parse_and_exec.py:134-138: the module, with the entries of `global_vars` over the names of `_get_lib()` and `output`. -/
def runModuleWith (given : Env) (n : ℕ) (p : Block) : M Unit := do
  let _ ← execB (callU n) p ⟨given ++ libGlobals, none⟩
  pure ()

/-- src/parser/parse_and_exec.py:131-140 `unsafe_exec(r, global_vars=given)`: the outputs. -/
def unsafeExecWith (given : Env) (n : ℕ) (p : Block) : M (List (Obj × Option PyText)) := do
  M.modify fun w => { w with outs := [] }
  runModuleWith given n p
  let w ← M.get
  pure w.outs

end PythonDice.Exec
