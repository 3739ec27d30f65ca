import Verif.Spec.Run

/-!
# Specification vocabulary: how deep the functions of a program call each other
-/

namespace Spec

open PythonDice PythonDice.Compiler

/-- User functions that call each other so deep, and below that behave in a given way. -/
def runCallFrom (R : Rules) (base : RunCall) : ℕ → RunCall
  | 0 => base
  | n + 1 => fun fr fns d body args =>
    fnCall (fun os => do
      let r ← runB R (runCallFrom R base n) body ⟨fns, enter R fr d body os⟩
      pure r.2) (((paramsOf d).map Prod.snd).zip args)

/-- A program, from its beginning, with a given way to call functions: the outputs. -/
def runWith (R : Rules) (call : RunCall) (p : Block) : M (List (Obj × Option PyText)) := do
  M.modify fun w => { w with outs := [] }
  let _ ← runB R call p ⟨if R.lib then libraryFns else [], ⟨none, [], []⟩⟩
  let w ← M.get
  pure w.outs

/-- The name of a setting is written out, and it is not the depth of functions. -/
def keepsName : List StrPart → Bool
  | [.text t] => decide (t ≠ "maximum function depth".toList)
  | _ => false

mutual

/-- A statement, and those in it, do not set the maximal depth of functions. -/
def keepsS : Stmt → Bool
  | .set n _ => keepsName n
  | .function _ body => keepsB body
  | .cond _ b r => keepsB b && keepsE r
  | .loop _ _ b => keepsB b
  | _ => true

/-- The same of a block. -/
def keepsB : Block → Bool
  | .nil => true
  | .cons s b => keepsS s && keepsB b

/-- The same of alternatives. -/
def keepsE : Else → Bool
  | .done => true
  | .else_ b => keepsB b
  | .elif _ b r => keepsB b && keepsE r

end

end Spec
