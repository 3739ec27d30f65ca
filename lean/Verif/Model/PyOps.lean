import Verif.Model.SeqOps
import Verif.Model.Settings

/-!
# What generated code does with objects: operators, with Python's own operators on ints, outputs, settings
-/

namespace PythonDice

/-- Unary `+`.  src/randvar.py:348-349, src/blackrv.py:143-144; `Seq` has no `__pos__`. -/
def posOp (o : Obj) : M Obj :=
  match o with
  | .seq _ => M.throw .type
  | o => pure o

/-- Unary `~`: bitwise on ints.  src/seq.py:44-45, src/randvar.py:354-355, src/blackrv.py:149-152. -/
def invertOp (o : Obj) : M Obj :=
  match o with
  | .num n => pure (.num (-n - 1))
  | o => myInvert o

/-- `len(o)`; ints have no length.  src/seq.py:41-42, src/randvar.py:341-343, src/blackrv.py:138-141. -/
def lenOp (o : Obj) : M Obj :=
  match o with
  | .num _ => M.throw .type
  | o => pure (.num (myLen o))

/-- `bool(o)`: a sequence is true if it is not empty.  src/randvar.py:338-339, src/blackrv.py:135-136. -/
def truthOp (o : Obj) : M Bool :=
  match o with
  | .num n => pure (decide (n ≠ 0))
  | .seq s => pure (decide (s ≠ []))
  | .rv _ => M.throw .type
  | .blank _ => M.throw .type

/-- `iter(o)`: only sequences can be iterated over.  src/seq.py:38-39. -/
def iterOp (o : Obj) : M (List ℤ) :=
  match o with
  | .seq s => pure s
  | _ => M.throw .type

/-- src/utils.py:63-64 `true_div`. -/
def trueDiv (a b : Obj) : M Obj := binop .truediv a b

/-- src/parser/parse_and_exec.py:132 `all_outputs.append((args, kwargs))`. -/
def emitOutput (o : Obj) (name : Option PyText) : M Unit := M.modify fun w => { w with outs := w.outs ++ [(o, name)] }

/-- A text without inserted objects. -/
def plainText : PyText → Option (List Char)
  | [] => some []
  | .inl c :: t => (plainText t).map (c :: ·)
  | .inr _ :: _ => none

/-- src/settings.py:39 `SETTINGS[name] = value`, on the record of the settings, for values that passed the checks. -/
def storeSetting (s : Settings) (name : List Char) (v : PyAny) : Option Settings :=
  if name = "position order".toList then v.asOrder?.map fun o => { s with positionOrder := o }
  else if name = "explode depth".toList then v.asInt?.map fun n => { s with explodeDepth := n }
  else if name = "maximum function depth".toList then v.asInt?.map fun n => { s with maxFuncDepth := n }
  else if name = "RV_TRUNC".toList then v.asBool?.map fun b => { s with rvTrunc := b }
  else if name = "RV_IGNORE_ZERO_PROBS".toList then v.asBool?.map fun b => { s with rvIgnoreZeroProbs := b }
  else if name = "DEFAULT_OUTPUT_WIDTH".toList then v.asInt?.map fun n => { s with defaultOutputWidth := n }
  else none

/-- src/settings.py:19-39 `settings_set`, on the record of the settings. -/
def setSetting (name : List Char) (v : PyAny) : M Unit := fun w =>
  match checkedValue (String.ofList name) v with
  | .error e => (.error e, w)
  | .ok v =>
    match storeSetting w.settings name v with
    | some s => (.ok (), { w with settings := s })
    | none => (.error .unmodelled, w)

/-- An object as `settings_set` sees it.  Ints and bools are not told apart in the model; where `settings_set` does, and where it compares
dice and sequences with strings, this is `none`. -/
def settingArg (name : List Char) : Obj → Option PyAny
  | .num n => if name = "RV_TRUNC".toList ∨ name = "RV_IGNORE_ZERO_PROBS".toList then none else some (.int n)
  | _ => if name = "position order".toList then none else some (.other 0)

/-- `settings_set(name, o)` -/
def settingsSetObj (name : PyText) (o : Obj) : M Unit :=
  match (plainText name).bind fun n => (settingArg n o).map fun a => (n, a) with
  | some p => setSetting p.1 p.2
  | none => M.throw .unmodelled

/-- `settings_set(name, t)` for a string -/
def settingsSetStr (name t : PyText) : M Unit :=
  match (plainText name).bind fun n => (plainText t).map fun a => (n, a) with
  | some p => setSetting p.1 (.str (String.ofList p.2))
  | none => M.throw .unmodelled

end PythonDice
