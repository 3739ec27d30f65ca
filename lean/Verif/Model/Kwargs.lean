import Verif.Model.Cast

/-!
# Model of keyword arguments in `anydice_type_casting` (src/decorators.py:39-139)

Simplification: the decorated function has ordinary parameters only (no `*args`, `**kwargs`, keyword-only parameters).
-/

namespace PythonDice

/-- A parameter of the decorated function: name, annotation (`none`: none, or not one of `T_N`, `T_S`, `T_D`), default value. -/
structure Param (ν : Type) where
  name : ν
  ann : Option Ty
  default : Option Obj := none

variable {ν : Type} [DecidableEq ν]

/-- src/decorators.py:49-53: the annotation of the parameter at an index (`None` beyond the last). -/
def annAt (ps : List (Param ν)) (i : ℕ) : Option Ty := (ps[i]?).bind fun p => p.ann

/-- src/decorators.py:49-53: the annotation found under a name. -/
def annOf (ps : List (Param ν)) (k : ν) : Option Ty := (ps.find? fun p => decide (p.name = k)).bind fun p => p.ann

/-- src/decorators.py:45 `combined_args`, with annotations. -/
def combinedArgs (ps : List (Param ν)) (pos : List Obj) (kw : List (ν × Obj)) : List (Option Ty × Obj) :=
  (pos.zipIdx.map fun x => (annAt ps x.2, x.1)) ++ kw.map fun x => (annOf ps x.1, x.2)

/-- Python: the value of a parameter without positional argument; TypeError if there is none. -/
def paramValue (kw : List (ν × Obj)) (p : Param ν) : Except Err Obj :=
  match kw.lookup p.name, p.default with
  | some v, _ => .ok v
  | none, some d => .ok d
  | none, none => .error .type

/-- Python's binding of the arguments in `func(*args, **kwargs)`: TypeError for too many positional arguments, an unknown keyword, a
parameter given twice, or a missing one. -/
def bindArgs (ps : List (Param ν)) (pos : List Obj) (kw : List (ν × Obj)) : Except Err (List Obj) :=
  if ps.length < pos.length then .error .type
  else if kw.any (fun x => decide (x.1 ∉ ps.map fun p => p.name)) then .error .type
  else if kw.any (fun x => decide (x.1 ∈ (ps.take pos.length).map fun p => p.name)) then .error .type
  else do
    let rest ← (ps.drop pos.length).mapM (paramValue kw)
    return pos ++ rest

/-- src/decorators.py:39-139: `wrapper(*args, **kwargs)`.  `func` is called with the converted or rolled values put where the arguments
were (lines 92-95, 123-127). -/
def castKw (ps : List (Param ν)) (f : List Obj → M (Option Obj)) (pos : List Obj) (kw : List (ν × Obj)) : M (Option Obj) :=
  castCall (fun c => do
    let vs ← M.ofSettings fun _ => bindArgs ps (c.take pos.length) ((kw.map fun x => x.1).zip (c.drop pos.length))
    f vs) (combinedArgs ps pos kw)

end PythonDice
