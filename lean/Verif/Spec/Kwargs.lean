import Verif.Model.Kwargs

/-!
# Specification vocabulary: which argument a parameter gets

How Python assigns positional arguments, keyword arguments and default values to parameters.
-/

namespace PythonDice

/-- Every parameter gets an argument: positional ones first, then by keyword, else its default value, which is not converted (it counts as
not annotated).  The result lists the arguments in the order of the parameters. -/
inductive Filled {ν : Type} (kw : List (ν × Obj)) : List (Param ν) → List Obj → List (Option Ty × Obj) → Prop
  | nil : Filled kw [] [] []
  | positional {p ps v vs full} : p.name ∉ kw.map (·.1) → Filled kw ps vs full → Filled kw (p :: ps) (v :: vs) ((p.ann, v) :: full)
  | keyword {p ps v full} : (p.name, v) ∈ kw → Filled kw ps [] full → Filled kw (p :: ps) [] ((p.ann, v) :: full)
  | default {p ps d full} : p.name ∉ kw.map (·.1) → p.default = some d → Filled kw ps [] full →
      Filled kw (p :: ps) [] ((none, d) :: full)

end PythonDice
