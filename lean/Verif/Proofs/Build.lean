import Verif.Model.Tables

/-!
# The tables are those that PLY builds
-/

namespace PythonDice.Yacc

set_option maxRecDepth 100000 in
/-- The construction gives the tables. -/
theorem build_eq : build precedence rules 200 = tableData := by decide +kernel

end PythonDice.Yacc
