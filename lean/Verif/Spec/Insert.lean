import Verif.Spec.Sequel

/-!
# Specification vocabulary: parts of a program that do not need each other
-/

namespace Spec

open PythonDice PythonDice.Compiler

mutual

/-- The functions that a statement defines, apart from those inside functions. -/
def functionsS : Stmt → List (List DefPart × Block)
  | .function d body => [(d, body)]
  | .cond _ b r => functionsB b ++ functionsAlt r
  | .loop _ _ b => functionsB b
  | _ => []

/-- The same of a block. -/
def functionsB : Block → List (List DefPart × Block)
  | .nil => []
  | .cons s b => functionsS s ++ functionsB b

/-- The same of alternatives. -/
def functionsAlt : Else → List (List DefPart × Block)
  | .done => []
  | .else_ b => functionsB b
  | .elif _ b r => functionsB b ++ functionsAlt r

end

/-- The functions of a program set nothing. -/
def QuietFunctions (a : Block) : Prop := ∀ p ∈ functionsB a, SetsNothing p.2

instance (a : Block) : Decidable (QuietFunctions a) := inferInstanceAs (Decidable (∀ p ∈ functionsB a, SetsNothing p.2))

/-- The functions of the first part need no variable, other than their parameters, and no function of the second. -/
def Spares (a m : Block) : Prop := ∀ p ∈ functionsB a, (∀ x ∈ readsB p.2, x ∉ assignsB m ∨ x ∈ (paramsOf p.1).map Prod.fst) ∧
  (∀ x ∈ needsB p.2, x ∉ assignsB m) ∧ ∀ q ∈ callsB p.2, q ∉ definesB m

instance (a m : Block) : Decidable (Spares a m) := inferInstanceAs (Decidable (∀ p ∈ functionsB a, _ ∧ _))

/-- The second part is needed neither by the functions of the first nor by the third. -/
def Unneeded (a m c : Block) : Prop := Spares a m ∧ Independent m c

instance (a m c : Block) : Decidable (Unneeded a m c) := inferInstanceAs (Decidable (_ ∧ _))

/-- After the first part the others have nothing to do with each other: neither needs the other, and they do not give values to the same variables or
define the same functions. -/
structure Apart (a m m' : Block) : Prop where
  left : Unneeded a m m'
  right : Unneeded a m' m
  vars : ∀ x ∈ assignsB m, x ∉ assignsB m'
  fns : ∀ q ∈ definesB m, q ∉ definesB m'

end Spec
