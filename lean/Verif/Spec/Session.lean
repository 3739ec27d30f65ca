import Verif.Spec.Run

/-!
# Specification vocabulary: programs run one after the other
-/

namespace Spec

open PythonDice PythonDice.Compiler

/-- A name of a setting in which no variable is inserted. -/
def writtenName : List StrPart → Option (List Char)
  | [] => some []
  | .text t :: ps => (writtenName ps).map (t ++ ·)
  | .var _ :: _ => none

mutual

/-- All settings that a statement, and those in it, set are permitted. -/
def setsOnlyS (ok : List StrPart → Bool) : Stmt → Bool
  | .set n _ => ok n
  | .function _ body => setsOnlyB ok body
  | .cond _ b r => setsOnlyB ok b && setsOnlyE ok r
  | .loop _ _ b => setsOnlyB ok b
  | _ => true

/-- The same of a block. -/
def setsOnlyB (ok : List StrPart → Bool) : Block → Bool
  | .nil => true
  | .cons s b => setsOnlyS ok s && setsOnlyB ok b

/-- The same of alternatives. -/
def setsOnlyE (ok : List StrPart → Bool) : Else → Bool
  | .done => true
  | .else_ b => setsOnlyB ok b
  | .elif _ b r => setsOnlyB ok b && setsOnlyE ok r

end

/-- The program does not say whether outcomes of weight zero are kept. -/
def LeavesZeros (b : Block) : Prop := setsOnlyB (fun n => decide (writtenName n ≠ some "RV_IGNORE_ZERO_PROBS".toList)) b = true

instance (b : Block) : Decidable (LeavesZeros b) := inferInstanceAs (Decidable (_ = _))

/-- The program sets nothing. -/
def SetsNothing (b : Block) : Prop := setsOnlyB (fun _ => false) b = true

instance (b : Block) : Decidable (SetsNothing b) := inferInstanceAs (Decidable (_ = _))

/-- Programs run one after the other, whether they fail or not: the state after them. -/
def session (R : Rules) (n : ℕ) : List Block → World → World
  | [], w => w
  | b :: bs, w => session R n bs (run R n b w).2

/-- Programs run one after the other, and none of them fails. -/
def AllSucceed (R : Rules) (n : ℕ) : List Block → World → Prop
  | [], _ => True
  | b :: bs, w => (∃ o, (run R n b w).1 = .ok o) ∧ AllSucceed R n bs (run R n b w).2

end Spec
