import Verif.Spec.Session

/-!
# Specification vocabulary: one program after another
-/

namespace Spec

open PythonDice PythonDice.Compiler

/-- One program after another. -/
def follow : Block → Block → Block
  | .nil, c => c
  | .cons s b, c => .cons s (follow b c)

/-- The variables in a string. -/
def readsText : List StrPart → List (List Char)
  | [] => []
  | .text _ :: ps => readsText ps
  | .var x :: ps => x :: readsText ps

mutual

/-- The variables of an expression. -/
def readsE : Expr → List (List Char)
  | .num _ => []
  | .dec _ _ => []
  | .var x => [x]
  | .str ps => readsText ps
  | .group e => readsE e
  | .bin _ l r => readsE l ++ readsE r
  | .ndm l r => readsE l ++ readsE r
  | .dm r => readsE r
  | .unary _ e => readsE e
  | .hash e => readsE e
  | .seq es => readsElems es
  | .call cs => readsArgs cs

/-- The variables of the elements of a sequence. -/
def readsElems : Elems → List (List Char)
  | .nil => []
  | .expr e es => readsE e ++ readsElems es
  | .range l r es => readsE l ++ readsE r ++ readsElems es

/-- The variables of the arguments of a call. -/
def readsArgs : CallParts → List (List Char)
  | .nil => []
  | .word _ cs => readsArgs cs
  | .arg e cs => readsE e ++ readsArgs cs

end

/-- The variable that surely has a new value after a statement. -/
def givesS : Stmt → List (List Char)
  | .assign x _ => [x]
  | _ => []

mutual

/-- The variables whose values before a statement matter to it, apart from calls. -/
def readsS : Stmt → List (List Char)
  | .output e => readsE e
  | .outputNamed e n => readsE e ++ readsText n
  | .set n v => readsText n ++ readsE v
  | .function _ _ => []
  | .result e => readsE e
  | .cond c b r => readsE c ++ readsB b ++ readsAlt r
  | .loop x e b => readsE e ++ (readsB b).filter (· ≠ x)
  | .assign _ e => readsE e

/-- The same of a block: variables that it has given a value before do not matter. -/
def readsB : Block → List (List Char)
  | .nil => []
  | .cons s b => readsS s ++ (readsB b).filter (· ∉ givesS s)

/-- The same of alternatives. -/
def readsAlt : Else → List (List Char)
  | .done => []
  | .else_ b => readsB b
  | .elif c b r => readsE c ++ readsB b ++ readsAlt r

end

mutual

/-- The variables, other than parameters, whose values matter to the functions that a statement defines. -/
def needsS : Stmt → List (List Char)
  | .function d body => (readsB body).filter (· ∉ (paramsOf d).map Prod.fst) ++ needsB body
  | .cond _ b r => needsB b ++ needsAlt r
  | .loop _ _ b => needsB b
  | _ => []

/-- The same of a block. -/
def needsB : Block → List (List Char)
  | .nil => []
  | .cons s b => needsS s ++ needsB b

/-- The same of alternatives. -/
def needsAlt : Else → List (List Char)
  | .done => []
  | .else_ b => needsB b
  | .elif _ b r => needsB b ++ needsAlt r

end

mutual

/-- The functions that an expression calls. -/
def callsE : Expr → List Sig
  | .num _ => []
  | .dec _ _ => []
  | .var _ => []
  | .str _ => []
  | .group e => callsE e
  | .bin _ l r => callsE l ++ callsE r
  | .ndm l r => callsE l ++ callsE r
  | .dm r => callsE r
  | .unary _ e => callsE e
  | .hash e => callsE e
  | .seq es => callsElems es
  | .call cs => callSig cs :: callsArgs cs

/-- The same of the elements of a sequence. -/
def callsElems : Elems → List Sig
  | .nil => []
  | .expr e es => callsE e ++ callsElems es
  | .range l r es => callsE l ++ callsE r ++ callsElems es

/-- The same of the arguments of a call. -/
def callsArgs : CallParts → List Sig
  | .nil => []
  | .word _ cs => callsArgs cs
  | .arg e cs => callsE e ++ callsArgs cs

end

mutual

/-- The functions that a statement calls. -/
def callsS : Stmt → List Sig
  | .output e => callsE e
  | .outputNamed e _ => callsE e
  | .set _ v => callsE v
  | .function _ body => callsB body
  | .result e => callsE e
  | .cond c b r => callsE c ++ callsB b ++ callsAlt r
  | .loop _ e b => callsE e ++ callsB b
  | .assign _ e => callsE e

/-- The same of a block. -/
def callsB : Block → List Sig
  | .nil => []
  | .cons s b => callsS s ++ callsB b

/-- The same of alternatives. -/
def callsAlt : Else → List Sig
  | .done => []
  | .else_ b => callsB b
  | .elif c b r => callsE c ++ callsB b ++ callsAlt r

end

mutual

/-- The functions that a statement defines, apart from those inside functions. -/
def definesS : Stmt → List Sig
  | .function d _ => [defSig d]
  | .cond _ b r => definesB b ++ definesAlt r
  | .loop _ _ b => definesB b
  | _ => []

/-- The same of a block. -/
def definesB : Block → List Sig
  | .nil => []
  | .cons s b => definesS s ++ definesB b

/-- The same of alternatives. -/
def definesAlt : Else → List Sig
  | .done => []
  | .else_ b => definesB b
  | .elif _ b r => definesB b ++ definesAlt r

end

/-- The second program needs no variable and no function of the first. -/
def Independent (b c : Block) : Prop :=
  (∀ x ∈ readsB c ++ needsB c, x ∉ assignsB b) ∧ ∀ q ∈ callsB c, q ∉ definesB b

instance (b c : Block) : Decidable (Independent b c) := inferInstanceAs (Decidable (_ ∧ _))

end Spec
