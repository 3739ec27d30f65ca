import Verif.Spec.Meaning
import Verif.Spec.PyProgram

/-!
# Specification vocabulary: the Python program that a program stands for

Every statement becomes a statement.  There are no texts here, except those of names.
-/

namespace Spec

open PythonDice.Compiler

/-- The annotation of a parameter. -/
def annotate (t : List Char) : List Char :=
  if t = "n".toList then "T_N".toList else if t = "s".toList then "T_S".toList else if t = "d".toList then "T_D".toList else t

/-- The parameter of a part of a definition. -/
def pyParam : DefPart → Option (List Char × Option (List Char))
  | .word _ => none
  | .param x => some (x, none)
  | .typed x t => some (x, some (annotate t))

/-- The parameters of a definition, as they are named in Python: of those with the same name all but the first are called `dummy` with their
position. -/
def pyParams (d : List DefPart) : List (List Char × Option (List Char)) :=
  (d.filterMap pyParam).mapIdx fun k p =>
    (if p.1 ∈ ((d.filterMap pyParam).take k).map Prod.fst then "dummy".toList ++ (toString k).toList else p.1, p.2)

/-- A block in Python is never empty. -/
def pySuite : Py.Block → Py.Block
  | .nil => .cons .pass .nil
  | b => b

/-- Storing parameters in the dictionary of the variables. -/
def pyCopies (names : List (List Char)) : List Py.Stmt := names.map fun x => .setItem "vars".toList x (.name x)

/-- The body of a function. -/
def pyBody (dict : Bool) (names : List (List Char)) (b : Py.Block) : Py.Block :=
  if dict then .cons (.copyDict "vars".toList) (Py.Block.prepend (pyCopies names) (pySuite b)) else pySuite b

mutual

/-- What a statement stands for. -/
def meanS (st : Style) : Stmt → Py.Stmt
  | .output e => .expr (callOf "output" [mean st e])
  | .outputNamed e n => .exprKw "output".toList (mean st e) "named".toList (.fstr (pieces st.dict n))
  | .set n v => .expr (callOf "settings_set" [.fstr (pieces st.dict n), mean st v])
  | .function d body =>
    .def_ true (pyName st.pre (defSig d)) (pyParams d ++ if st.dict then [("vars".toList, none)] else [])
      (pyBody st.dict ((pyParams d).map Prod.fst) (meanB st body))
  | .result e => .ret (mean st e)
  | .cond c b r => .cond (mean st c) (pySuite (meanB st b)) (meanElse st r)
  | .loop x e b =>
    .for_ x (mean st e) (if st.dict then .cons (.setItem "vars".toList x (.name x)) (pySuite (meanB st b)) else pySuite (meanB st b))
  | .assign x e => if st.dict then .setItem "vars".toList x (mean st e) else .assign x (mean st e)

/-- The same of a block. -/
def meanB (st : Style) : Block → Py.Block
  | .nil => .nil
  | .cons s b => .cons (meanS st s) (meanB st b)

/-- The same of alternatives. -/
def meanElse (st : Style) : Else → Py.Else
  | .done => .done
  | .else_ b => .else_ (pySuite (meanB st b))
  | .elif c b r => .elif (mean st c) (pySuite (meanB st b)) (meanElse st r)

end

/-- The same of a program. -/
def meanP (st : Style) (p : Block) : Py.Block := if st.dict then .cons (.newDict "vars".toList) (meanB st p) else meanB st p

mutual

/-- A statement gives no result, except in functions that it defines. -/
def noResultS : Stmt → Bool
  | .result _ => false
  | .cond _ b r => noResultB b && noResultE r
  | .loop _ _ b => noResultB b
  | _ => true

/-- The same of a block. -/
def noResultB : Block → Bool
  | .nil => true
  | .cons s b => noResultS s && noResultB b

/-- The same of alternatives. -/
def noResultE : Else → Bool
  | .done => true
  | .else_ b => noResultB b
  | .elif _ b r => noResultB b && noResultE r

end

end Spec
