import Verif.Model.SeqOps
import Verif.Model.Output

/-!
# Sequences: comparing and showing them
-/

namespace PythonDice

/-- src/seq.py:160: is it an instance of `MetaRV`? -/
def Src.isDie : Src → Bool
  | .rv _ => true
  | .blank _ => true
  | _ => false

/-- src/seq.py:159-166 `Seq.seqs_are_equal`; the arguments are numbers, dice, blanks, or iterables, among them sequences. -/
def seqsAreEqual (s1 s2 : Src) : Except Err Bool :=
  if s1.isDie || s2.isDie then .error .assertion
  else .ok (decide (getSeq [s1] = getSeq [s2]))

/-- `repr` of the elements of a tuple from the second one on. -/
def tupleRest : List ℤ → List Char
  | [] => [')']
  | n :: s => ',' :: ' ' :: (strOfInt n ++ tupleRest s)

/-- `repr` of a tuple of ints. -/
def tupleRepr : List ℤ → List Char
  | [] => "()".toList
  | [n] => '(' :: (strOfInt n ++ ",)".toList)
  | n :: s => '(' :: (strOfInt n ++ tupleRest s)

/-- src/seq.py:35-36 `Seq.__repr__`. -/
def seqRepr (s : List ℤ) : List Char := "Seq(".toList ++ tupleRepr s ++ [')']

end PythonDice
