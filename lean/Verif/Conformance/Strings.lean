import Verif.Model.StringDice
import Verif.Model.StrShow
import Verif.Model.StringSeq

/-!
# The tests of the repository on strings: `test/stringvar_test.py`

Left out: floats (`test_output`), which are outside the model.
-/

namespace PythonDice.Conformance

open StrVal (mk' fromStr fromConst)

/-- `StringVal(('a', 'b'), {'a': 1, 'b': 2})` -/
def strA : StrVal := mk' ["a".toList, "b".toList] [("a".toList, 1), ("b".toList, 2)]

/-- `StringVal(('b', 'a'), {'b': 2, 'a': 1})` -/
def strB : StrVal := mk' ["b".toList, "a".toList] [("b".toList, 2), ("a".toList, 1)]

/-- `StringVal(('b', 'a'), {'b': 1, 'a': 1})` -/
def strC : StrVal := mk' ["b".toList, "a".toList] [("b".toList, 1), ("a".toList, 1)]

/-- `StringVal(('a', 'b', 'c'), {'a': 1, 'b': 2, 'c': 3})` -/
def strD : StrVal := mk' ["a".toList, "b".toList, "c".toList] [("a".toList, 1), ("b".toList, 2), ("c".toList, 3)]

/-- test/stringvar_test.py:13-23 `test_init` -/
example : strA.eq strA = true ∧ strA.eq strB = true ∧ strA.eq strD = false ∧ strB.eq strD = false := by decide +kernel

/-- test/stringvar_test.py:26-28 `test_format` -/
example : strA.repr = "a + 2*b".toList := by decide +kernel

/-- test/stringvar_test.py:31-47 `test_compare` -/
example : strA.eq strB = true ∧ strA.compareTo .le strB = true ∧ strA.compareTo .ge strB = true ∧ strA.compareTo .lt strB = false ∧
    strA.compareTo .gt strB = false ∧ strA.compareTo .gt strC = true ∧ strA.compareTo .ge strC = true ∧ strA.compareTo .lt strC = false ∧
    strA.compareTo .le strC = false ∧ strA.eq strC = false := by decide +kernel

/-- `x == y` and `x != y` of two sequences made by `get_seq`, of which the first or both contain texts. -/
def seqTests (x y : List ℤ ⊕ StrSeq) : Option (Out × Out) :=
  match x, y with
  | .inr s, .inr t => match s.binopL .eq (.strs t), s.binopL .ne (.strs t) with
    | .ok (.out a), .ok (.out b) => some (a, b)
    | _, _ => none
  | .inl s, .inr t => match StrSeq.binopR .eq (.seq s) t, StrSeq.binopR .ne (.seq s) t with
    | .ok (.out a), .ok (.out b) => some (a, b)
    | _, _ => none
  | .inr s, .inl t => match s.binopL .eq (.seq t), s.binopL .ne (.seq t) with
    | .ok (.out a), .ok (.out b) => some (a, b)
    | _, _ => none
  | .inl _, .inl _ => none

/-- test/stringvar_test.py:62-75 `test_get_seq` -/
example :
    let a : List TextSrc := [.text "a".toList, .text "b".toList]
    let c : List TextSrc := [.num 1, .num 2]
    let e : List TextSrc := [.num 1, .num 2, .text "a".toList, .text "b".toList]
    let fromSeq (s : List ℤ ⊕ StrSeq) : List TextSrc := match s with
      | .inl l => [.iter (l.map TextSrc.num)]
      | .inr l => [.iter (l.iter.map fun o => match o with
        | .num n => .num n
        | .str v => .val v)]
    seqTests (getTextSeq a) (getTextSeq a) = some (.num 1, .num 0) ∧ seqTests (getTextSeq a) (getTextSeq c) = some (.num 0, .num 1) ∧
      seqTests (getTextSeq a) (getTextSeq e) = some (.num 0, .num 1) ∧ seqTests (getTextSeq c) (getTextSeq e) = some (.num 0, .num 1) ∧
      seqTests (getTextSeq a) (getTextSeq (fromSeq (getTextSeq a))) = some (.num 1, .num 0) ∧
      seqTests (getTextSeq e) (getTextSeq (fromSeq (getTextSeq e))) = some (.num 1, .num 0) := by decide +kernel

/-- test/stringvar_test.py:78-94 `test_roll`: `2dA` of `{1d2, "fire", "water"}`.  `h` and `hk` stand for `hash`. -/
example :
    let fire : Out := .str (fromStr "fire".toList)
    let water : Out := .str (fromStr "water".toList)
    let plus (a b : Out) : Out := Out.add a b
    (do
      let a ← Out.fromSeqRV {} [.num 1, .num 2, fire, water]
      let b ← Out.rollInt Out.hashInput (fun k => k.1) {} 2 a ⟨[], 0⟩
      let c ← Out.mkRV {} [.num 2, .num 3, .num 4, plus fire (.num 1), plus fire (.num 2), plus water (.num 1), plus water (.num 2),
        plus fire water, plus water water, plus fire fire] [1, 2, 1, 2, 2, 2, 2, 2, 1, 1]
      return b.1.vals.length == c.vals.length && (b.1.vals.zip c.vals).all (fun x => Out.eq x.1 x.2) && b.1.probs == c.probs :
        Except Err Bool) = .ok true := by decide +kernel

end PythonDice.Conformance
