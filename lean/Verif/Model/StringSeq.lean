import Verif.Model.StringDice
import Verif.Model.SeqOps

/-!
# Model of sequences of texts: `StringSeq` of `src/string_rvs.py`, and `get_seq` of `src/factory.py` with texts

A `StringSeq` inherits the methods of `Seq` (src/seq.py), but its constructor does not call `Seq.__init__`: the attributes `_sum` and `_one_indexed` do
not exist.  Reading them raises AttributeError.  `_one_indexed` can be created by `set_one_indexed`; nothing creates `_sum`, because `sum()` reads it first.
-/

namespace PythonDice

/-- src/string_rvs.py:105-112: the attributes of a `StringSeq`; `oneIndexed` is `none` while `_one_indexed` does not exist. -/
structure StrSeq where
  elems : List Out
  oneIndexed : Option ℤ := none

/-! ## Building sequences -/

/-- The arguments of `get_seq`: numbers, texts, sums of texts, dice, blanks, and (nested) iterables of them, among them sequences. -/
inductive TextSrc
  | num (n : ℤ)
  | text (s : PyStr)
  | val (s : StrVal)
  | rv (r : RV Out)
  | blank (special : Bool)
  | iter (items : List TextSrc)

mutual
/-- src/utils.py:10-20 `flatten`: texts are not taken apart. -/
def flattenText : TextSrc → List TextSrc
  | .iter items => flattenTexts items
  | s => [s]
/-- src/utils.py:12-20: the loop over the items. -/
def flattenTexts : List TextSrc → List TextSrc
  | [] => []
  | x :: xs => flattenText x ++ flattenTexts xs
end

/-- An entry of a sequence before `StringSeq.__init__`: an int, a `StringVal`, or a `str`. -/
abbrev Entry := Out ⊕ PyStr

/-- src/factory.py:19-20: the outcomes of an element that is a die and not blank. -/
def TextSrc.rvVals : TextSrc → List Entry
  | .rv r => r.vals.map Sum.inl
  | _ => []

/-- src/factory.py:21: the elements that are not dice. -/
def TextSrc.elseVals : TextSrc → List Entry
  | .num n => [.inl (.num n)]
  | .text s => [.inr s]
  | .val v => [.inl (.str v)]
  | _ => []

/-- src/factory.py:23 `isinstance(x, (str, string_rvs.StringVal))`. -/
def isText : Entry → Bool
  | .inl (.num _) => false
  | _ => true

/-- src/string_rvs.py:109-111: a `str` becomes a `StringVal`. -/
def toOut : Entry → Out
  | .inl o => o
  | .inr s => .str (StrVal.fromStr s)

/-- src/string_rvs.py:106-112 `StringSeq.__init__`. -/
def mkStrSeq (source : List Entry) : StrSeq := { elems := source.map toOut }

/-- The number that an entry that is no text is. -/
def toNum : Entry → List ℤ
  | .inl (.num n) => [n]
  | _ => []

/-- src/factory.py:14-26 `get_seq(*source)`: a `Seq` or a `StringSeq`. -/
def getTextSeq (source : List TextSrc) : List ℤ ⊕ StrSeq :=
  let flat := flattenTexts source
  let res := flat.flatMap TextSrc.elseVals ++ flat.flatMap TextSrc.rvVals
  if res.any isText then .inr (mkStrSeq res) else .inl (res.flatMap toNum)

/-! ## Operators -/

/-- The other operand of an operator, and what an operator gives. -/
inductive TextObj
  | out (o : Out)
  | seq (s : List ℤ)
  | strs (s : StrSeq)
  | rv (r : RV ℤ)
  | blank (special : Bool)

/-- The order operator of a comparison other than `==` and `!=`. -/
def BinOp.toCmp : BinOp → Option CmpOp
  | .lt => some .lt
  | .le => some .le
  | .gt => some .gt
  | .ge => some .ge
  | _ => none

/-- `operation(x, y)` of a comparison, with `none` for `float('-inf')` (src/seq.py:155).  Texts compare as `float('inf')` with numbers
(src/string_rvs.py:98-99) and are never equal to them (src/string_rvs.py:75-85). -/
def BinOp.testOut (op : BinOp) : Option Out → Option Out → Bool
  | some x, some y => match op.toCmp with
    | some c => Out.cmp c x y
    | none => if op = .ne then !Out.eq x y else Out.eq x y
  | some _, none => match op.toCmp with
    | some c => c.run (1 : ℤ) 0
    | none => decide (op = .ne)
  | none, some _ => match op.toCmp with
    | some c => c.run (0 : ℤ) 1
    | none => decide (op = .ne)
  | none, none => match op.toCmp with
    | some c => c.run (0 : ℤ) 0
    | none => decide (op ≠ .ne)

/-- `zip_longest` with `None` standing for the fill value. -/
def zipLongestOut : List Out → List Out → List (Option Out × Option Out)
  | [], ys => ys.map fun y => (none, some y)
  | x :: xs, [] => (some x, none) :: zipLongestOut xs []
  | x :: xs, y :: ys => (some x, some y) :: zipLongestOut xs ys

/-- src/seq.py:155 `all(operation(x, y) for x, y in zip_longest(...))`. -/
def outsAll (op : BinOp) (s t : List Out) : Bool := (zipLongestOut s t).all fun xy => op.testOut xy.1 xy.2

/-- src/seq.py:147-155 `_compare_to` with another sequence. -/
def outsCmp (op : BinOp) (s t : List Out) : Bool :=
  match op with
  | .ne => !outsAll .eq s t
  | op => outsAll op s t

/-- src/seq.py:157 `_compare_to` with a number: how many elements satisfy it. -/
def outsCount (op : BinOp) (s : List Out) (n : ℤ) : ℤ := ((s.filter fun x => op.testOut (some x) (some (.num n))).length : ℕ)

namespace StrSeq

/-- src/seq.py:24-27 `sum`: `self._sum` does not exist. -/
def sum (_ : StrSeq) : Except Err Out := .error .attribute

/-- src/seq.py:29-30 `set_one_indexed`. -/
def setOneIndexed (s : StrSeq) (b : Bool) : StrSeq := { s with oneIndexed := some (if b then 1 else 0) }

/-- src/seq.py:38-39, src/string_rvs.py:114-115 `__iter__`. -/
def iter (s : StrSeq) : List Out := s.elems

/-- src/seq.py:41-42 `__len__`. -/
def len (s : StrSeq) : ℕ := s.elems.length

/-- src/seq.py:44-45 `__invert__`. -/
def invert (s : StrSeq) : Except Err ℤ := do
  let t ← s.sum
  return if Out.eq t (.num 0) then 1 else 0

/-- src/seq.py:47-48 `__getitem__`. -/
def getItem (s : StrSeq) (i : ℤ) : Except Err Out :=
  match s.oneIndexed with
  | none => .error .attribute
  | some off => .ok (if 0 ≤ i - off ∧ i - off < s.elems.length then s.elems.getD (i - off).toNat (.num 0) else .num 0)

/-- src/seq.py:59, 71 `sum(s[int(i)] for i in locs)`. -/
def sumAt (s : StrSeq) (locs : List ℤ) : Except Err Out := do
  let l ← locs.mapM s.getItem
  return l.foldl Out.add (.num 0)

/-- src/seq.py:73-157: a `StringSeq` as the left operand of an operator other than `@`. -/
def binopL (op : BinOp) (s : StrSeq) (o : TextObj) : Except Err TextObj :=
  if op.isCmp then
    match o with
    | .out (.num n) => .ok (.out (.num (outsCount op s.elems n)))
    | .out (.str _) => .error .unmodelled
    | .seq t => .ok (.out (.num (ofBool (outsCmp op s.elems (t.map Out.num)))))
    | .strs t => .ok (.out (.num (ofBool (outsCmp op s.elems t.elems))))
    | .rv _ => do
      let _ ← s.sum
      .error .unmodelled
    | .blank _ => do
      let _ ← s.sum
      .error .unmodelled
  else do
    let _ ← s.sum
    .error .unmodelled

/-- A `StringSeq` as the right operand of an operator other than `@`.  Comparisons of a number or a `Seq` with it run the method of the `StringSeq` with
the reflected operator (`StringSeq` is a subclass of `Seq`); other operators of a number or a `Seq` (src/seq.py:73-134) come to its reflected method;
dice add up the sequence (src/randvar.py:204-207); blank dice are src/blackrv.py:31-133 (`-other` of a sequence raises TypeError). -/
def binopR (op : BinOp) (o : TextObj) (s : StrSeq) : Except Err TextObj :=
  match o with
  | .out (.str _) => .error .unmodelled
  | .out (.num n) => s.binopL op.swap (.out (.num n))
  | .seq t => s.binopL op.swap (.seq t)
  | .strs t => t.binopL op (.strs s)
  | .rv _ => do
    let _ ← s.sum
    .error .unmodelled
  | .blank b =>
    match op with
    | .add => .ok (if b then .blank b else .strs s)
    | .sub => if b then .ok (.blank b) else .error .type
    | .or_ => .ok (if b then .out (.num 1) else .strs s)
    | .and_ => .ok (if b then .out (.num 1) else .blank b)
    | op => if op.isCmp then .ok (if b then .out (.num 1) else .blank b) else .ok (.blank b)

/-- `o @ s`: src/seq.py:61-71 for a number; src/seq.py:50-59 of the left operand for a sequence; src/randvar.py:225-227 and src/blackrv.py:22-24. -/
def matmulR (o : TextObj) (s : StrSeq) : Except Err Out :=
  match o with
  | .out (.num k) => s.getItem k
  | .out (.str _) => .error .unmodelled
  | .seq locs => s.sumAt locs
  | .strs locs => do
    let l ← locs.elems.mapM fun i => match i with
      | .num n => Except.ok n
      | .str _ => .error .assertion
    s.sumAt l
  | .rv _ => .error .type
  | .blank _ => .error .type

/-- src/seq.py:35-36 `__repr__` is not overridden: `Seq(` and the tuple; src/seq.py:32-33 `__str__`. -/
def str (_ : StrSeq) : List Char := "{?}".toList

end StrSeq

end PythonDice
