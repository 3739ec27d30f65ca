import Verif.Model.Cast
import Mathlib.Data.Nat.Digits.Defs

/-!
# Model of `src/seq.py`, `src/blackrv.py`, `src/utils.py`: operators between objects

Binary operators follow Python's protocol: the left operand's method, then (if it does not exist or
returns `NotImplemented`) the right operand's reflected method.
-/

namespace PythonDice

/-! ## Indexing -/

/-- src/seq.py:47-48 `Seq.__getitem__`; `off` is `_one_indexed` (1, or 0 after
`set_one_indexed(False)`, src/seq.py:29-30). -/
def getItem (s : List ℤ) (i : ℤ) (off : ℤ := 1) : ℤ :=
  if 0 ≤ i - off ∧ i - off < s.length then s.getD (i - off).toNat 0 else 0

/-- src/seq.py:59, 71; src/randvar.py:404: `sum(s[int(i)] for i in locs)`. -/
def sumAt (s locs : List ℤ) : ℤ := (locs.map fun i => getItem s i).sum

/-- Decimal digits of a natural number, most significant first (`[0]` for 0). -/
def decDigits (n : ℕ) : List ℕ := if n = 0 then [0] else (Nat.digits 10 n).reverse

/-- `str(b)` for an int: characters are digits (`some d`) or the sign (`none`). -/
def strInt (b : ℤ) : List (Option ℕ) :=
  if b < 0 then none :: (decDigits b.natAbs).map some else (decDigits b.natAbs).map some

/-- `int(c)` for one character of `str(b)`: `int('-')` raises. -/
def intOfChar : Option ℕ → Except Err ℤ
  | some d => .ok d
  | none => .error .value

/-- src/seq.py:54-55 `Seq([int(d) for d in str(other)])`. -/
def digitsSeq (b : ℤ) : Except Err (List ℤ) := (strInt b).mapM intOfChar

/-! ## Binary operators -/

/-- The reflected comparison Python tries when the left operand does not know the right one. -/
def BinOp.swap : BinOp → BinOp
  | .lt => .gt
  | .le => .ge
  | .gt => .lt
  | .ge => .le
  | op => op

/-- Is it one of `==, !=, <, <=, >, >=`? -/
def BinOp.isCmp : BinOp → Bool
  | .eq | .ne | .lt | .le | .gt | .ge => true
  | _ => false

/-- `operation(x, y)` of a comparison, for ints; not used for other operators. -/
def BinOp.test : BinOp → ℤ → ℤ → Bool
  | .eq, x, y => decide (x = y)
  | .ne, x, y => decide (x ≠ y)
  | .lt, x, y => decide (x < y)
  | .le, x, y => decide (x ≤ y)
  | .gt, x, y => decide (y < x)
  | .ge, x, y => decide (y ≤ x)
  | _, _, _ => false

/-- A comparison with `float('-inf')` as missing value (`none`), src/seq.py:155. -/
def BinOp.testInf : BinOp → Option ℤ → Option ℤ → Bool
  | op, some x, some y => op.test x y
  | op, none, none => op.test 0 0
  | .eq, _, _ => false
  | .ne, _, _ => true
  | .lt, none, some _ => true
  | .le, none, some _ => true
  | .gt, some _, none => true
  | .ge, some _, none => true
  | _, _, _ => false

/-- `zip_longest` with `None` standing for the fill value. -/
def zipLongest : List ℤ → List ℤ → List (Option ℤ × Option ℤ)
  | [], ys => ys.map fun y => (none, some y)
  | x :: xs, [] => (some x, none) :: zipLongest xs []
  | x :: xs, y :: ys => (some x, some y) :: zipLongest xs ys

/-- src/seq.py:155 `all(operation(x, y) for x, y in zip_longest(...))`. -/
def seqAll (op : BinOp) (s t : List ℤ) : Bool := (zipLongest s t).all fun xy => op.testInf xy.1 xy.2

/-- src/seq.py:147-157 `_compare_to` with another sequence. -/
def seqCmpSeq (op : BinOp) (s t : List ℤ) : Bool :=
  match op with
  | .ne => !seqAll .eq s t
  | op => seqAll op s t

/-- src/seq.py:157 `_compare_to` with a number: how many elements satisfy it. -/
def seqCmpNum (op : BinOp) (s : List ℤ) (n : ℤ) : ℤ := ((s.filter fun x => op.test x n).length : ℕ)

/-- `x op y` on two ints, as Python evaluates it: `|` and `&` are bitwise. -/
def intBinop (op : BinOp) (x y : ℤ) : Except Err ℤ :=
  match op with
  | .or_ => .ok (Int.lor x y)
  | .and_ => .ok (Int.land x y)
  | op => op.eval x y

/-- src/blackrv.py:31-133: `Blank op x` is handled by `blankL`, `x op Blank` (reflected methods, and
comparisons) by `blankR`; `other` is returned unchanged where the code returns `other`. -/
def blankR (op : BinOp) (other : Obj) (special : Bool) : Obj :=
  match op with
  | .add | .sub => if special then .blank special else other
  | .mul | .floordiv | .truediv | .pow | .mod => .blank special
  | .eq | .ne | .lt | .le | .gt | .ge => if special then .num 1 else .blank special
  | .or_ =>
    if special then .num 1
    else match other with
      | .blank _ => .blank special
      | o => o
  | .and_ => if special then .num 1 else .blank special

/-- src/blackrv.py:41-46 and `operator.neg`: minus the other operand. -/
def negObj (o : Obj) : M Obj :=
  match o with
  | .num n => pure (.num (-n))
  | .seq s => pure (.num (-s.sum))
  | .rv r => .rv <$> M.ofSettings fun st => RV.neg st r
  | .blank b => pure (.blank b)

/-- src/blackrv.py:31-128: `Blank op other`. -/
def blankL (op : BinOp) (special : Bool) (other : Obj) : M Obj :=
  match op with
  | .sub => if special then pure (.blank special) else negObj other
  | op => pure (blankR op other special)

/-- `num op other`. -/
def numBinop (op : BinOp) (x : ℤ) (other : Obj) : M Obj :=
  match other with
  | .num y => .num <$> M.ofSettings fun _ => intBinop op x y
  | .seq s =>
    if op.isCmp then pure (.num (seqCmpNum op.swap s x))
    else .num <$> M.ofSettings fun _ => op.eval x s.sum
  | .rv r =>
    if op.isCmp then .rv <$> M.ofSettings fun st => RV.binopNum st op.swap r x
    else .rv <$> M.ofSettings fun st => RV.rbinopNum st op x r
  | .blank b => pure (blankR op (.num x) b)

/-- A binary operator (other than `@`) between two objects.
src/seq.py:73-157, src/randvar.py:201-336, src/blackrv.py:31-133. -/
def binop (op : BinOp) (a b : Obj) : M Obj :=
  match a, b with
  | .num x, b => numBinop op x b
  | .seq s, .num y =>
    if op.isCmp then pure (.num (seqCmpNum op s y))
    else .num <$> M.ofSettings fun _ => op.eval s.sum y
  | .seq s, .seq t =>
    if op.isCmp then pure (.num (ofBool (seqCmpSeq op s t)))
    else .num <$> M.ofSettings fun _ => op.eval s.sum t.sum
  | .seq s, b => numBinop op s.sum b
  | .rv r, .num y => .rv <$> M.ofSettings fun st => RV.binopNum st op r y
  | .rv r, .seq t => .rv <$> M.ofSettings fun st => RV.binopNum st op r t.sum
  | .rv r, .rv q => .rv <$> M.ofLimited fun st => RV.binop st op r q
  | .rv r, .blank b => pure (blankR op (.rv r) b)
  | .blank b, o => blankL op b o

/-! ## Unary operators -/

/-- Unary `-`.  src/randvar.py:351-352, src/blackrv.py:146-147; `Seq` has no `__neg__`. -/
def negOp (o : Obj) : M Obj :=
  match o with
  | .num n => pure (.num (-n))
  | .seq _ => M.throw .type
  | .rv r => .rv <$> M.ofSettings fun st => RV.neg st r
  | .blank b => pure (.blank b)

/-- src/utils.py:45-48 `myinvert`; src/seq.py:44-45, src/randvar.py:354-355, src/blackrv.py:149-152. -/
def myInvert (o : Obj) : M Obj :=
  match o with
  | .num n => pure (.num (if n = 0 then 1 else 0))
  | .seq s => pure (.num (if s.sum = 0 then 1 else 0))
  | .rv r => .rv <$> M.ofSettings fun st => RV.invert st r
  | .blank b => pure (if b then .num 1 else .blank b)

/-- `abs(o)`.  src/randvar.py:357-358, src/blackrv.py:154-155; `Seq` has no `__abs__`. -/
def absOp (o : Obj) : M Obj :=
  match o with
  | .num n => pure (.num |n|)
  | .seq _ => M.throw .type
  | .rv r => .rv <$> M.ofSettings fun st => RV.abs st r
  | .blank b => pure (.blank b)

/-- src/utils.py:39-42 `mylen`; src/seq.py:41-42, src/randvar.py:341-343, src/blackrv.py:138-141. -/
def myLen : Obj → ℕ
  | .num n => (decDigits n.natAbs).length
  | .seq s => s.length
  | .rv r => r.len
  | .blank b => if b then 1 else 0

/-- src/utils.py:51-54 `myand`. -/
def myAnd (a b : Obj) : M Obj :=
  match a, b with
  | .num x, .num y => pure (.num (if x ≠ 0 ∧ y ≠ 0 then 1 else 0))
  | a, b => binop .and_ a b

/-- src/utils.py:57-60 `myor`. -/
def myOr (a b : Obj) : M Obj :=
  match a, b with
  | .num x, .num y => pure (.num (if x ≠ 0 ∨ y ≠ 0 then 1 else 0))
  | a, b => binop .or_ a b

/-! ## Selection `@` -/

/-- src/randvar.py:402-404 `_sum_at`, with its casting decorator. -/
def sumAtFn : List Obj → M (Option Obj)
  | [.seq orig, .seq locs] => pure (some (.num (sumAt orig locs)))
  | _ => M.throw .type

/-- src/randvar.py:229-239 `RV.__rmatmul__(other)` with `other` the positions. -/
def rvRmatmul (locs : List ℤ) (r : RV ℤ) : M Obj :=
  match locs with
  | [k] => do
    let res ← M.ofLimited fun st => RV.kthOrderStatistic st r.source.2 r.source.1 k
    return match res with
      | some q => .rv q
      | none => .num 0
  | locs => do
    let res ← castCall sumAtFn [(some .S, .rv r), (some .S, .seq locs)]
    return res.getD (.blank false)

/-- src/blackrv.py:26-29 `BlankRV.__rmatmul__`. -/
def blankRmatmul (special : Bool) (ne1 : Bool) : Obj :=
  if special then (if ne1 then .num 0 else .blank special) else .blank special

/-- `a @ b`.  src/seq.py:50-71, src/randvar.py:225-239, src/blackrv.py:22-29. -/
def matmul (a b : Obj) : M Obj :=
  match a, b with
  | .num _, .num _ => M.throw .type
  | .num k, .seq s => pure (.num (getItem s k))
  | .num k, .rv r => rvRmatmul [k] r
  | .num k, .blank sp => pure (blankRmatmul sp (decide (k ≠ 1)))
  | .seq locs, .num n => do
    let ds ← M.ofSettings fun _ => digitsSeq n
    return .num (sumAt ds locs)
  | .seq locs, .seq s => pure (.num (sumAt s locs))
  | .seq locs, .rv r => rvRmatmul locs r
  | .seq locs, .blank sp => pure (blankRmatmul sp (decide (seqCmpNum .ne locs 1 ≠ 0)))
  | .rv _, _ => M.throw .type
  | .blank _, _ => M.throw .type

/-- src/utils.py:33-36 `mymatmul`. -/
def myMatmul (a b : Obj) : M Obj :=
  match a, b with
  | .num k, .num n =>
    if 0 ≤ k - 1 ∧ k - 1 < (strInt n).length then
      .num <$> M.ofSettings fun _ => intOfChar ((strInt n).getD (k - 1).toNat none)
    else pure (.num 0)
  | a, b => matmul a b

/-! ## Building sequences -/

/-- The arguments of `get_seq`: numbers, dice, blanks and (nested) iterables of them. -/
inductive Src
  | num (n : ℤ)
  | rv (r : RV ℤ)
  | blank (special : Bool)
  | iter (items : List Src)

mutual
/-- src/utils.py:10-20 `flatten`. -/
def flattenSrc : Src → List Src
  | .iter items => flattenList items
  | s => [s]
/-- src/utils.py:12-20: the loop over the items. -/
def flattenList : List Src → List Src
  | [] => []
  | x :: xs => flattenSrc x ++ flattenList xs
end

/-- src/factory.py:20 / src/seq.py:20: outcomes of an element that is a die. -/
def Src.rvVals : Src → List ℤ
  | .rv r => r.vals
  | _ => []

/-- src/factory.py:21 / src/seq.py:20: elements that are not dice. -/
def Src.numVals : Src → List ℤ
  | .num n => [n]
  | _ => []

/-- src/factory.py:14-26 `get_seq(*source)` (and src/seq.py:11-22 `Seq(*source)`): numbers first, then
the outcomes of the dice; blanks are dropped.  The assertion of line 25 holds by typing. -/
def getSeq (source : List Src) : List ℤ :=
  let flat := flattenList source
  flat.flatMap Src.numVals ++ flat.flatMap Src.rvVals

/-- An object as an argument of `get_seq`. -/
def Obj.toSrc : Obj → Src
  | .num n => .num n
  | .seq s => .iter (s.map Src.num)
  | .rv r => .rv r
  | .blank b => .blank b

/-- src/factory.py:29-35 `get_rv`; blank dice fail the assertion. -/
def getRv (o : Obj) : M (RV ℤ) :=
  match o with
  | .num n => M.ofSettings fun st => RV.fromConst st n
  | .seq s => M.ofSettings fun st => RV.fromSeq st s
  | .rv r => pure r
  | .blank _ => M.throw .assertion

/-- src/roller.py:130-135 `myrange` (`int(Seq)` raises TypeError). -/
def myRange (l r : Obj) : M Obj :=
  match l, r with
  | .num a, .num b => pure (.seq (pyRange a (b + 1)))
  | _, _ => M.throw .type

end PythonDice
