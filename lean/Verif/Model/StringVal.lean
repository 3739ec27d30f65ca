import Verif.Model.RV
import Mathlib.Data.List.Lex
import Mathlib.Data.Prod.Lex
import Mathlib.Data.Sum.Order
import Mathlib.Data.Char

/-!
# Model of `src/string_rvs.py`: string outcomes

Strings are lists of characters, compared code point by code point as in Python.
Simplification: coefficients are ints (the code also allows floats).
-/

namespace PythonDice

/-- A Python `str`. -/
abbrev PyStr := List Char

/-- A Python `dict[str, int]`: its items in insertion order. -/
abbrev CoefDict := List (PyStr × ℤ)

/-- The four order operators of the `operator` module that are passed to `_compare_to`. -/
inductive CmpOp
  | lt | le | gt | ge
  deriving DecidableEq, Repr

/-- `operator(a, b)`. -/
def CmpOp.run {β : Type} [LinearOrder β] (o : CmpOp) (a b : β) : Bool := match o with
  | .lt => decide (a < b)
  | .le => decide (a ≤ b)
  | .gt => decide (b < a)
  | .ge => decide (b ≤ a)

/-- The operator Python falls back to with swapped operands. -/
def CmpOp.reflect : CmpOp → CmpOp
  | .lt => .gt
  | .le => .ge
  | .gt => .lt
  | .ge => .le

/-- src/string_rvs.py:14-17 the attributes of a `StringVal`. -/
structure StrVal where
  keys : List PyStr
  data : CoefDict
  deriving DecidableEq, Repr

namespace StrVal

/-- src/string_rvs.py:11 `_CONST_COEF`. -/
def constKey : PyStr := "_UNIQUE_STRING".toList

/-- src/string_rvs.py:15-17 `__init__`. -/
def mk' (keys : List PyStr) (pairs : CoefDict) : StrVal := { keys := keys.insertionSort (· ≤ ·), data := pairs }

/-- src/string_rvs.py:19-21 `from_const`. -/
def fromConst (n : ℤ) : StrVal := mk' [constKey] [(constKey, n)]

/-- src/string_rvs.py:23-25 `from_str`. -/
def fromStr (s : PyStr) : StrVal := mk' [s] [(s, 1)]

/-- src/string_rvs.py:27-29 `from_paris`. -/
def fromPairs (pairs : CoefDict) : StrVal := mk' (pairs.map (·.1)) pairs

/-- `d.get(k, 0)`. -/
def dictGet (d : CoefDict) (k : PyStr) : ℤ := (d.lookup k).getD 0

/-- `d[k] = v`: replaces in place or appends. -/
def dictSet : CoefDict → PyStr → ℤ → CoefDict
  | [], k, v => [(k, v)]
  | (k', v') :: d, k, v => if k' = k then (k', v) :: d else (k', v') :: dictSet d k v

/-- src/string_rvs.py:39-40: the loop of `__add__`. -/
def addLoop (newdict : CoefDict) : CoefDict → CoefDict
  | [] => newdict
  | (key, val) :: rest => addLoop (dictSet newdict key (dictGet newdict key + val)) rest

/-- src/string_rvs.py:35-41 `__add__` of two `StringVal`s. -/
def add (a b : StrVal) : StrVal := fromPairs (addLoop a.data b.data)

/-- src/string_rvs.py:89-97: the loop of `_compare_to`; the lists are `self.keys[i:]` and
`other.keys[i:]`, `la` and `lb` the full lengths.  `self.data[key]` is read as `get(key, 0)`: the keys
of a value are the keys of its dictionary. -/
def cmpLoop (o : CmpOp) (da db : CoefDict) (la lb : ℕ) : List PyStr → List PyStr → Bool
  | k :: ks, k' :: ks' =>
    if k ≠ k' then o.run k k'
    else if dictGet da k ≠ dictGet db k' then o.run (dictGet da k) (dictGet db k')
    else cmpLoop o da db la lb ks ks'
  | _, _ => o.run la lb

/-- src/string_rvs.py:87-97 `_compare_to` of two `StringVal`s. -/
def compareTo (o : CmpOp) (a b : StrVal) : Bool :=
  cmpLoop o a.data b.data a.keys.length b.keys.length a.keys b.keys

/-- Python's `==` on dicts. -/
def dictEq (d e : CoefDict) : Bool := d.length == e.length && d.all fun kv => e.lookup kv.1 == some kv.2

/-- src/string_rvs.py:75-79 `__eq__` of two `StringVal`s. -/
def eq (a b : StrVal) : Bool := a.keys == b.keys && dictEq a.data b.data

/-- src/string_rvs.py:101-102 `__hash__`: what is hashed. -/
def hashInput (a : StrVal) : List PyStr × List PyStr := (a.keys, a.data.map (·.1))

end StrVal

/-- The outcomes of a die with string faces: ints and `StringVal`s. -/
inductive Out
  | num (n : ℤ)
  | str (s : StrVal)
  deriving DecidableEq, Repr

namespace Out

/-- Python's `a < b`, `a <= b`, `a > b`, `a >= b`.  Between an int and a `StringVal` the method of the
`StringVal` runs (src/string_rvs.py:98-99, `operator(float('inf'), other)`), reflected if it is the
right operand. -/
def cmp (o : CmpOp) : Out → Out → Bool
  | num m, num n => o.run m n
  | str a, str b => a.compareTo o b
  | str _, num n => o.run (⊤ : WithTop ℤ) (n : WithTop ℤ)
  | num m, str _ => o.reflect.run (⊤ : WithTop ℤ) (m : WithTop ℤ)

/-- Python's `a == b` (src/string_rvs.py:75-79). -/
def eq : Out → Out → Bool
  | num m, num n => decide (m = n)
  | str a, str b => a.eq b
  | _, _ => false

/-- Python's `a + b` (src/string_rvs.py:35-44 when a `StringVal` is involved). -/
def add : Out → Out → Out
  | num m, num n => num (m + n)
  | str a, str b => str (a.add b)
  | str a, num n => str (a.add (StrVal.fromConst n))
  | num m, str b => str (b.add (StrVal.fromConst m))

/-! ## The constructor of a die, with the comparisons of string outcomes

The functions of `Model/RV.lean` compare outcomes by the order of the outcome type; these are the
same functions with `==` and `<` as Python evaluates them on `Out`. -/

/-- Tuple comparison `a >= b`, used by `sorted(..., reverse=True)`: at the first difference, by `==`. -/
def lexGe (a b : Out × ℕ) : Bool := if eq b.1 a.1 then decide (b.2 ≤ a.2) else cmp .lt b.1 a.1

/-- src/randvar.py:50-52 `_get_zip`. -/
def getZip (v : List Out) (p : List ℕ) : List (Out × ℕ) := (v.zip p).insertionSort fun a b => lexGe a b = true

/-- src/randvar.py:57-63. -/
def groupLoop (cur : Out × ℕ) : List (Out × ℕ) → List (Out × ℕ) → List (Out × ℕ)
  | [], acc => acc ++ [cur]
  | prev :: rest, acc =>
    if eq cur.1 prev.1 then groupLoop (prev.1, prev.2 + cur.2) rest acc
    else groupLoop prev rest (acc ++ [cur])

/-- src/randvar.py:54-66 `_get_new_zipped`. -/
def newZipped (zipped : List (Out × ℕ)) (skipZeroProbs : Bool) : List (Out × ℕ) :=
  let nz := match zipped.reverse with
    | [] => []
    | c :: rest => groupLoop c rest []
  if skipZeroProbs then nz.filter (fun v => v.2 ≠ 0) else nz

/-- src/randvar.py:41-48 `_sort_and_group`. -/
def sortAndGroup (vals : List Out) (probs : List ℤ) (skipZeroProbs normalize : Bool) :
    Except Err (List Out × List ℕ) :=
  if probs.all (fun p => decide (0 ≤ p)) then
    .ok (RV.normalized (newZipped (getZip vals (probs.map Int.toNat)) skipZeroProbs) normalize)
  else .error .assertion

/-- `int(v)`: TypeError on a `StringVal`. -/
def trunc : Out → Except Err Out
  | num n => .ok (num n)
  | str _ => .error .type

/-- src/randvar.py:22-39 `RV.__init__`. -/
def mkRV (st : Settings) (vals : List Out) (probs : List ℤ) (truncate : Option Bool := none) :
    Except Err (RV Out) := do
  if vals.length ≠ probs.length then throw .assertion
  let vals ← if truncate.getD st.rvTrunc then vals.mapM trunc else pure vals
  let (vs, ps) ← sortAndGroup vals probs st.rvIgnoreZeroProbs true
  if vs.length = 0 then return { vals := [num 0], probs := [1] }
  else return { vals := vs, probs := ps }

/-! ## Sets of outcomes -/

/-- `x in set(l)`: an element is found if it is equal to `x` and has the same hash (a hash table
never compares elements of different hashes).  `h` is the hash function of `Out`. -/
def inSet {H : Type} [DecidableEq H] (h : Out → H) (l : List Out) (x : Out) : Bool :=
  l.any fun y => decide (h y = h x) && eq y x

/-- What `hash` is a function of: the int, or the hashed tuple of a `StringVal`. -/
def hashInput : Out → ℤ ⊕ (List PyStr × List PyStr)
  | num n => .inl n
  | str s => .inr s.hashInput

/-- src/randvar.py:134-142 `filter`, with `to_filter` the elements of `get_seq(obj)`. -/
def filterRV {H : Type} [DecidableEq H] (h : Out → H) (st : Settings) (r : RV Out) (toFilter : List Out) :
    Except Err (RV Out) :=
  let vp := r.pairs.filter fun x => !inSet h toFilter x.1
  if vp.length = 0 then mkRV st [num 0] [1]
  else mkRV st (vp.map (·.1)) (vp.map fun x => (x.2 : ℤ))

end Out

end PythonDice
