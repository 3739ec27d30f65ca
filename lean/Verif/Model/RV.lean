import Verif.Model.Basic
import Mathlib.Data.Nat.Choose.Basic
import Mathlib.Algebra.BigOperators.Group.List.Basic
import Mathlib.Data.List.Sort

/-!
# Model of `src/randvar.py`: the class `RV` (pure part)

Functions that read `SETTINGS` take the settings as an argument.  Functions that end with
`_INTERNAL_PROB_LIMIT_VALS` return, besides the die, whether its warning was logged.
-/

namespace PythonDice

variable {α β γ : Type}

/-- src/randvar.py:21-39 the attributes of an `RV`.
`src = none` stands for `_source_roll = 1, _source_die = self`; `some (n, vs, ps)` for
`set_source(n, D)` with `D.vals = vs`, `D.probs = ps` (only these two attributes of the source die
are ever used).  `sum_probs` is a cache of `sum(probs)` and is recomputed here.
`_str_LHS_RHS` is modelled separately (`Model/StrAlias.lean`). -/
structure RV (α : Type) where
  vals : List α
  probs : List ℕ
  src : Option (ℕ × List α × List ℕ) := none
  deriving Repr, DecidableEq

namespace RV

/-- The `(value, weight)` pairs, `zip(self.vals, self.probs)`. -/
def pairs (r : RV α) : List (α × ℕ) := r.vals.zip r.probs

/-- src/randvar.py:169-172 `_get_sum_probs`. -/
def sumProbs (r : RV α) : ℕ := r.probs.sum

/-- src/randvar.py:341-343 `__len__`. -/
def len (r : RV α) : ℕ := match r.src with
  | none => 1
  | some (n, _, _) => n

/-- src/randvar.py:36-37, 116-118, 175: the pair `(N, D)` of `_source_roll, _source_die`. -/
def source (r : RV α) : ℕ × RV α := match r.src with
  | none => (1, r)
  | some (n, vs, ps) => (n, { vals := vs, probs := ps })

/-- src/randvar.py:116-118 `set_source(roll, die)`. -/
def setSource (r : RV α) (n : ℕ) (d : RV α) : RV α := { r with src := some (n, d.vals, d.probs) }

section ctor
variable [LinearOrder α]

/-- Tuple comparison `a >= b` on `(value, weight)` pairs, used by `sorted(..., reverse=True)`. -/
def lexGe (a b : α × ℕ) : Bool := decide (b.1 < a.1 ∨ (b.1 = a.1 ∧ b.2 ≤ a.2))

/-- src/randvar.py:50-52 `_get_zip`: `sorted(zip(v, p), reverse=True)`.
`sorted` is modelled by insertion sort throughout; both are stable sorts, so they agree. -/
def getZip (v : List α) (p : List ℕ) : List (α × ℕ) := (v.zip p).insertionSort fun a b => lexGe a b = true

/-- src/randvar.py:57-63: the loop `for i in range(len(zipped)-1, 0, -1)` and the final append.
`cur` is `zipped[i]`, the list argument is `zipped[i-1], zipped[i-2], …, zipped[0]`, `acc` is
`newzipped`. -/
def groupLoop (cur : α × ℕ) : List (α × ℕ) → List (α × ℕ) → List (α × ℕ)
  | [], acc => acc ++ [cur]
  | prev :: rest, acc =>
    if cur.1 = prev.1 then groupLoop (prev.1, prev.2 + cur.2) rest acc
    else groupLoop prev rest (acc ++ [cur])

/-- src/randvar.py:54-66 `_get_new_zipped`. -/
def newZipped (zipped : List (α × ℕ)) (skipZeroProbs : Bool) : List (α × ℕ) :=
  let nz := match zipped.reverse with
    | [] => []
    | c :: rest => groupLoop c rest []
  if skipZeroProbs then nz.filter (fun v => v.2 ≠ 0) else nz

/-- `math.gcd(*probs)`. -/
def gcdList (ps : List ℕ) : ℕ := ps.foldl Nat.gcd 0

/-- src/randvar.py:68-76 `_get_normalized`. -/
def normalized (nz : List (α × ℕ)) (normalize : Bool) : List α × List ℕ :=
  let vals := nz.map (·.1)
  let probs := nz.map (·.2)
  if normalize then
    let gcd := gcdList probs
    if gcd > 1 then (vals, probs.map (· / gcd)) else (vals, probs)
  else (vals, probs)

/-- src/randvar.py:41-48 `_sort_and_group`.  Only the sign is checked by the model's assertion: that
the weights are ints is given by their type. -/
def sortAndGroup (vals : List α) (probs : List ℤ) (skipZeroProbs normalize : Bool) :
    Except Err (List α × List ℕ) :=
  if probs.all (fun p => decide (0 ≤ p)) then
    .ok (normalized (newZipped (getZip vals (probs.map Int.toNat)) skipZeroProbs) normalize)
  else .error .assertion

/-- src/randvar.py:22-39 `RV.__init__`.  Lines 25-27 (bool → int) are the identity on the model's
outcome types. -/
def mk' [PyVal α] (st : Settings) (vals : List α) (probs : List ℤ) (truncate : Option Bool := none) :
    Except Err (RV α) := do
  if vals.length ≠ probs.length then throw .assertion
  let vals ← if truncate.getD st.rvTrunc then vals.mapM PyVal.trunc else pure vals
  let (vs, ps) ← sortAndGroup vals probs st.rvIgnoreZeroProbs true
  if vs.length = 0 then return { vals := [PyVal.zero], probs := [1] }
  else return { vals := vs, probs := ps }

/-- src/randvar.py:78-80 `from_const`. -/
def fromConst [PyVal α] (st : Settings) (v : α) : Except Err (RV α) := mk' st [v] [1]

/-- src/randvar.py:82-88 `from_seq`, for an already flattened sequence. -/
def fromSeq [PyVal α] (st : Settings) (s : List α) : Except Err (RV α) :=
  if s.length = 0 then mk' st [PyVal.zero] [1]
  else mk' st s (List.replicate s.length 1)

end ctor

/-! ## The probability limiter -/

/-- src/randvar.py:447 the default `sum_limit = 10e30`, i.e. the double nearest to 10^31. -/
def sumLimit : ℕ := 9999999999999999635896294965248

/-- First int too large for a double: `float(i)` raises OverflowError from here on
(2^1024 - 2^970 rounds to 2^1024). -/
def floatOverflow : ℕ := 2 ^ 1024 - 2 ^ 970

/-- src/randvar.py:451 `int(10e10 * (sum_ // sum_limit))` in double arithmetic.
CPython's float floor division: `mod = fmod(vx, wx); div = (vx - mod)/wx; r = floor(div);
if div - r > 0.5: r += 1`. -/
def normConst (s : ℕ) : Except Err ℕ :=
  if floatOverflow ≤ s then .error .overflow
  else
    let vx : ℚ := fl s
    let wx : ℚ := sumLimit
    let m : ℚ := vx - wx * ⌊vx / wx⌋
    let div := fl (fl (vx - m) / wx)
    let fd : ℤ := ⌊div⌋
    let fd := if 1 / 2 < div - fd then fd + 1 else fd
    .ok ⌊fl (100000000000 * (fd : ℚ))⌋.toNat

/-- src/randvar.py:447-463 `_INTERNAL_PROB_LIMIT_VALS`; the Bool says whether the warning was
logged. -/
def probLimit (r : RV α) : Except Err (RV α × Bool) :=
  if r.sumProbs ≤ sumLimit then .ok (r, false)
  else do
    let nc ← normConst r.sumProbs
    if nc = 0 then throw .zeroDivision
    return ({ r with probs := r.probs.map (· / nc) }, true)

/-! ## Mixtures -/

/-- An entry of the list passed to `from_rvs`: a number, a die, or a blank die / `None`. -/
inductive Entry (α : Type)
  | num (v : α)
  | rv (r : RV α)
  | blank
  deriving Repr, DecidableEq

/-- src/randvar.py:96. -/
def Entry.isBlank : Entry α → Bool
  | .blank => true
  | _ => false

/-- src/randvar.py:98: the weights whose index is not the index of a blank entry. -/
def filterWeights : List (Entry α) → List ℤ → List ℤ
  | [], ws => ws
  | _ :: _, [] => []
  | e :: es, w :: ws => if e.isBlank then filterWeights es ws else w :: filterWeights es ws

/-- src/randvar.py:102 the summand of `prob_sums`. -/
def Entry.probSum : Entry α → ℕ
  | .rv r => r.sumProbs
  | _ => 1

/-- src/randvar.py:105-111: one iteration of the loop, as the pairs it appends.
`PROD // prob_sum` raises for `prob_sum = 0`. -/
def Entry.contrib (prod : ℕ) (weight : ℤ) : Entry α → Except Err (List (α × ℤ))
  | .rv r =>
    if r.sumProbs = 0 ∧ r.probs ≠ [] then .error .zeroDivision
    else .ok (r.vals.zip (r.probs.map fun p : ℕ => (p : ℤ) * weight * ((prod / r.sumProbs : ℕ) : ℤ)))
  | .num v => .ok [(v, weight * prod)]
  | .blank => .ok []

/-- src/randvar.py:90-114 `from_rvs`.  The result `none` is a `BlankRV()`. -/
def fromRvs [LinearOrder α] [PyVal α] (st : Settings) (rvs : List (Entry α)) (weights : Option (List ℤ)) :
    Except Err (Option (RV α) × Bool) := do
  let ws := match weights with
    | none => List.replicate rvs.length 1
    | some ws => ws
  let ws := filterWeights rvs ws
  let rvs := rvs.filter (fun e => !e.isBlank)
  if rvs.length = 0 then return (none, false)
  if rvs.length ≠ ws.length then throw .assertion
  let prod := (rvs.map Entry.probSum).prod
  let parts ← (rvs.zip ws).mapM fun ew => ew.1.contrib prod ew.2
  let all := parts.flatten
  let r ← mk' st (all.map (·.1)) (all.map (·.2))
  let (r, b) ← probLimit r
  return (some r, b)

/-! ## Convolution -/

section conv

/-- src/randvar.py:411-420 `_rdict.__setitem__`: add to an existing key, else append
(insertion-ordered dict). -/
def rdictSet [DecidableEq γ] (d : List (γ × ℕ)) (k : γ) (v : ℕ) : List (γ × ℕ) :=
  match d with
  | [] => [(k, v)]
  | (k', v') :: rest => if k' = k then (k', v' + v) :: rest else (k', v') :: rdictSet rest k v

/-- src/randvar.py:422-425 `to_tuples`: `sorted(self.d.items())`. -/
def toTuples [LinearOrder γ] (d : List (γ × ℕ)) : List (γ × ℕ) :=
  d.insertionSort fun a b => a.1 < b.1 ∨ (a.1 = b.1 ∧ a.2 ≤ b.2)

/-- src/randvar.py:427-444 `_rdict.fast_convolve` (lines 437-444, the specialised copy for `add`,
compute the same function). -/
def fastConvolve [LinearOrder γ] (items1 : List (α × ℕ)) (items2 : List (β × ℕ))
    (op : α → β → Except Err γ) : Except Err (List (γ × ℕ)) := do
  let d ← items1.foldlM (init := ([] : List (γ × ℕ))) fun d kv1 =>
    items2.foldlM (init := d) fun d kv2 => do
      let k ← op kv1.1 kv2.1
      return rdictSet d k (kv1.2 * kv2.2)
  return toTuples d

/-- src/randvar.py:210-213: `_convolve` with a die as right operand. -/
def convolveRV [LinearOrder γ] [PyVal γ] (st : Settings) (a : RV α) (b : RV β)
    (op : α → β → Except Err γ) : Except Err (RV γ × Bool) := do
  let kv ← fastConvolve a.pairs b.pairs op
  let r ← mk' st (kv.map (·.1)) (kv.map fun x => (x.2 : ℤ))
  probLimit r

/-- src/randvar.py:208-209, 223, 198-199: an operation applied to each outcome
(`_apply_operation`, `_convolve` with a number, `_rconvolve`). -/
def mapVals [LinearOrder γ] [PyVal γ] (st : Settings) (a : RV α) (op : α → Except Err γ) :
    Except Err (RV γ) := do
  let vs ← a.vals.mapM op
  mk' st vs (a.probs.map fun p : ℕ => (p : ℤ))

end conv

/-! ## Derived dice -/

section derived
variable [LinearOrder α] [PyVal α]

/-- src/randvar.py:134-142 `filter`, with `to_filter` the elements of `get_seq(obj)`. -/
def filter (st : Settings) (r : RV α) (toFilter : List α) : Except Err (RV α) :=
  let vp := r.pairs.filter fun x => decide (x.1 ∉ toFilter)
  if vp.length = 0 then fromConst st PyVal.zero
  else mk' st (vp.map (·.1)) (vp.map fun x => (x.2 : ℤ))

/-- `itertools.accumulate` of ints, started with running total `t`. -/
def accumFrom (t : ℕ) : List ℕ → List ℕ
  | [] => []
  | p :: ps => (t + p) :: accumFrom (t + p) ps

/-- src/randvar.py:160-164 `get_cdf`. -/
def getCdf (st : Settings) (r : RV α) : Except Err (RV α) :=
  mk' st r.vals ((accumFrom 0 r.probs).map fun p : ℕ => (p : ℤ))

/-- src/randvar.py:256-257 `get_x`, for `m = N - k + 1` summands. -/
def getX (N m : ℕ) (p1 p2 p3 : ℤ) : ℤ :=
  ((List.range m).map fun j =>
    (N.choose j : ℤ) * (p3 ^ j * (p1 + p2) ^ (N - j) - (p2 + p3) ^ j * p1 ^ (N - j))).sum

/-- src/randvar.py:256-258 `get_x(xi, k)` with its indexing of `p1`, `p2`, `p3`. -/
def getXAt (N m : ℕ) (p1 p2 p3 : List ℤ) (xi : ℕ) : Except Err ℤ :=
  match p1[xi]?, p2[xi]?, p3[xi]? with
  | some a, some b, some c => .ok (getX N m a b c)
  | _, _, _ => .error .index

/-- src/randvar.py:251-252: the rank `k` counted from the smallest. -/
def ascRank (st : Settings) (draws : ℕ) (k : ℤ) : ℤ :=
  match st.positionOrder with
  | .highestFirst => (draws : ℤ) - k + 1
  | .lowestFirst => k

/-- src/randvar.py:241-261 `_get_kth_order_statistic(draws, k)`.  The result `none` is the int `0`.
`p1` and `p3` are truncated by `zip` to the length of the cdf; indexing past them raises. -/
def kthOrderStatistic (st : Settings) (r : RV α) (draws : ℕ) (k : ℤ) :
    Except Err (Option (RV α) × Bool) := do
  let cdf := (← getCdf st r).probs
  let p1 : List ℤ := (r.probs.zip cdf).map fun pc => (pc.2 : ℤ) - pc.1
  let p2 : List ℤ := r.probs.map fun p : ℕ => (p : ℤ)
  let p3 : List ℤ := cdf.map fun c : ℕ => (r.sumProbs : ℤ) - c
  let k := ascRank st draws k
  if k < 1 ∨ (draws : ℤ) < k then return (none, false)
  let resProb ← (List.range r.vals.length).mapM (getXAt draws (draws - k.toNat + 1) p1 p2 p3)
  let res ← mk' st r.vals resProb
  let (res, b) ← probLimit res
  return (some res, b)

end derived

/-! ## Enumerating the rolls of a pool -/

/-- `itertools.combinations_with_replacement(pool, n)`, in its documented (lexicographic by
position) order. -/
def combosWithReplacement (pool : List α) : ℕ → List (List α)
  | 0 => [[]]
  | n + 1 => pool.tails.flatMap fun
    | [] => []
    | x :: xs => (combosWithReplacement (x :: xs) n).map (x :: ·)

/-- src/utils.py:26-29 `factorial` (the memo table only caches). -/
def factorial : ℕ → ℕ
  | 0 => 1
  | n + 1 => if n + 1 > 1 then (n + 1) * factorial n else 1

/-- A `defaultdict(int)` with `counts[v] += 1`, returning the new count too. -/
def bumpCount [DecidableEq α] (counts : List (α × ℕ)) (v : α) : List (α × ℕ) × ℕ :=
  match counts with
  | [] => ([(v, 1)], 1)
  | (v', c) :: rest =>
    if v' = v then ((v', c + 1) :: rest, c + 1)
    else
      let (rest', n) := bumpCount rest v
      ((v', c) :: rest', n)

/-- src/randvar.py:183-189: the inner loop over one roll; returns
`(cur_roll_probs, comb_with_repl_denominator)`.
`pdf` is `pdf_dict`; every `v` of a roll is one of its keys. -/
def rollWeight [DecidableEq α] (pdf : List (α × ℕ)) :
    List α → List (α × ℕ) → ℕ → ℕ → ℕ × ℕ
  | [], _, cur, den => (cur, den)
  | v :: vs, counts, cur, den =>
    let (counts', n) := bumpCount counts v
    rollWeight pdf vs counts' (cur * (pdf.lookup v).getD 0) (den * n)

/-- src/randvar.py:174-196 `_get_expanded_possible_rolls`, as pairs (sequence, weight). -/
def expandedRolls [DecidableEq α] (r : RV α) : List (List α × ℕ) :=
  let (N, D) := r.source
  if N = 1 then (D.vals.map fun i => [i]).zip D.probs
  else
    let pdf := D.vals.zip D.probs
    let facN := factorial N
    (combosWithReplacement D.vals.reverse N).map fun roll =>
      let (cur, den) := rollWeight pdf roll [] 1 1
      (roll, facN / den * cur)

/-! ## Equality of dice -/

/-- The arguments of `dices_are_equal`: a blank die, a number, an iterable (flattened) or a die. -/
inductive DieArg (α : Type)
  | blank
  | num (v : α)
  | seq (s : List α)
  | rv (r : RV α)

/-- src/randvar.py:395-398: numbers and iterables become dice. -/
def DieArg.toRV [LinearOrder α] [PyVal α] (st : Settings) : DieArg α → Except Err (Option (RV α))
  | .blank => .ok none
  | .num v => return some (← fromSeq st [v])
  | .seq s => return some (← fromSeq st s)
  | .rv r => .ok (some r)

/-- src/randvar.py:391-399 `dices_are_equal`. -/
def dicesAreEqual [LinearOrder α] [PyVal α] (st : Settings) (d1 d2 : DieArg α) : Except Err Bool :=
  match d1, d2 with
  | .blank, .blank => .ok true
  | .blank, _ => .ok false
  | _, .blank => .ok false
  | d1, d2 => do
    match ← d1.toRV st, ← d2.toRV st with
    | some a, some b => return decide (a.vals = b.vals ∧ a.probs = b.probs)
    | _, _ => return false

end RV
end PythonDice
