import Verif.Model.StringVal

/-!
# Model of adding and rolling dice with string outcomes

The functions of `src/randvar.py` and `src/roller.py` that `Model/RV.lean` and `Model/Roll.lean` model for ordered outcomes, with `==`, `<`, `+` and
`hash` as Python evaluates them on string outcomes.  A dictionary finds a key if the hashes and the keys are equal.  `h` and `hk` are any hash functions.
-/

namespace PythonDice.Out

variable {H K : Type} [DecidableEq H] [DecidableEq K]

/-- src/randvar.py:405-414 `_rdict.__setitem__`. -/
def rdictSet (h : Out → H) : List (Out × ℕ) → Out → ℕ → List (Out × ℕ)
  | [], k, v => [(k, v)]
  | (k', v') :: d, k, v => if h k' = h k ∧ eq k' k = true then (k', v' + v) :: d else (k', v') :: rdictSet h d k v

/-- src/randvar.py:436-444 `__fast_convolve_op_add`: the two loops. -/
def addItems (h : Out → H) (a b : List (Out × ℕ)) : List (Out × ℕ) :=
  (a.flatMap fun x => b.map fun y => (x.1.add y.1, x.2 * y.2)).foldl (fun d kv => rdictSet h d kv.1 kv.2) []

/-- Tuple comparison `a <= b`: at the first difference, by `==`. -/
def lexLe (a b : Out × ℕ) : Bool := if eq a.1 b.1 then decide (a.2 ≤ b.2) else cmp .lt a.1 b.1

/-- src/randvar.py:416-419 `to_tuples`. -/
def toTuples (d : List (Out × ℕ)) : List (Out × ℕ) := d.insertionSort fun a b => lexLe a b = true

/-- src/randvar.py:201-213 `_convolve` with `operator.add` for two dice; whether the warning was logged. -/
def addRV (h : Out → H) (st : Settings) (a b : RV Out) : Except Err (RV Out × Bool) := do
  let d := toTuples (addItems h a.pairs b.pairs)
  let r ← mkRV st (d.map fun x => x.1) (d.map fun x => (x.2 : ℤ))
  RV.probLimit r

/-- src/randvar.py:201-210 `_convolve` with `operator.add` for a die and a number. -/
def addNumRV (st : Settings) (a : RV Out) (n : ℤ) : Except Err (RV Out) :=
  mkRV st (a.vals.map fun v => v.add (.num n)) (a.probs.map fun p : ℕ => (p : ℤ))

/-- src/randvar.py:82-88 `from_seq` of a `StringSeq` (src/string_rvs.py:106-115) of outcomes. -/
def fromSeqRV (st : Settings) (s : List Out) : Except Err (RV Out) :=
  if s.length = 0 then mkRV st [.num 0] [1] else mkRV st s (List.replicate s.length 1)

/-- The key of the memo table (src/roller.py:91). -/
abbrev Key := ℕ × List Out × List ℕ

/-- Are the keys equal? -/
def keyEq (a b : Key) : Bool :=
  decide (a.1 = b.1) && decide (a.2.1.length = b.2.1.length) && (a.2.1.zip b.2.1).all (fun x => eq x.1 x.2) && decide (a.2.2 = b.2.2)

/-- The memo table `_MEMOIZED_ROLLS` (src/roller.py:81) and the number of warnings. -/
structure Table where
  memo : List (Key × RV Out)
  warns : ℕ

/-- A lookup in the memo table: an entry with an equal key and an equal hash, if there is one. -/
def memoFind (hk : Key → K) (t : Table) (k : Key) : Option (RV Out) :=
  (t.memo.find? fun e => decide (hk e.1 = hk k) && keyEq e.1 k).map fun e => e.2

/-- Adding dice, with the warning counted. -/
def addT (h : Out → H) (st : Settings) (a b : RV Out) (t : Table) : Except Err (RV Out × Table) := do
  let r ← addRV h st a b
  return (r.1, { t with warns := t.warns + if r.2 then 1 else 0 })

/-- src/roller.py:95-96: one more die when `n` is odd. -/
def addOddT (h : Out → H) (st : Settings) (n : ℕ) (full d : RV Out) (t : Table) : Except Err (RV Out × Table) :=
  if n % 2 = 1 then addT h st full d t else return (full, t)

/-- src/roller.py:84-99 `_roll_int_rv` for `n ≥ 0`; the first argument bounds the recursion, `n + 1` is enough.  Exceptions lose the table here. -/
def rollNat (h : Out → H) (hk : Key → K) (st : Settings) : ℕ → ℕ → RV Out → Table → Except Err (RV Out × Table)
  | 0, _, _, _ => .error .user
  | fuel + 1, n, d, t =>
    if n = 0 then do
      let r ← mkRV st [.num 0] [1]
      return (r, t)
    else if n = 1 then .ok (d, t)
    else
      match memoFind hk t (n, d.vals, d.probs) with
      | some r => .ok (r, t)
      | none => do
        let half ← rollNat h hk st fuel (n / 2) d t
        let full ← addT h st half.1 half.1 half.2
        let full ← addOddT h st n full.1 d full.2
        let r : RV Out := { full.1 with src := some (n, d.vals, d.probs) }
        return (r, { full.2 with memo := ((n, d.vals, d.probs), r) :: full.2.memo })

/-- `0 - v` (src/randvar.py:351-352): TypeError on a string outcome. -/
def neg : Out → Except Err Out
  | .num n => .ok (.num (-n))
  | .str _ => .error .type

/-- src/roller.py:84-99 `_roll_int_rv`. -/
def rollInt (h : Out → H) (hk : Key → K) (st : Settings) (n : ℤ) (d : RV Out) (t : Table) : Except Err (RV Out × Table) :=
  if n < 0 then do
    let r ← rollNat h hk st (n.natAbs + 1) n.natAbs d t
    let vs ← r.1.vals.mapM neg
    let q ← mkRV st vs (r.1.probs.map fun p : ℕ => (p : ℤ))
    return (q, r.2)
  else rollNat h hk st (n.natAbs + 1) n.natAbs d t

end PythonDice.Out
