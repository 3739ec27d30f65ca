import Verif.Model.World

/-!
# Model of `src/roller.py`: rolling dice
-/

namespace PythonDice

/-- `X + Y` for dice, as executed by `_roll_int_rv` (src/randvar.py:264-265). -/
def addM (a b : RV ℤ) : M (RV ℤ) := M.ofLimited fun st => RV.binop st .add a b

/-- src/roller.py:91-92: lookup in `_MEMOIZED_ROLLS`. -/
def memoGet (n : ℕ) (d : RV ℤ) : M (Option (RV ℤ)) :=
  fun w => (.ok (w.memo.lookup (n, d.vals, d.probs)), w)

/-- src/roller.py:98 `_MEMOIZED_ROLLS[(n, d.vals, d.probs)] = full`. -/
def memoSet (n : ℕ) (d : RV ℤ) (r : RV ℤ) : M Unit :=
  M.modify fun w => { w with memo := ((n, d.vals, d.probs), r) :: w.memo }

/-- src/roller.py:95-96: one more die when `n` is odd. -/
def addOdd (n : ℕ) (full d : RV ℤ) : M (RV ℤ) := if n % 2 = 1 then addM full d else pure full

/-- src/roller.py:84-99 `_roll_int_rv` for `n ≥ 0`.  The first argument bounds the recursion
(`n // 2` at each step, so `n` is enough); running out of it cannot happen. -/
def rollNat : ℕ → ℕ → RV ℤ → M (RV ℤ)
  | 0, _, _ => M.throw .user
  | fuel + 1, n, d =>
    if n = 0 then M.ofSettings fun st => RV.fromConst st 0
    else if n = 1 then pure d
    else do
      match ← memoGet n d with
      | some r => pure r
      | none =>
        let half ← rollNat fuel (n / 2) d
        let full ← addM half half
        let full ← addOdd n full d
        let full := full.setSource n d
        memoSet n d full
        pure full

/-- src/roller.py:84-99 `_roll_int_rv`. -/
def rollInt (n : ℤ) (d : RV ℤ) : M (RV ℤ) :=
  if n < 0 then do
    let r ← rollNat (n.natAbs + 1) n.natAbs d
    M.ofSettings fun st => RV.neg st r
  else rollNat (n.natAbs + 1) n.natAbs d

/-- Python's `range(a, b)` as a list. -/
def pyRange (a b : ℤ) : List ℤ := (List.range (b - a).toNat).map fun i : ℕ => a + i

/-- src/roller.py:58-66: the die meant by the second argument (`none`: a blank die, lines 41-46). -/
def asDie (d : Obj) : M (Option (RV ℤ)) :=
  match d with
  | .num m =>
    if 0 < m then some <$> M.ofSettings fun st => RV.fromSeq st (pyRange 1 (m + 1))
    else if m = 0 then some <$> M.ofSettings fun st => RV.fromConst st 0
    else some <$> M.ofSettings fun st => RV.fromSeq st (pyRange m 0)
  | .seq s => if s.length = 0 then pure none else some <$> M.ofSettings fun st => RV.fromSeq st s
  | .rv r => pure (some r)
  | .blank _ => pure none

/-- src/roller.py:72-77: rolling an `RV` number of dice. -/
def rollRV (n : RV ℤ) (d : RV ℤ) : M Obj := do
  let dies ← M.forList (fun v => rollInt v d) n.vals
  let r ← M.ofLimited fun st =>
    RV.fromRvs st (dies.map RV.Entry.rv) (some (n.probs.map fun p : ℕ => (p : ℤ)))
  match r with
  | some r => pure (.rv (r.setSource 1 d))
  | none => M.throw .notImplemented

/-- src/roller.py:11-54 `roll(n, d)` for two arguments.  `_str_LHS_RHS` is modelled in
`Model/StrAlias.lean`; the string form `'ndm'` in `Model/RollStr.lean`. -/
def roll (n d : Obj) : M Obj :=
  match d, n with
  | .blank _, _ => pure (.blank false)
  | _, .blank _ => pure (.blank true)
  | d, n => do
    match ← asDie d with
    | none => pure (.blank false)
    | some die =>
      match n with
      | .num k => .rv <$> rollInt k die
      | .seq s => .rv <$> rollInt s.sum die
      | .rv x => rollRV x die
      | .blank _ => pure (.blank true)

/-- src/roller.py:28-29 `roll(d)` with one argument. -/
def roll1 (d : Obj) : M Obj := roll (.num 1) d

end PythonDice
