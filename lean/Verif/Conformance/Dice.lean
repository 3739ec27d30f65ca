import Verif.Model.Funclib
import Verif.Model.Stats
import Verif.Model.Rounding
import Mathlib.Tactic.NormNum

/-!
# The tests of the repository on dice: `test/randvar_test.py`

The expected values are those written in the tests.  Each table below is a test with its parameters; the kernel evaluates the model on them.
Left out: outcomes that are floats (`1.1`), weights that are floats (line 34), `std` (a square root; its square is checked) and the tests
that print.
-/

namespace PythonDice.Conformance

/-- What a call gives in a fresh library. -/
def value {β : Type} (m : M β) : Except Err β := (m {}).1

/-- Outcomes and weights of `o`, where numbers and sequences are taken as dice (src/randvar.py:395-398). -/
def content (m : M Obj) : Except Err (List ℤ × List ℕ) := value do
  let r ← getRv (← m)
  return (r.vals, r.probs)

/-- `RV.dices_are_equal` of two results. -/
def same (a b : M Obj) : Bool := match content a, content b with
  | .ok x, .ok y => x == y
  | _, _ => false

/-- `RV(vals, probs)` -/
def rv (vals : List ℤ) (probs : List ℤ) : M Obj := .rv <$> M.ofSettings fun st => RV.mk' st vals probs

/-- `roll(n)` of a number -/
def die (n : ℤ) : M Obj := roll1 (.num n)

/-- `roll(n, m)` of numbers -/
def dice (n m : ℤ) : M Obj := roll (.num n) (.num m)

/-- `roll(a, b)` of results -/
def rolled (a b : M Obj) : M Obj := do roll (← a) (← b)

/-- `Seq(...)` of results -/
def seqOf (l : List (M Obj)) : M Obj := do return .seq (getSeq ((← M.forList id l).map Obj.toSrc))

/-- `Seq` of numbers -/
def nums (l : List ℤ) : M Obj := pure (.seq l)

/-- A number -/
def num (n : ℤ) : M Obj := pure (.num n)

/-- `a op b` of results -/
def op (o : BinOp) (a b : M Obj) : M Obj := do binop o (← a) (← b)

/-- `a @ b` of results -/
def at' (a b : M Obj) : M Obj := do matmul (← a) (← b)

/-- test/randvar_test.py:12-22 `test_RV_init` -/
example : ([([], []), ([0], [1]), ([1], [1]), ([2], [1]), ([1, 2], [1, 1]), ([1, 2, 3], [1, 1, 1]), ([1, 2, 3], [2, 2, 2])] :
    List (List ℤ × List ℤ)).all (fun c => (RV.mk' {} c.1 c.2).toBool) = true := by decide +kernel

/-- test/randvar_test.py:24-35 `test_RV_init_fail` -/
example : ([([1], []), ([], [1]), ([1, 2], [1]), ([1], [1, 1]), ([1, 1, 1], [1, 1]), ([1, 1], [1, -1])] :
    List (List ℤ × List ℤ)).all (fun c => !(RV.mk' {} c.1 c.2).toBool) = true := by decide +kernel

/-- test/randvar_test.py:37-49 `test_RV_init_empty` -/
example : RV.mk' (α := ℤ) {} [] [] = .ok ⟨[0], [1], none⟩ ∧ RV.fromSeq (α := ℤ) {} [] = .ok ⟨[0], [1], none⟩ ∧
    RV.fromRvs (α := ℤ) {} [] none = .ok (none, false) ∧
    RV.fromRvs {} [.rv ⟨[(0 : ℤ)], [1], none⟩] none = .ok (some ⟨[0], [1], none⟩, false) ∧
    RV.fromRvs (α := ℤ) {} [.blank] none = .ok (none, false) := by decide +kernel

/-- test/randvar_test.py:51-57 `test_probability_zero_RV` -/
example : RV.mk' { rvIgnoreZeroProbs := true } [(1 : ℤ), 2, 777] [1, 1, 0] = .ok ⟨[1, 2], [1, 1], none⟩ ∧
    RV.mk' {} [(1 : ℤ), 2, 777] [1, 1, 0] = .ok ⟨[1, 2, 777], [1, 1, 0], none⟩ := by decide +kernel

/-- test/randvar_test.py:59-78 `test_RV_equality` -/
example : ([([1], [1], [1], [1]), ([1, 2, 3], [1, 1, 1], [1, 2, 3], [1, 1, 1]), ([2, 1, 3], [1, 1, 1], [1, 2, 3], [1, 1, 1]),
    ([1, 2, 3], [2, 2, 2], [1, 2, 3], [1, 1, 1]), ([1, 2, 3], [4, 4, 2], [1, 2, 3], [2, 2, 1]), ([], [], [0], [1]),
    ([1, 1, 3], [1, 5, 1], [1, 3], [6, 1]), ([1, 1, 3, 3], [2, 6, 2, 4], [1, 3], [4, 3]), ([3, 3, 1, 1], [2, 6, 2, 4], [1, 3], [3, 4]),
    ([3, 1, 3, 1], [2, 6, 2, 4], [1, 3], [5, 2]), ([3, 1, 3, 1, 5], [2, 6, 2, 4, 0], [1, 3, 5], [5, 2, 0]),
    ([1, 1, 1, 1], [2, 6, 2, 4], [1], [1]), ([1, 2], [1, 0], [1, 2], [1, 0])] : List (List ℤ × List ℤ × List ℤ × List ℕ)).all (fun c =>
      RV.mk' {} c.1 c.2.1 == .ok ⟨c.2.2.1, c.2.2.2, none⟩) = true := by decide +kernel

/-- test/randvar_test.py:80-88 `test_RV_equality_SET_ZERO_PROB` -/
example : RV.mk' { rvIgnoreZeroProbs := true } [(3 : ℤ), 1, 3, 1, 5] [2, 6, 2, 4, 0] = .ok ⟨[1, 3], [5, 2], none⟩ ∧
    RV.mk' {} [(3 : ℤ), 1, 3, 1, 5] [2, 6, 2, 4, 0] = .ok ⟨[1, 3, 5], [5, 2, 0], none⟩ := by decide +kernel

/-- test/randvar_test.py:90-95 `test_RV_from_const` -/
example : ([1, 2, 3, 4, 5, 6, 8, 20, 100, 200, 201] : List ℤ).all (fun n => RV.fromConst {} n == .ok ⟨[n], [1], none⟩) = true := by
  decide +kernel

/-- test/randvar_test.py:100-117 `test_RV_sum_probs`, 119-136 `test_RV_mean` and 145-162 `test_RV_std` (the square): outcomes, weights, sum of
the weights, mean, variance.  The test compares floats: with the double nearest to the mean, and the deviation up to `1e-10`. -/
def table : List (List ℤ × List ℤ × ℕ × ℚ × ℚ) :=
  [([1], [1], 1, 1, 0), ([1, 2, 3], [1, 1, 1], 3, 2, 2 / 3), ([2, 1, 3], [1, 1, 1], 3, 2, 2 / 3), ([1, 2, 3], [2, 2, 2], 3, 2, 2 / 3),
   ([1, 2, 3], [4, 4, 2], 5, 9 / 5, 56 / 100), ([], [], 1, 0, 0), ([1, 1, 3], [1, 5, 1], 7, 9 / 7, 24 / 49),
   ([1, 1, 3, 3], [2, 6, 2, 4], 7, 13 / 7, 48 / 49), ([3, 3, 1, 1], [2, 6, 2, 4], 7, 15 / 7, 48 / 49),
   ([3, 1, 3, 1], [2, 6, 2, 4], 7, 11 / 7, 40 / 49), ([3, 1, 3, 1, 5], [2, 6, 2, 4, 0], 7, 11 / 7, 40 / 49),
   ([1, 1, 1, 1], [2, 6, 2, 4], 1, 1, 0)]

example : table.all (fun c => match RV.mk' {} c.1 c.2.1 with
    | .ok r => r.sumProbs == c.2.2.1 && r.mean == .ok (some (dbl c.2.2.2.1)) && (match r.stdSquare {} with
      | .ok (some v) => decide (|v - c.2.2.2.2| < 1 / 10 ^ 10)
      | _ => false)
    | _ => false) = true := by decide +kernel

/-- test/randvar_test.py:138-143 `test_RV_mean_fail`: mean 6.5, deviation 2.22 -/
example : (match value (op .add (die 6) (die 5)) with
    | .ok (.rv r) => r.mean == .ok (some (13 / 2)) && (match r.stdSquare {} with
      | .ok (some v) => decide ((2215 / 1000) ^ 2 < v ∧ v < (2225 / 1000) ^ 2)
      | _ => false)
    | _ => false) = true := by decide +kernel

/-- test/randvar_test.py:164-182 `test_RV_CDF` -/
example : ([([1], [1], [1]), ([1, 2, 3], [1, 1, 1], [1, 2, 3]), ([2, 1, 3], [1, 1, 1], [1, 2, 3]), ([1, 2, 3], [2, 2, 2], [1, 2, 3]),
    ([1, 2, 3], [4, 4, 2], [2, 4, 5]), ([], [], [1]), ([1, 1, 3], [1, 5, 1], [6, 7]), ([1, 1, 3, 3], [2, 6, 2, 4], [4, 7]),
    ([3, 3, 1, 1], [2, 6, 2, 4], [3, 7]), ([3, 1, 3, 1], [2, 6, 2, 4], [5, 7]), ([3, 1, 3, 1, 5], [2, 6, 2, 4, 0], [5, 7, 7]),
    ([1, 1, 1, 1], [2, 6, 2, 4], [1])] : List (List ℤ × List ℤ × List ℕ)).all (fun c => match RV.mk' {} c.1 c.2.1 with
      | .ok r => (match r.getCdf {} with
        | .ok s => s.vals == r.vals && s.probs == c.2.2
        | _ => false)
      | _ => false) = true := by decide +kernel

/-- test/randvar_test.py:184-207 `test_RV_pdf`: the cut, the weights of the outcomes 1, 2, 3, and the expected list.  The decimals stand for
the nearest doubles. -/
example : ([(0, [1, 9, 90], [(1, 0.01), (2, 0.09), (3, 0.9)]), (0.05, [1, 9, 90], [(2, 0.09), (3, 0.9)]),
    (0.05, [9, 1, 90], [(1, 0.09), (3, 0.9)]), (0.05, [90, 1, 9], [(1, 0.9), (3, 0.09)]), (0.095, [90, 1, 9], [(1, 0.9), (3, 0.09)]),
    (0.099, [90, 1, 9], [(1, 0.9), (3, 0.09)]), (0.1, [90, 1, 9], [(1, 0.9)]), (0.15, [1, 9, 90], [(3, 0.9)]), (0.999, [1, 9, 90], [(3, 0.9)]),
    (0, [1, 90, 9], [(1, 0.01), (2, 0.9), (3, 0.09)]), (0.005, [1, 90, 9], [(1, 0.01), (2, 0.9), (3, 0.09)]),
    (0.01, [1, 90, 9], [(1, 0.01), (2, 0.9), (3, 0.09)]), (0.0101, [1, 90, 9], [(2, 0.9), (3, 0.09)]),
    (0.011, [1, 90, 9], [(2, 0.9), (3, 0.09)]), (0.095, [1, 90, 9], [(2, 0.9), (3, 0.09)]), (0.1, [1, 90, 9], [(2, 0.9)]),
    (0.5, [1, 90, 9], [(2, 0.9)]), (0.999, [1, 90, 9], [(2, 0.9)])] : List (ℚ × List ℤ × List (ℤ × ℚ))).all (fun c =>
      match RV.mk' {} [1, 2, 3] c.2.1 with
      | .ok r => r.getValsProbs (dbl c.1) == .ok (c.2.2.map fun x => (x.1, dbl x.2))
      | _ => false) = true := by decide +kernel

/-- test/randvar_test.py:210-219 `test_roll1`, 221-230 `test_roll1_negative` and 232-236 `test_roll1_zero`, without the largest dice -/
example : ([1, 2, 3, 4, 5, 6, 8, 20] : List ℕ).all (fun n =>
    content (die n) == .ok ((List.range n).map fun i : ℕ => (i : ℤ) + 1, List.replicate n 1) &&
    content (die (-n)) == .ok ((List.range n).map fun i : ℕ => (i : ℤ) - n, List.replicate n 1)) = true ∧
    content (die 0) = .ok ([0], [1]) := by decide +kernel

/-- test/randvar_test.py:238-246 `test_roll_int_int` -/
example : same (dice 2 2) (op .add (die 2) (die 2)) = true ∧ same (dice 1 2) (die 2) = true ∧ same (dice 1 3) (die 3) = true ∧
    same (dice 3 4) (op .add (op .add (die 4) (die 4)) (die 4)) = true ∧
    same (dice 2 4) (rv [2, 3, 4, 5, 6, 7, 8] [1, 2, 3, 4, 3, 2, 1]) = true := by decide +kernel

/-- test/randvar_test.py:249-271 `test_roll_seq_rv` -/
example : ([
    (rolled (num 1) (seqOf [num 2, seqOf [num 3, num 2, die 3]]), rv [1, 2, 3] [1, 3, 2]),
    (rolled (num 2) (dice 2 2), rv [4, 5, 6, 7, 8] [1, 4, 6, 4, 1]),
    (rolled (num 2) (seqOf [dice 2 2]), rv [4, 5, 6, 7, 8] [1, 2, 3, 2, 1]),
    (seqOf [dice 2 2, dice 2 4], rv [2, 3, 4, 5, 6, 7, 8] [2, 2, 2, 1, 1, 1, 1]),
    (dice 2 3, rv [2, 3, 4, 5, 6] [1, 2, 3, 2, 1]),
    (rolled (num 2) (nums [1, 5, 5]), rv [2, 6, 10] [1, 4, 4]),
    (rolled (num 2) (dice 3 4), rv (pyRange 6 25) [1, 6, 21, 56, 120, 216, 336, 456, 546, 580, 546, 456, 336, 216, 120, 56, 21, 6, 1]),
    (rolled (nums [1, 2]) (num 3), op .add (dice 1 3) (dice 2 3)),
    (rolled (nums [1, 2]) (nums [2, 3]), rv [6, 7, 8, 9] [1, 3, 3, 1]),
    (rolled (nums [1, 2]) (dice 2 2), rv [6, 7, 8, 9, 10, 11, 12] [1, 6, 15, 20, 15, 6, 1]),
    (rolled (dice 2 2) (num 2), rv [2, 3, 4, 5, 6, 7, 8] [4, 12, 17, 16, 10, 4, 1]),
    (rolled (dice 2 2) (nums [5, 7]), rv [10, 12, 14, 15, 17, 19, 20, 21, 22, 24, 26, 28] [4, 8, 4, 4, 12, 12, 1, 4, 4, 6, 4, 1]),
    (rolled (die 2) (die 2), rv [1, 2, 3, 4] [2, 3, 2, 1]),
    (rolled (dice 2 2) (die 2), rv [2, 3, 4, 5, 6, 7, 8] [4, 12, 17, 16, 10, 4, 1]),
    (rolled (dice 2 2) (dice 2 2), rv (pyRange 4 17) [16, 64, 104, 112, 137, 168, 148, 104, 78, 56, 28, 8, 1])] :
      List (M Obj × M Obj)).all (fun c => same c.1 c.2) = true := by decide +kernel

/-- test/randvar_test.py:274-284 `test_roll2_negative` -/
example : ([(dice 2 (-3), rv [-6, -5, -4, -3, -2] [1, 2, 3, 2, 1]), (dice (-2) 6, dice 2 6 >>= negOp), (dice 2 (-6), dice 2 6 >>= negOp),
    (dice (-2) (-6), dice 2 6), (dice 0 6, num 0), (dice 2 0, num 0), (dice 0 0, num 0)] : List (M Obj × M Obj)).all (fun c =>
      same c.1 c.2) = true := by decide +kernel

/-- test/randvar_test.py:287-311 `test_dice_len` and 313-319 `test_roll_1_not_change_len` -/
example : ([(die 6, 1), (dice 2 6, 2), (dice 3 6, 3), (dice 4 6, 4), (rolled (num 1) (dice 4 6), 4),
    (rolled (num 1) (rolled (num 2) (dice 4 6)), 2), (rolled (dice 2 4) (num 6), 1), (rolled (num 1) (nums [2, 3, 3]), 1),
    (rolled (nums [2]) (nums [2, 3, 3]), 2), (rolled (nums [2, 3]) (nums [2, 3, 3]), 5), (dice 2 2, 2), (op .add (die 2) (die 2), 1),
    (rolled (num 1) (dice 2 2), 2), (rolled (num 1) (op .add (die 2) (die 2)), 1), (rolled (num 2) (dice 3 4), 2),
    (rolled (num 1) (rolled (num 2) (dice 3 4)), 2)] : List (M Obj × ℕ)).all (fun c =>
      value (myLen <$> c.1) == .ok c.2) = true := by decide +kernel

/-- test/randvar_test.py:330-349 `test_matmul` -/
example : ([(num 1, dice 2 4, rv [1, 2, 3, 4] [1, 3, 5, 7]), (num 1, dice 2 2, rv [1, 2] [1, 3]),
    (num 1, op .add (die 2) (die 2), rv [2, 3, 4] [1, 2, 1]), (num 2, op .add (die 2) (die 2), num 0),
    (nums [1, 2], dice 2 4, rv [2, 3, 4, 5, 6, 7, 8] [1, 2, 3, 4, 3, 2, 1]),
    (nums [1, 2], dice 3 6, rv [2, 3, 4, 5, 6, 7, 8, 9, 10, 11, 12] [1, 3, 7, 12, 19, 27, 34, 36, 34, 27, 16]),
    (num 3, dice 2 4, num 0), (num 1, dice 3 6, rv [1, 2, 3, 4, 5, 6] [1, 7, 19, 37, 61, 91]),
    (num 3, dice 3 6, rv [1, 2, 3, 4, 5, 6] [91, 61, 37, 19, 7, 1]), (num 0, die 6, num 0), (num 1, die 6, die 6), (num 2, die 6, num 0),
    (num (-1), dice 2 6, num 0), (num 0, dice 2 6, num 0), (num 3, dice 2 6, num 0), (num 13, dice 2 6, num 0)] :
      List (M Obj × M Obj × M Obj)).all (fun c => same (at' c.1 c.2.1) c.2.2) = true := by decide +kernel

/-- The weights as hundredths of percents, rounded to the nearest. -/
def hundredths (m : M Obj) : List (ℤ × ℤ) := match content m with
  | .ok (vs, ps) => (vs.zip ps).map fun x => (x.1, roundHalfEven ((x.2 : ℚ) * 10000 / (ps.sum : ℕ)))
  | _ => []

/-- test/randvar_test.py:351-372 `test_matmul_skewed` -/
example :
    let skewed := rv [1, 2, 3, 10, 11, 12, 13, 14, 15, 16] [3, 2, 1, 1, 1, 1, 1, 1, 1, 1]
    hundredths (at' (num 1) (rolled (num 2) skewed)) =
      [(1, 533), (2, 947), (3, 651), (10, 769), (11, 888), (12, 1006), (13, 1124), (14, 1243), (15, 1361), (16, 1479)] ∧
    hundredths (at' (num 1) (rolled (num 3) skewed)) =
      [(1, 123), (2, 446), (3, 414), (10, 578), (11, 769), (12, 988), (13, 1234), (14, 1507), (15, 1807), (16, 2135)] ∧
    hundredths (at' (num 2) (rolled (num 4) skewed)) =
      [(1, 406), (2, 1213), (3, 952), (10, 1152), (11, 1297), (12, 1362), (13, 1322), (14, 1152), (15, 826), (16, 320)] ∧
    hundredths (at' (nums [1, 2]) (rolled (num 2) (nums [1, 1, 1, 2, 2, 3]))) = [(2, 2500), (3, 3333), (4, 2778), (5, 1111), (6, 278)] ∧
    hundredths (at' (nums [1, 2]) (rolled (num 2) (nums [1, 2, 2]))) = [(2, 1111), (3, 4444), (4, 4444)] := by decide +kernel

/-- test/randvar_test.py:375-380 `test_FAIL_die_matmul` -/
example : ([num 1, nums [1, 2], dice 2 2] : List (M Obj)).all (fun b => !(value (at' (dice 2 4) b)).toBool) = true := by decide +kernel

/-- test/randvar_test.py:383-396 `test_truncate`: division of dice with and without RV_TRUNC -/
example : (do
    let d : RV ℤ := ⟨[1, 2, 3, 4, 5, 6], [1, 1, 1, 1, 1, 1], none⟩
    let (a, _) ← RV.truediv {} d d
    let b ← RV.mk' {} a.vals (a.probs.map fun n : ℕ => (n : ℤ)) (some false)
    let c ← RV.mk' {} a.vals (a.probs.map fun n : ℕ => (n : ℤ)) (some true)
    let (e, _) ← RV.truediv { rvTrunc := true } d d
    return (a == b, c == e, a == c, a == e, b == c, b == e) : Except Err _) = .ok (true, true, false, false, false, false) := by
  decide +kernel

end PythonDice.Conformance
