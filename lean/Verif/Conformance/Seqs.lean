import Verif.Conformance.Dice

/-!
# The tests of the repository on sequences, casting and the library functions: `test/randvar_seq_test.py`, `test/casting_test.py`,
`test/funclib_test.py`

Left out: `/` of sequences (a float), the tests of run time, and enumerations too large for the kernel (`roll(5, 8)` cast to a sequence,
`roll(13, ...)`, `roll(4) @ ...`).
-/

namespace PythonDice.Conformance

/-! ## `test/randvar_seq_test.py` -/

/-- test/randvar_seq_test.py:12-15 `test_at_num` -/
example : value (at' (nums [2, 3]) (num 1234)) = .ok (.num 5) := by decide +kernel

/-- test/randvar_seq_test.py:18-26 `test_seq_at_seq` and 28-33 `test_num_at_seq` -/
example : ([([2], [1, 2, 3], 2), ([1, 2], [2, 3, 999, 999], 5), ([-1000, 2, 2, 1000], [2, 3, 4, 5], 6), ([1, 3], [2, 4, 6], 8),
    ([1, 2, 2], [2, 4, 6], 10)] : List (List ℤ × List ℤ × ℤ)).all (fun c => value (at' (nums c.1) (nums c.2.1)) == .ok (.num c.2.2)) = true ∧
    value (at' (num 1) (nums [2, 4, 6])) = .ok (.num 2) ∧ value (at' (num 3) (nums [2, 4, 6])) = .ok (.num 6) := by decide +kernel

/-- test/randvar_seq_test.py:36-51: the left side, its sum, the right side, its sum; nested tuples are nested iterables.  Without the pairs
of two numbers. -/
def arith : List (M Obj × ℤ × M Obj × ℤ) :=
  [(nums [4], 4, num 10, 10), (nums [2, 2], 4, num 10, 10), (num 4, 4, nums [10], 10), (num 4, 4, nums [2, 8], 10), (nums [4], 4, nums [10], 10),
   (nums [1, 3], 4, nums [10], 10), (nums [1, 3], 4, nums [5, 5], 10), (nums [1, 3], 4, nums [1, 4, 5], 10),
   (nums [1, 3], 4, seqOf [num 1, nums [2, 2], num 5], 10),
   (seqOf [num 1, nums [1, 2]], 4, seqOf [num 1, seqOf [num 2, nums [1, 1], num 1], num 4], 10),
   (num 4, 4, seqOf [num 1, seqOf [num 2, nums [1, 1], num 1], num 4], 10), (seqOf [num 1, nums [1, 2]], 4, num 10, 10)]

/-- A row of the tests of arithmetic: both ways round, what Python computes with the sums. -/
def agrees (o : BinOp) (f : ℤ → ℤ → ℤ) : Bool := arith.all fun c =>
  value (op o c.1 c.2.2.1) == .ok (.num (f c.2.1 c.2.2.2)) && value (op o c.2.2.1 c.1) == .ok (.num (f c.2.2.2 c.2.1))

/-- test/randvar_seq_test.py:53-60 `test_seq_arith_plus`, 62-69 `test_seq_arith_minus`, 71-78 `test_seq_arith_times`,
89-96 `test_seq_arith_floordiv`, 98-105 `test_seq_arith_pow`, 107-114 `test_seq_arith_mod` -/
example : agrees .add (· + ·) = true ∧ agrees .sub (· - ·) = true ∧ agrees .mul (· * ·) = true ∧ agrees .floordiv (Int.fdiv · ·) = true ∧
    agrees .pow (fun x y => x ^ y.toNat) = true ∧ agrees .mod (Int.fmod · ·) = true := by decide +kernel

/-- A table of comparisons of two sequences. -/
def compares (o : BinOp) (l : List (List ℤ × List ℤ × Bool)) : Bool :=
  l.all fun c => value (op o (nums c.1) (nums c.2.1)) == .ok (.num (ofBool c.2.2))

/-- test/randvar_seq_test.py:118-128 `test_seq_comp_eq1` -/
example : compares .eq [([1, 2], [1, 2], true), ([1], [1], true), ([1, 1], [1, 1], true), ([1, 1], [1, 2], false), ([1, 1], [1], false),
    ([1], [1, 1], false)] = true := by decide +kernel

/-- test/randvar_seq_test.py:130-140 `test_seq_comp_eq` -/
example : ([(1, 0), (2, 1), (6, 1), (7, 0), (9, 0), (10, 1)] : List (ℤ × ℤ)).all (fun c =>
    value (op .eq (seqOf [dice 2 3, num 10]) (num c.1)) == .ok (.num c.2)) = true := by decide +kernel

/-- test/randvar_seq_test.py:144-154 `test_seq_comp_ne` -/
example : compares .ne [([1, 2], [2, 1], true), ([1], [1, 1], true), ([1, 1], [1, 1, 1], true), ([1, 1], [1, 1], false),
    ([1, 1], [1, 2], true), ([1, 1], [1], true)] = true := by decide +kernel

/-- test/randvar_seq_test.py:156-166 `test_seq_comp_gt` -/
example : compares .gt [([1, 2], [1, 2], false), ([1, 2], [1, 2, 3], false), ([1, 2], [1, 1], false), ([1, 2], [1], false),
    ([1, 2], [0, 1], true), ([2, 2], [1], true)] = true := by decide +kernel

/-- test/randvar_seq_test.py:168-181 `test_seq_comp_ge` -/
example : compares .ge [([1, 2], [1, 2], true), ([1, 2], [1, 2, 3], false), ([1, 2], [1, 1], true), ([1, 2], [1], true),
    ([1, 2], [0, 1], true), ([2, 2], [1], true), ([1, 3], [1, 2], true), ([2, 2], [1], true), ([1], [1, 2], false)] = true := by
  decide +kernel

/-- test/randvar_seq_test.py:183-192 `test_seq_comp_lt` -/
example : compares .lt [([0], [1, 2], true), ([0, 1], [1, 2, 3], true), ([0, 0], [1], false), ([1, 2], [1, 2], false),
    ([1, 1], [1, 2, 3], false)] = true := by decide +kernel

/-- test/randvar_seq_test.py:194-211 `test_seq_comp_le` -/
example : compares .le [([0], [1, 2], true), ([1, 2], [1, 2], true), ([1, 2, 3], [1, 2], false), ([0, 1], [1, 2, 3], true),
    ([0, 0], [1], false), ([1, 1], [1, 2, 3], true), ([1, 1], [1, 2], true), ([1, 1], [1], false), ([1, 2], [0, 1], false),
    ([2, 2], [1], false), ([1, 3], [1, 2], false), ([2, 2], [1], false), ([1], [1, 2], true)] = true := by decide +kernel

/-- test/randvar_seq_test.py:213-214 `test_create_RV_from_seq` and 217-220 `test_seq_and_rv_op` -/
example : same (seqOf [num 2, dice 2 2]) (rv [2, 3, 4] [2, 1, 1]) = true ∧
    same (op .add (nums [1, 2, 5]) (dice 2 6)) (rv (pyRange 10 21) [1, 2, 3, 4, 5, 6, 5, 4, 3, 2, 1]) = true ∧
    same (op .gt (nums [1, 2, 5]) (dice 2 6)) (rv [0, 1] [5, 7]) = true ∧
    same (op .lt (dice 2 6) (nums [1, 2, 5])) (rv [0, 1] [5, 7]) = true := by decide +kernel

/-! ## `test/casting_test.py` -/

/-- A function of one parameter decorated with `@anydice_casting()`. -/
def cast1 (ty : Ty) (f : Obj → M Obj) (a : M Obj) : M Obj := do
  fnCall (fun l => match l with
    | [x] => some <$> f x
    | _ => M.throw .type) [(some ty, ← a)]

/-- The same of two parameters. -/
def cast2 (ty1 ty2 : Option Ty) (f : Obj → Obj → M Obj) (a b : M Obj) : M Obj := do
  fnCall (fun l => match l with
    | [x, y] => some <$> f x y
    | _ => M.throw .type) [(ty1, ← a), (ty2, ← b)]

/-- test/casting_test.py:14-17 `f1`: asserts that it is given an int -/
def f1 : M Obj → M Obj := cast1 .N fun o => match o with
  | .num n => pure (.num n)
  | _ => M.throw .assertion

/-- test/casting_test.py:18-21 `f2`: asserts that it is given a sequence -/
def f2 : M Obj → M Obj := cast1 .S fun o => match o with
  | .seq s => pure (.seq s)
  | _ => M.throw .assertion

/-- test/casting_test.py:22-25 `f3`: asserts that it is given a die -/
def f3 : M Obj → M Obj := cast1 .D fun o => match o with
  | .rv r => pure (.rv r)
  | _ => M.throw .assertion

/-- test/casting_test.py:33-35 `test_cast_die`, 37-39 `test_cast_die_rolled_as_sequence`, 41-43 `test_cast_die_rolled_as_die` -/
example : (value (f2 (die 4))).toBool = true ∧ (value (f2 (rolled (nums [1, 2]) (num 2)))).toBool = true ∧
    (value (f2 (rolled (die 2) (num 2)))).toBool = true := by decide +kernel

/-- test/casting_test.py:52-61 `test_cast_to_int`, 63-72 `test_cast_to_seq`, 74-80 `test_cast_to_rv` -/
example : value (f1 (num 7)) = .ok (.num 7) ∧ value (f1 (nums [1, 4])) = .ok (.num 5) ∧ same (f1 (dice 2 2)) (rv [2, 3, 4] [1, 2, 1]) = true ∧
    value (f2 (num 7)) = .ok (.seq [7]) ∧ value (f2 (nums [1, 4])) = .ok (.seq [1, 4]) ∧
    same (f2 (dice 2 2)) (rv [2, 3, 4] [1, 2, 1]) = true ∧
    same (f3 (num 7)) (rv [7] [1]) = true ∧ same (f3 (nums [1, 4])) (rv [1, 4] [1, 1]) = true ∧ same (f3 (dice 2 2)) (dice 2 2) = true := by
  decide +kernel

/-- test/casting_test.py:82-94 `test_cast_multiple_to_seq` -/
example : same (cast2 (some .S) (some .S) (fun vs s => do
      let n := myLen vs
      (List.range n).foldlM (fun count (i : ℕ) => do binop .add count (← binop .eq (← matmul (.num ((i : ℤ) + 1)) vs) s)) (.num 0))
    (dice 3 2) (dice 2 2)) (rv [0, 2, 3, 4, 6] [1, 3, 8, 3, 1]) = true := by decide +kernel

/-- test/casting_test.py:96-101 `test2_cast_to_seq` -/
example : same (cast1 .S (fun m => binop .add m (.num 1)) (dice 2 2)) (op .add (dice 2 2) (num 1)) = true := by decide +kernel

/-- test/casting_test.py:104-108 `test_cast_dice_to_seq_then_roll` -/
example : same (cast1 .S (roll (.num 3)) (dice 2 3)) (rv (pyRange 3 10) [2, 1, 2, 2, 2, 1, 2]) = true := by decide +kernel

/-- test/casting_test.py:110-116 `test_cast_dice_to_seq` -/
example : same (cast1 .S pure (nums [1, 2, 2, 3])) (rv [1, 2, 3] [1, 2, 1]) = true ∧
    same (cast1 .S pure (dice 2 2)) (rv [2, 3, 4] [1, 2, 1]) = true ∧
    same (cast1 .S pure (op .add (die 2) (die 2))) (rv [2, 3, 4] [1, 2, 1]) = true := by decide +kernel

/-- test/casting_test.py:119-133 `test_cast_dice_to_seq_more`, without `roll(5, 8)` -/
example :
    let b := cast1 .S fun s => do
      match ← binop .eq s (.num 2) with
      | .num 0 => pure (.num 999)
      | _ => pure (.num 1)
    content (b (op .add (op .add (op .add (op .add (die 8) (die 8)) (die 8)) (die 8)) (die 8))) = .ok ([999], [1]) ∧
    content (b (die 8)) = .ok ([1, 999], [1, 7]) ∧ content (b (dice 2 8)) = .ok ([1, 999], [15, 49]) ∧
    content (b (op .add (die 8) (die 8))) = .ok ([1, 999], [1, 63]) := by decide +kernel

/-- test/casting_test.py:135-140 `test_cast_then_matmul` -/
example : same (cast2 none (some .S) matmul (num 1) (dice 2 4)) (rv [1, 2, 3, 4] [1, 3, 5, 7]) = true ∧
    same (at' (num 1) (dice 2 4)) (rv [1, 2, 3, 4] [1, 3, 5, 7]) = true := by decide +kernel

/-- test/casting_test.py:151-156 `test_cast_return_None` -/
example : same (do fnCall (fun l => match l with
      | [.num n] => pure (if 2 < n then some (.num n) else none)
      | _ => M.throw .type) [(some .N, ← dice 2 2)]) (rv [3, 4] [2, 1]) = true := by decide +kernel

/-! ## `test/funclib_test.py` -/

/-- A function of the library on a result -/
def lib1 (f : Obj → M Obj) (a : M Obj) : M Obj := a >>= f

/-- A function of the library on two results -/
def lib2 (f : Obj → Obj → M Obj) (a b : M Obj) : M Obj := do f (← a) (← b)

/-- test/funclib_test.py:13-18 `test_absolute` -/
example : value (absolute (.num (-3))) = .ok (.num 3) ∧
    same (lib1 absolute (op .sub (die 6) (num 3))) (rv [2, 1, 0, 1, 2, 3] [1, 1, 1, 1, 1, 1]) = true ∧
    same (lib1 absOp (op .sub (die 6) (num 3))) (rv [2, 1, 0, 1, 2, 3] [1, 1, 1, 1, 1, 1]) = true ∧
    same (lib1 absOp (op .sub (die 6) (die 6))) (rv [0, 1, 2, 3, 4, 5] [3, 5, 4, 3, 2, 1]) = true ∧
    same (lib1 absolute (op .sub (die 6) (die 6))) (rv [0, 1, 2, 3, 4, 5] [3, 5, 4, 3, 2, 1]) = true := by decide +kernel

/-- test/funclib_test.py:21-24 `test_contains` -/
example : value (PythonDice.contains (.seq (pyRange 1 7)) (.num 3)) = .ok (.num 1) ∧
    same (lib2 PythonDice.contains (dice 3 6) (num 6)) (rv [0, 1] [125, 91]) = true ∧
    same (lib2 PythonDice.contains (nums [1, 2, 3]) (die 6)) (rv [0, 1] [1, 1]) = true := by decide +kernel

/-- test/funclib_test.py:27-31 `test_count_in` -/
example : same (countIn (.seq [1, 2]) (.seq (pyRange 1 7))) (rv [2] [1]) = true ∧
    same (lib2 countIn (num 3) (dice 3 6)) (rv [0, 1, 2, 3] [125, 75, 15, 1]) = true ∧
    same (lib2 countIn (nums [2, 4, 6]) (dice 2 6)) (rv [0, 1, 2] [1, 2, 1]) = true ∧
    same (lib2 countIn (nums [4, 5, 6, 6]) (die 6)) (rv [0, 1, 2] [3, 2, 1]) = true := by decide +kernel

/-- test/funclib_test.py:34-37 `test_reverse_vanilla`, 40-47 `test_reverse` -/
example : value (at' (num 1) (nums (pyRange 1 7))) = .ok (.num 1) ∧
    value (at' (num 1) (reverseSlow (.seq (pyRange 1 7)))) = .ok (.num 6) ∧ same (lib1 reverseSlow (dice 2 6)) (dice 2 6) = true ∧
    value (at' (num 1) (reverse (.seq (pyRange 1 7)))) = .ok (.num 6) ∧ same (lib1 reverse (dice 2 6)) (dice 2 6) = true ∧
    same (lib1 reverse (die 6)) (die 6) = true ∧ same (at' (num 1) (die 6)) (die 6) = true ∧
    same (at' (num 1) (lib1 reverse (die 6))) (die 6) = true := by decide +kernel

/-- test/funclib_test.py:49-53 `test2_reverse`, 55-60 `test3_reverse` -/
example : value (cast1 .D (fun d => op .add (lib1 reverse (seqOf [pure d])) (num 1)) (die 6)) = .ok (.num 22) ∧
    value (cast1 .D (fun d => at' (num 1) (lib1 reverse (seqOf [pure d]))) (die 6)) = .ok (.num 6) ∧
    value (cast1 .D (fun d => at' (num 1) (lib1 reverse (seqOf [pure d]))) (dice 4 6)) = .ok (.num 24) := by decide +kernel

/-- test/funclib_test.py:63-67 `test_maximum_of` -/
example : value (lib1 maximumOf (die 6)) = .ok (.num 6) ∧ value (lib1 maximumOf (dice 3 6)) = .ok (.num 18) ∧
    value (lib1 maximumOf (dice 4 6)) = .ok (.num 24) ∧ value (lib1 maximumOf (op .add (dice 4 6) (num 1))) = .ok (.num 25) := by
  decide +kernel

/-- `RV.from_rvs(rvs, weights)` of results -/
def mixed (l : List (M Obj × ℤ)) : M Obj := do
  let os ← M.forList (fun x => x.1) l
  return objOfRV (← M.ofLimited fun st => RV.fromRvs st (os.map fun o => resultEntry (some o)) (some (l.map fun x => x.2)))

/-- test/funclib_test.py:70-79 `test_explode` -/
example :
    let from1 (a b : ℤ) := rolled (num 1) (nums (pyRange a b))
    let thrice := mixed [(from1 1 6, 30), (op .add (num 6) (from1 1 6), 5), (op .add (num 12) (from1 1 7), 1)]
    let most := rv [2, 3, 4, 5, 6, 7, 8, 9, 10, 11] [1, 2, 3, 4, 5, 6, 5, 4, 3, 2]
    same (do explode (← die 6) (some 1)) (mixed [(from1 1 6, 5), (from1 7 13, 1)]) = true ∧
    same (lib1 explode (die 6)) thrice = true ∧
    same (lib1 explode (dice 2 6))
      (mixed [(most, 6 ^ 4 - 6 ^ 2), (op .add (num 12) most, 6 ^ 2 - 1), (op .add (num 24) (dice 2 6), 1)]) = true ∧
    same (rolled (num 2) (lib1 explode (die 6))) (op .add (lib1 explode (die 6)) (lib1 explode (die 6))) = true ∧
    same (rolled (num 2) (lib1 explode (die 6))) (op .add thrice thrice) = true := by decide +kernel

/-- test/funclib_test.py:83-85 `test_highest_N_of_D`, 89-91 `test_lowest_N_of_D`, 95-100 `test_middle_N_of_D`, 104-107
`test_highest_of_N_and_N`, 111-114 `test_lowest_of_N_and_N`: these calls succeed (those with a fixed number of dice) -/
example : ([lib2 highestN (num 3) (dice 4 6), lib2 lowestN (num 3) (dice 4 6), lib2 middleN (num 1) (dice 3 6), lib2 middleN (num 2) (dice 3 6),
    lib2 middleN (num 1) (dice 4 6), lib2 middleN (num 2) (dice 4 4), lib2 middleN (num 3) (dice 4 6), lib2 highestOf (num 2) (num 3),
    lib2 highestOf (die 6) (num 4), lib2 highestOf (die 4) (die 6), lib2 lowestOf (num 2) (num 3), lib2 lowestOf (die 6) (num 4),
    lib2 lowestOf (die 4) (die 6)] : List (M Obj)).all (fun m => (value m).toBool) = true := by decide +kernel

/-- test/funclib_test.py:117-118 `test_sort_vanilla`, 120-121 `test_sort` -/
example : value (op .eq (sortSlow (.seq [1, 2, 4, 6, 5, 3])) (nums [6, 5, 4, 3, 2, 1])) = .ok (.num 1) ∧
    value (op .eq (sort (.seq [1, 2, 4, 6, 5, 3])) (nums [6, 5, 4, 3, 2, 1])) = .ok (.num 1) := by decide +kernel

/-- test/funclib_test.py:123-129 `test_double_N_if_above_N` -/
example : same (cast2 (some .N) (some .N) (fun a b => do
      match ← binop .gt a b with
      | .num 0 => pure a
      | _ => binop .add a a) (die 6) (num 3)) (rv [1, 2, 3, 8, 10, 12] [1, 1, 1, 1, 1, 1]) = true := by decide +kernel

/-- test/funclib_test.py:131-135 `test_S_count_fives_and_above_and_subtract_ones` -/
example : same (cast1 .S (fun s => do binop .sub (← binop .ge s (.num 5)) (← binop .eq s (.num 1))) (dice 3 6))
    (rv (pyRange (-3) 4) [1, 9, 33, 63, 66, 36, 8]) = true := by decide +kernel

end PythonDice.Conformance
