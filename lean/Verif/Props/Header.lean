import Verif.Proofs.Header
import Mathlib.Data.Nat.Log
import Mathlib.Analysis.Real.Sqrt

/-!
# C71: the header line shows the mean and the deviation
-/

namespace PythonDice
open Spec

/-! ## The square root -/

theorem isqrtFrom_spec (n : ℕ) : ∀ k acc, acc ^ 2 ≤ n → n < (acc + 2 ^ k) ^ 2 →
    (isqrtFrom n k acc) ^ 2 ≤ n ∧ n < (isqrtFrom n k acc + 1) ^ 2
  | 0, acc, h1, h2 => ⟨h1, h2⟩
  | k + 1, acc, h1, h2 => by
    unfold isqrtFrom
    split
    · refine isqrtFrom_spec n k _ ‹_› ?_
      rw [add_assoc, ← two_mul, ← pow_succ']
      exact h2
    · exact isqrtFrom_spec n k _ h1 (by omega)

theorem isqrt_spec (n : ℕ) : (isqrt n) ^ 2 ≤ n ∧ n < (isqrt n + 1) ^ 2 := by
  refine isqrtFrom_spec n _ 0 (by simp) ?_
  rw [zero_add, ← pow_mul]
  refine lt_of_lt_of_le (Nat.lt_log2_self (n := n)) (Nat.pow_le_pow_right (by norm_num) (by omega))

theorem whole_of_scaled {m e : ℤ} {K : ℕ} (he : -(K : ℤ) ≤ e) (h0 : 0 ≤ (m : ℚ) * 2 ^ e) :
    ((((m : ℚ) * 2 ^ e * 2 ^ K).floor.toNat : ℕ) : ℚ) = (m : ℚ) * 2 ^ e * 2 ^ K := by
  have h1 : (m : ℚ) * 2 ^ e * 2 ^ K = ((m * 2 ^ (e + K).toNat : ℤ) : ℚ) := by
    rw [← zpow_natCast (2 : ℚ) K, mul_assoc, ← zpow_add₀ (by norm_num)]
    have e1 : e + K = ((e + K).toNat : ℤ) := by omega
    conv_lhs => rw [e1, zpow_natCast]
    push_cast
    rfl
  have h2 : (0 : ℚ) ≤ ((m * 2 ^ (e + K).toNat : ℤ) : ℚ) := by
    rw [← h1]; positivity
  rw [h1] at *
  have h3 : 0 ≤ m * 2 ^ (e + K).toNat := by exact_mod_cast h2
  rw [Rat.floor_intCast]
  exact_mod_cast Int.toNat_of_nonneg h3

theorem wide_whole {x : ℚ} (hx : IsWide x) (h0 : 0 ≤ x) : (((x * 2 ^ 1074).floor.toNat : ℕ) : ℚ) = x * 2 ^ 1074 := by
  obtain ⟨m, e, _, he, rfl⟩ := hx
  exact whole_of_scaled (K := 1074) he h0

theorem real_err (q : ℚ) (h : 0 ≤ q) : |((dbl q : ℚ) : ℝ) - q| ≤ (q : ℝ) / 2 ^ 53 + 1 / 2 ^ 1075 := by
  have := dbl_error q
  rw [abs_of_nonneg h] at this
  have h := (Rat.cast_le (K := ℝ)).2 this
  rwa [Rat.cast_abs, Rat.cast_sub, Rat.cast_add, Rat.cast_div, Rat.cast_div, Rat.cast_one, Rat.cast_pow, Rat.cast_pow, Rat.cast_ofNat] at h

/-- `math.sqrt` of a double is within rounding error of the real root. -/
theorem sqrtDouble_err {x : ℚ} (hx : IsWide x) (h0 : 0 ≤ x) :
    |((sqrtDouble x : ℚ) : ℝ) - √(x : ℝ)| ≤ √(x : ℝ) / 2 ^ 52 + 1 / 2 ^ 1075 := by
  have hw := wide_whole hx h0
  unfold sqrtDouble
  generalize (x * 2 ^ 1074).floor.toNat = M at hw
  obtain ⟨h1, h2⟩ := isqrt_spec (M * 4 ^ 60)
  simp only
  generalize isqrt (M * 4 ^ 60) = s at *
  -- the root in units of `2 ^ -597`
  have hroot : √(x : ℝ) * 2 ^ 597 = √((M * 4 ^ 60 : ℕ) : ℝ) := by
    have e1 : ((M * 4 ^ 60 : ℕ) : ℝ) = (x : ℝ) * (2 ^ 597) ^ 2 := by
      have : ((M : ℕ) : ℝ) = (x : ℝ) * 2 ^ 1074 := by
        have h := congrArg (fun q : ℚ => (q : ℝ)) hw
        simp only [Rat.cast_natCast, Rat.cast_mul, Rat.cast_pow, Rat.cast_ofNat] at h
        exact h
      rw [Nat.cast_mul, Nat.cast_pow, Nat.cast_ofNat, this, ← pow_mul, mul_assoc, show (4 : ℝ) = 2 ^ 2 by norm_num, ← pow_mul, ← pow_add]
    rw [e1, Real.sqrt_mul (by exact_mod_cast h0), Real.sqrt_sq (by positivity)]
  have hs1 : (s : ℝ) ≤ √((M * 4 ^ 60 : ℕ) : ℝ) := by
    rw [Real.le_sqrt (by positivity) (by positivity)]
    exact_mod_cast h1
  have hs2 : √((M * 4 ^ 60 : ℕ) : ℝ) < s + 1 := by
    rw [Real.sqrt_lt' (by positivity)]
    exact_mod_cast h2
  have hbig : M = 0 ∨ (2 : ℝ) ^ 60 ≤ √((M * 4 ^ 60 : ℕ) : ℝ) := by
    rcases Nat.eq_zero_or_pos M with h | h
    · exact .inl h
    · right
      rw [Real.le_sqrt (by positivity) (by positivity)]
      have h4 : 4 ^ 60 ≤ M * 4 ^ 60 := Nat.le_mul_of_pos_left _ h
      have e : ((2 : ℝ) ^ 60) ^ 2 = ((4 ^ 60 : ℕ) : ℝ) := by norm_num
      rw [e]
      exact_mod_cast h4
  have hif : ∃ q : ℚ, (if s * s = M * 4 ^ 60 then (s : ℚ) else s + 1 / 2) = q ∧ 0 ≤ q ∧
      |(q : ℝ) - √((M * 4 ^ 60 : ℕ) : ℝ)| ≤ √((M * 4 ^ 60 : ℕ) : ℝ) / 2 ^ 60 := by
    split
    · rename_i he
      refine ⟨_, rfl, by positivity, ?_⟩
      have : √((M * 4 ^ 60 : ℕ) : ℝ) = s := by
        rw [← he, Nat.cast_mul]; exact Real.sqrt_mul_self (by positivity)
      rw [this]
      simp only [Rat.cast_natCast, sub_self, abs_zero]
      positivity
    · rename_i he
      refine ⟨_, rfl, by positivity, ?_⟩
      rcases hbig with h | h
      · subst h
        have : s = 0 := by
          rw [zero_mul, Nat.le_zero] at h1
          exact pow_eq_zero_iff (by norm_num) |>.1 h1
        subst this
        exact absurd (by simp) he
      · generalize √((M * 4 ^ 60 : ℕ) : ℝ) = y at *
        have h3 : 1 ≤ y / 2 ^ 60 := by rw [le_div_iff₀ (by positivity)]; linarith
        push_cast
        rw [abs_le]
        constructor <;> linarith
  obtain ⟨q, hq, hq0, hqe⟩ := hif
  rw [hq, ← hroot] at *
  have hd := real_err (q / 2 ^ 597) (by positivity)
  push_cast at hd
  have hy0 : 0 ≤ √(x : ℝ) := Real.sqrt_nonneg _
  generalize √(x : ℝ) = y at *
  have h5 : |(q : ℝ) / 2 ^ 597 - y| ≤ y / 2 ^ 60 := by
    have e : (q : ℝ) / 2 ^ 597 - y = ((q : ℝ) - y * 2 ^ 597) / 2 ^ 597 := by
      rw [sub_div, mul_div_cancel_right₀ _ (by positivity)]
    rw [e, abs_div, abs_of_pos (by positivity : (0 : ℝ) < 2 ^ 597), div_le_iff₀ (by positivity)]
    calc _ ≤ _ := hqe
      _ = _ := by ring
  generalize (q : ℝ) / 2 ^ 597 = p at *
  generalize (1 : ℝ) / 2 ^ 1075 = t at *
  generalize ((dbl (q / 2 ^ 597) : ℚ) : ℝ) = z at *
  obtain ⟨a1, a2⟩ := abs_le.1 hd
  obtain ⟨b1, b2⟩ := abs_le.1 h5
  rw [abs_le]
  clear hw h1 h2 hs1 hs2 hbig hqe hq hroot hd h5 hx h0
  norm_num at *
  constructor <;> linarith

theorem sqrt_sub_le {x v d : ℝ} (hx : 0 ≤ x) (hv : 0 ≤ v) (h : |x - v| ≤ d) : |√x - √v| ≤ √d := by
  have hd : 0 ≤ d := le_trans (abs_nonneg _) h
  obtain ⟨h1, h2⟩ := abs_le.1 h
  have key : ∀ a b : ℝ, 0 ≤ a → 0 ≤ b → a ≤ b + d → √a ≤ √b + √d := by
    intro a b ha hb hab
    rw [Real.sqrt_le_left (by positivity)]
    nlinarith [Real.sq_sqrt hb, Real.sq_sqrt hd, Real.sqrt_nonneg b, Real.sqrt_nonneg d]
  have h3 := key x v hx hv (by linarith)
  have h4 := key v x hv hx (by linarith)
  rw [abs_le]
  constructor <;> linarith

/-! ## Mean and variance of dice that are not astronomic -/

theorem mean_sq_le (l : List (ℤ × ℕ)) (h : mass l ≠ 0) : Mean l ^ 2 ≤ Ex l fun y => (y : ℚ) ^ 2 := by
  have := C26_variance l h
  linarith [this.1, this.2]

theorem toDouble_small {q : ℚ} (h : |q| ≤ 10 ^ 30) : toDouble q = .ok (dbl q) := by
  unfold toDouble
  rw [if_neg]
  have h1 := one_lt_floatOverflow
  have h2 : (10 : ℚ) ^ 30 ≤ 2 ^ 1000 := by
    calc (10 : ℚ) ^ 30 ≤ 2 ^ 100 := by norm_num
      _ ≤ 2 ^ 1000 := pow_le_pow_right₀ (by norm_num) (by norm_num)
  generalize (2 : ℚ) ^ 1000 = z at *
  push Not
  linarith

theorem dbl_abs_le (q : ℚ) : |dbl q| ≤ 2 * |q| + 1 := by
  have h := dbl_err' q
  have ht := tiny55
  generalize (1 : ℚ) / 2 ^ 1075 = t at *
  have h2 := abs_sub_abs_le_abs_sub (dbl q) q
  norm_num at h ht
  have := abs_nonneg q
  linarith

theorem mean_small {l : List (ℤ × ℕ)} (h0 : mass l ≠ 0) (h : (Ex l fun y => (y : ℚ) ^ 2) ≤ 10 ^ 24) : |Mean l| ≤ 10 ^ 12 := by
  have := mean_sq_le l h0
  refine abs_le_of_sq_le_sq (le_trans this (le_trans h ?_)) (by norm_num)
  norm_num

theorem mean_ok {r : RV ℤ} (hr : r.Proper) (h : |Mean r.pairs| ≤ 10 ^ 30) : r.mean = .ok (some (dbl (Mean r.pairs))) := by
  rw [mean_eq r hr.len, if_neg hr.pos, toDouble_small h]
  rfl

theorem var_ok (st : Settings) {r : RV ℤ} (hr : r.Proper) (h : (Ex r.pairs fun y => (y : ℚ) ^ 2) ≤ 10 ^ 24) :
    r.var st = .ok (some (dbl (dbl (Ex r.pairs fun y => (y : ℚ) ^ 2) - dbl (dbl (Mean r.pairs) * dbl (Mean r.pairs))))) := by
  have hm := mean_small hr.pos h
  have hs : r.sumProbs ≠ 0 := by
    intro h0
    have := sumProbs_eq r hr.len
    rw [h0] at this
    exact hr.pos this.symm
  obtain ⟨sq, h1, hsq, _, _, _, _, hlaw⟩ := mapVals_spec st hr (fun x => BinOp.eval .pow x 2) (fun x => x ^ 2) fun x _ => rfl
  have h1' : RV.binopNum st .pow r 2 = .ok sq := h1
  have hm2 : Mean sq.pairs = Ex r.pairs fun y => (y : ℚ) ^ 2 := by
    rw [Mean, hlaw]; congr 1
  have h20 : 0 ≤ Ex r.pairs fun y => (y : ℚ) ^ 2 := le_trans (sq_nonneg _) (mean_sq_le r.pairs hr.pos)
  have e1 : sq.mean = .ok (some (dbl (Mean sq.pairs))) := by
    refine mean_ok hsq ?_
    rw [hm2, abs_of_nonneg h20]
    norm_num at h ⊢
    linarith
  have e2 : r.mean = .ok (some (dbl (Mean r.pairs))) := by
    refine mean_ok hr ?_
    norm_num at hm ⊢
    linarith
  have e3 : toDouble (dbl (Mean r.pairs) * dbl (Mean r.pairs)) = .ok (dbl (dbl (Mean r.pairs) * dbl (Mean r.pairs))) := by
    refine toDouble_small ?_
    have h1 : |dbl (Mean r.pairs)| ≤ 10 ^ 13 := by
      have := dbl_abs_le (Mean r.pairs)
      norm_num at hm ⊢
      linarith
    rw [abs_mul]
    refine le_trans (mul_le_mul h1 h1 (abs_nonneg _) (by norm_num)) (by norm_num)
  rw [← hm2]
  unfold RV.var
  rw [if_neg hs, h1']
  change (sq.mean >>= fun a => r.mean >>= fun b => _) = _
  rw [e1, e2]
  change (toDouble (dbl (Mean r.pairs) * dbl (Mean r.pairs)) >>= fun ee => _) = _
  rw [e3]
  rfl

/-- What is shown of a nonnegative number that is not astronomic. -/
theorem floatText_round2 (neg : Bool) {x : ℚ} (h0 : 0 ≤ x) (h : x ≤ 9 * 10 ^ 12) :
    ∃ n : ℕ, SignedHundredths neg n (floatText neg (round2 x)) ∧ |(n : ℚ) / 100 - x| ≤ 1 / 200 := by
  have h1 := roundHalfEven_toNat (q := 100 * x) (by linarith)
  have h2 := roundHalfEven_err (100 * x)
  refine ⟨(roundHalfEven (100 * x)).toNat, ?_, ?_⟩
  · unfold round2
    rw [← h1]
    refine floatText_hundredths neg ?_
    have h3 := (abs_le.1 h2).2
    rw [← h1] at h3
    generalize (roundHalfEven (100 * x)).toNat = n at *
    have : (n : ℚ) < 1000000000000000 := by
      norm_num at h
      linarith
    exact_mod_cast this
  · rw [h1]
    generalize (roundHalfEven (100 * x) : ℚ) = z at *
    rw [abs_le] at *
    constructor <;> linarith

/-- C71. The header line of a die whose mean square is at most `10 ^ 24` shows two numbers of hundredths, around ` ± `: the mean and the
standard deviation, rounded.  The mean is right up to the rounding to hundredths and one rounding to a double.  The deviation can be off by
more: missing is its exactness, which fails (see the counterexample), since the code subtracts two rounded numbers that can be almost
equal. -/
theorem C71_header_partial (st : Settings) (r : RV ℤ) (hr : r.Proper) (h : (Ex r.pairs fun y => (y : ℚ) ^ 2) ≤ 10 ^ 24) :
    ∃ (neg : Bool) (n k : ℕ) (tm ts : List Char), outputHeader headerText st r = tm ++ " ± ".toList ++ ts ∧
      SignedHundredths neg n tm ∧ (neg = true → Mean r.pairs < 0) ∧
      |(if neg then -((n : ℚ) / 100) else (n : ℚ) / 100) - Mean r.pairs| ≤ 1 / 200 + |Mean r.pairs| / 2 ^ 53 + 1 / 2 ^ 1075 ∧
      (ShortHundredths k ts ∨ ts = ['0'] ∧ k = 0) ∧
      |(k : ℝ) / 100 - √((Variance r.pairs : ℚ) : ℝ)| ≤ 1 / 200 + √((Variance r.pairs : ℚ) : ℝ) / 2 ^ 52 +
        2 * √(((Ex r.pairs fun y => (y : ℚ) ^ 2 : ℚ) : ℝ) / 2 ^ 50 + 1 / 2 ^ 1072) := by
  have hm := mean_small hr.pos h
  have e1 : r.mean = .ok (some (dbl (Mean r.pairs))) := by
    refine mean_ok hr ?_
    norm_num at hm ⊢
    linarith
  obtain ⟨q, e2⟩ : ∃ q, r.var st = .ok (some (dbl q)) := ⟨_, var_ok st hr h⟩
  have e3 : r.stdSquare st = .ok (some (if 0 ≤ dbl q then dbl q else 0)) := by
    unfold RV.stdSquare; rw [e2]; rfl
  obtain ⟨x, hx, hx0, hxe⟩ := C26_std st r hr _ e3
  have hx := Option.some.inj hx
  have hv := C26_variance r.pairs hr.pos
  -- the mean
  have hmean : ∃ n : ℕ, SignedHundredths (decide (dbl (Mean r.pairs) < 0)) n (meanText (some (dbl (Mean r.pairs)))) ∧
      |(n : ℚ) / 100 - (|dbl (Mean r.pairs)|)| ≤ 1 / 200 := by
    refine floatText_round2 _ (abs_nonneg _) ?_
    have := dbl_abs_le (Mean r.pairs)
    norm_num at hm ⊢
    linarith
  obtain ⟨n, hn, hne⟩ := hmean
  -- the deviation
  have hwx : IsWide x := by
    rw [← hx]
    split
    · exact dbl_wide q
    · exact ⟨0, 0, by norm_num, by norm_num, by simp⟩
  have hs := sqrtDouble_err hwx hx0
  have hsv : |√(x : ℝ) - √((Variance r.pairs : ℚ) : ℝ)| ≤
      √(((Ex r.pairs fun y => (y : ℚ) ^ 2 : ℚ) : ℝ) / 2 ^ 50 + 1 / 2 ^ 1072) := by
    refine sqrt_sub_le (by exact_mod_cast hx0) (by exact_mod_cast hv.2) ?_
    have h := (Rat.cast_le (K := ℝ)).2 hxe
    rwa [Rat.cast_abs, Rat.cast_sub, Rat.cast_add, Rat.cast_div, Rat.cast_div, Rat.cast_one, Rat.cast_pow, Rat.cast_pow, Rat.cast_ofNat] at h
  have hD : (2 : ℝ) * (1 / 2 ^ 1075) ≤ √(((Ex r.pairs fun y => (y : ℚ) ^ 2 : ℚ) : ℝ) / 2 ^ 50 + 1 / 2 ^ 1072) := by
    rw [Real.le_sqrt' (by positivity)]
    have h1 : (0 : ℝ) ≤ ((Ex r.pairs fun y => (y : ℚ) ^ 2 : ℚ) : ℝ) / 2 ^ 50 := by
      have : 0 ≤ Ex r.pairs fun y => (y : ℚ) ^ 2 := le_trans (sq_nonneg _) (mean_sq_le r.pairs hr.pos)
      have : (0 : ℝ) ≤ ((Ex r.pairs fun y => (y : ℚ) ^ 2 : ℚ) : ℝ) := by exact_mod_cast this
      positivity
    have h2 : ((2 : ℝ) * (1 / 2 ^ 1075)) ^ 2 ≤ 1 / 2 ^ 1072 := by
      have e : (2 : ℝ) ^ 1075 = 2 ^ 1072 * 8 := by rw [show (1075 : ℕ) = 1072 + 3 from rfl, pow_add]; norm_num
      have hp : (1 : ℝ) ≤ 2 ^ 1072 := one_le_pow₀ (by norm_num)
      rw [e]
      generalize (2 : ℝ) ^ 1072 = z at *
      have e2 : (2 * (1 / (z * 8))) ^ 2 = 1 / z * (1 / (16 * z)) := by field_simp; norm_num
      rw [e2]
      refine mul_le_of_le_one_right (by positivity) ?_
      rw [div_le_one (by positivity)]
      exact le_trans hp (le_mul_of_one_le_left (by positivity) (by norm_num))
    linarith
  have hVE : Variance r.pairs ≤ 10 ^ 24 := by
    have := sq_nonneg (Mean r.pairs)
    linarith [hv.1]
  have hxle : √(x : ℝ) ≤ 2 * 10 ^ 12 := by
    rw [Real.sqrt_le_left (by positivity)]
    have h1 := (abs_le.1 hxe).2
    have h2 : (1 : ℚ) / 2 ^ 1072 ≤ 1 := by
      rw [div_le_one (by positivity)]
      exact one_le_pow₀ (by norm_num)
    generalize (1 : ℚ) / 2 ^ 1072 = t at *
    have h3 : x ≤ 3 * 10 ^ 24 := by
      norm_num at h hVE h1 ⊢
      linarith
    have h4 : (x : ℝ) ≤ 3 * 10 ^ 24 := by
      have := (Rat.cast_le (K := ℝ)).2 h3
      push_cast at this
      exact this
    norm_num at h4 ⊢
    linarith
  refine ⟨decide (dbl (Mean r.pairs) < 0), n, ?_⟩
  have hhead : outputHeader headerText st r = meanText (some (dbl (Mean r.pairs))) ++ " ± ".toList ++ stdText (some (dbl q)) := by
    unfold outputHeader
    rw [e1, e2]
    rfl
  have hneg : dbl (Mean r.pairs) < 0 → Mean r.pairs < 0 := by
    intro hlt
    by_contra hc
    push Not at hc
    exact absurd (dbl_nonneg hc) (not_le.2 hlt)
  have hmeanerr : |(if decide (dbl (Mean r.pairs) < 0) then -((n : ℚ) / 100) else (n : ℚ) / 100) - Mean r.pairs| ≤
      1 / 200 + |Mean r.pairs| / 2 ^ 53 + 1 / 2 ^ 1075 := by
    have h1 := abs_le.1 (dbl_error (Mean r.pairs))
    generalize (1 : ℚ) / 2 ^ 1075 = t at *
    generalize |Mean r.pairs| / 2 ^ 53 = u at *
    generalize Mean r.pairs = M at *
    generalize dbl M = m at *
    by_cases hm0 : m < 0
    · rw [decide_eq_true hm0, if_pos rfl]
      rw [abs_of_neg hm0] at hne
      have h2 := abs_le.1 hne
      rw [abs_le]
      constructor <;> linarith
    · rw [decide_eq_false hm0, if_neg (by simp)]
      push Not at hm0
      rw [abs_of_nonneg hm0] at hne
      have h2 := abs_le.1 hne
      rw [abs_le]
      constructor <;> linarith
  by_cases hq : 0 ≤ dbl q
  · rw [if_pos hq] at hx
    subst hx
    have hsle : sqrtDouble (dbl q) ≤ 9 * 10 ^ 12 := by
      have h1 := (abs_le.1 hs).2
      have h2 : (1 : ℝ) / 2 ^ 1075 ≤ 1 := by
        rw [div_le_one (by positivity)]
        exact one_le_pow₀ (by norm_num)
      generalize (1 : ℝ) / 2 ^ 1075 = t at *
      have h3 : ((sqrtDouble (dbl q) : ℚ) : ℝ) ≤ ((9 * 10 ^ 12 : ℚ) : ℝ) := by
        push_cast
        norm_num at h1 hxle ⊢
        linarith
      exact Rat.cast_le.1 h3
    have hs0 : 0 ≤ sqrtDouble (dbl q) := by
      unfold sqrtDouble
      refine dbl_nonneg ?_
      split <;> positivity
    obtain ⟨k, hk, hke⟩ := floatText_round2 false hs0 hsle
    have hst : stdText (some (dbl q)) = floatText false (round2 (sqrtDouble (dbl q))) := if_pos hq
    refine ⟨k, _, _, hhead, hn, fun h => hneg (of_decide_eq_true h), hmeanerr, .inl ?_, ?_⟩
    · obtain ⟨t, ht, hk⟩ := hk
      rw [hst, ht]
      exact hk
    · have hke' : |(k : ℝ) / 100 - ((sqrtDouble (dbl q) : ℚ) : ℝ)| ≤ 1 / 200 := by
        have h := (Rat.cast_le (K := ℝ)).2 hke
        rw [Rat.cast_abs, Rat.cast_sub, Rat.cast_div, Rat.cast_div, Rat.cast_natCast, Rat.cast_one, Rat.cast_ofNat, Rat.cast_ofNat] at h
        exact h
      clear hxle hxe hn hne hmeanerr hk hsle hst hhead e1 e2 e3 hv h
      have hDD := Real.sqrt_nonneg (((Ex r.pairs fun y => (y : ℚ) ^ 2 : ℚ) : ℝ) / 2 ^ 50 + 1 / 2 ^ 1072)
      generalize √(((Ex r.pairs fun y => (y : ℚ) ^ 2 : ℚ) : ℝ) / 2 ^ 50 + 1 / 2 ^ 1072) = D at *
      generalize (1 : ℝ) / 2 ^ 1075 = t at *
      generalize √((dbl q : ℚ) : ℝ) = y at *
      generalize √((Variance r.pairs : ℚ) : ℝ) = v at *
      generalize ((sqrtDouble (dbl q) : ℚ) : ℝ) = z at *
      obtain ⟨a1, a2⟩ := abs_le.1 hke'
      obtain ⟨b1, b2⟩ := abs_le.1 hs
      obtain ⟨c1, c2⟩ := abs_le.1 hsv
      rw [abs_le]
      norm_num at *
      constructor <;> linarith
  · rw [if_neg hq] at hx
    subst hx
    have hst : stdText (some (dbl q)) = ['0'] := if_neg hq
    refine ⟨0, _, _, hhead, hn, fun h => hneg (of_decide_eq_true h), hmeanerr, .inr ⟨hst, rfl⟩, ?_⟩
    rw [Rat.cast_zero, Real.sqrt_zero, zero_sub, abs_neg, abs_of_nonneg (Real.sqrt_nonneg _)] at hsv
    rw [Nat.cast_zero, zero_div, zero_sub, abs_neg, abs_of_nonneg (Real.sqrt_nonneg _)]
    have hv0 := Real.sqrt_nonneg ((Variance r.pairs : ℚ) : ℝ)
    generalize √(((Ex r.pairs fun y => (y : ℚ) ^ 2 : ℚ) : ℝ) / 2 ^ 50 + 1 / 2 ^ 1072) = D at *
    generalize √((Variance r.pairs : ℚ) : ℝ) = v at *
    have : 0 ≤ v / 2 ^ 52 := by positivity
    linarith

/-- C71. For a die whose mean square is at most a million (all dice with outcomes between -1000 and 1000), the shown mean is within
`0.005 + 10 ^ -12` of the mean and the shown deviation is within `0.005 + 0.0001` of the deviation. -/
theorem C71_small (st : Settings) (r : RV ℤ) (hr : r.Proper) (h : (Ex r.pairs fun y => (y : ℚ) ^ 2) ≤ 1000000) :
    ∃ (neg : Bool) (n k : ℕ) (tm ts : List Char), outputHeader headerText st r = tm ++ " ± ".toList ++ ts ∧
      SignedHundredths neg n tm ∧ (neg = true → Mean r.pairs < 0) ∧
      |(if neg then -((n : ℚ) / 100) else (n : ℚ) / 100) - Mean r.pairs| ≤ 1 / 200 + 1 / 10 ^ 12 ∧
      (ShortHundredths k ts ∨ ts = ['0'] ∧ k = 0) ∧
      |(k : ℝ) / 100 - √((Variance r.pairs : ℚ) : ℝ)| ≤ 1 / 200 + 1 / 10000 := by
  obtain ⟨neg, n, k, tm, ts, h1, h2, h3, h4, h5, h6⟩ := C71_header_partial st r hr (le_trans h (by norm_num))
  have hv := C26_variance r.pairs hr.pos
  refine ⟨neg, n, k, tm, ts, h1, h2, h3, le_trans h4 ?_, h5, le_trans h6 ?_⟩
  · have hM : |Mean r.pairs| ≤ 1000 := by
      refine abs_le_of_sq_le_sq (le_trans (mean_sq_le r.pairs hr.pos) (le_trans h ?_)) (by norm_num)
      norm_num
    have ht := tiny55
    generalize (1 : ℚ) / 2 ^ 1075 = t at *
    generalize |Mean r.pairs| = m at *
    norm_num at ht ⊢
    linarith
  · have hV : Variance r.pairs ≤ 1000000 := by
      have := sq_nonneg (Mean r.pairs)
      linarith [hv.1]
    have h7 : √((Variance r.pairs : ℚ) : ℝ) ≤ 1000 := by
      rw [Real.sqrt_le_left (by norm_num)]
      have : ((Variance r.pairs : ℚ) : ℝ) ≤ 1000000 := by exact_mod_cast hV
      norm_num
      linarith
    have h8 : √(((Ex r.pairs fun y => (y : ℚ) ^ 2 : ℚ) : ℝ) / 2 ^ 50 + 1 / 2 ^ 1072) ≤ 4 / 100000 := by
      rw [Real.sqrt_le_left (by norm_num)]
      have h9 : ((Ex r.pairs fun y => (y : ℚ) ^ 2 : ℚ) : ℝ) ≤ 1000000 := by exact_mod_cast h
      have h10 : (1 : ℝ) / 2 ^ 1072 ≤ 1 / 2 ^ 50 :=
        one_div_le_one_div_of_le (by positivity) (pow_le_pow_right₀ (by norm_num) (by norm_num))
      generalize (1 : ℝ) / 2 ^ 1072 = t at *
      generalize ((Ex r.pairs fun y => (y : ℚ) ^ 2 : ℚ) : ℝ) = z at *
      norm_num at h10 ⊢
      linarith
    generalize √(((Ex r.pairs fun y => (y : ℚ) ^ 2 : ℚ) : ℝ) / 2 ^ 50 + 1 / 2 ^ 1072) = D at *
    generalize √((Variance r.pairs : ℚ) : ℝ) = v at *
    norm_num at *
    linarith

/-! ## No line break -/

theorem newline_digitText (ds : List ℕ) : '\n' ∉ digitText ds := by
  intro h
  obtain ⟨d, _, hd⟩ := List.mem_map.1 h
  exact digit_ne d '\n' (.inl rfl) hd

theorem newline_exponentText (n : ℕ) : '\n' ∉ exponentText n := by
  unfold exponentText
  split
  · rw [List.mem_cons, not_or]
    exact ⟨by decide, newline_digitText _⟩
  · exact newline_digitText _

theorem newline_floatText (neg : Bool) (x : ℚ) : '\n' ∉ floatText neg x := by
  unfold floatText
  rw [List.mem_append, not_or]
  constructor
  · split <;> decide
  · split
    · decide
    · simp only
      split
      · split
        · simp only [List.mem_append, not_or]
          refine ⟨⟨by decide, ?_⟩, newline_digitText _⟩
          rw [List.mem_replicate]
          rintro ⟨_, h⟩
          exact absurd h (by decide)
        · split
          · simp only [List.mem_append, not_or]
            refine ⟨⟨newline_digitText _, ?_⟩, by decide⟩
            rw [List.mem_replicate]
            rintro ⟨_, h⟩
            exact absurd h (by decide)
          · simp only [List.mem_append, List.mem_cons, not_or]
            exact ⟨newline_digitText _, by decide, newline_digitText _⟩
      · simp only [List.mem_append, not_or]
        refine ⟨⟨⟨newline_digitText _, ?_⟩, ?_⟩, newline_exponentText _⟩
        · split
          · exact List.not_mem_nil
          · rw [List.mem_cons, not_or]
            exact ⟨by decide, newline_digitText _⟩
        · split <;> decide

theorem newline_header (m v : Option ℚ) : '\n' ∉ headerText m v := by
  unfold headerText
  simp only [List.mem_append, not_or]
  refine ⟨⟨?_, by decide⟩, ?_⟩
  · cases m with
    | none => decide
    | some m => exact newline_floatText _ _
  · cases v with
    | none => decide
    | some v =>
      unfold stdText
      by_cases hv : 0 ≤ v
      · simp only [if_pos hv]
        exact newline_floatText _ _
      · simp only [if_neg hv]
        decide

/-- C71. The whole text of `output`: the first line is the name and the header, then come the rows and the separator as in C43.  Missing: a
cut that leaves no outcome, as in C43. -/
theorem C71_lines_partial (o : Obj) (ho : outputsBlank (some o) = false) (named : Option (List Char)) (hn : ∀ n, named = some n → '\n' ∉ n)
    (W : ℤ) (hW : W < RV.floatOverflow) (cut : ℚ) (w w1 : World) (r : RV ℤ) (hg : getRv o w = (.ok r, w1)) (hr : r.Proper)
    (l : List (ℤ × ℚ)) (hl : r.getValsProbs (dbl (cut / 100)) = .ok l) (hne : l ≠ []) :
    ∃ text rows lw, outputFull (some o) named true (some W) cut w = (.ok text, w1) ∧
      splitLines text = ((named.map (· ++ [' '])).getD [] ++ outputHeader headerText w.settings r) ::
        (rows ++ [List.replicate (W + 8).toNat '-']) ∧
      List.Forall₂ (fun vp row => RowShows lw (W - lw).toNat vp.1 (Pr r.pairs (· = vp.1)) row) l rows ∧
      (l.map (·.1)).Pairwise (· < ·) :=
  output_lines headerText newline_header o ho named hn W hW cut w w1 r hg hr l hl hne

theorem hundredths_whole {k : ℕ} {cs : List Char} (h : ShortHundredths (100 * k) cs) : ∃ t, NatText k t ∧ cs = t ++ ['.', '0'] := by
  obtain ⟨ds, h1, h2⟩ := h
  rw [Nat.mul_div_cancel_left _ (by norm_num)] at h1
  have e1 : 100 * k % 100 = 0 := Nat.mul_mod_right _ _
  have e2 : 100 * k % 10 = 0 := by omega
  rw [e1, e2, if_pos rfl] at h2
  exact ⟨ds, h1, h2⟩

/-- C71. The header of a certain number shows that number followed by `.0`, and the deviation `0.0`. -/
theorem C71_constant (st : Settings) (c : ℤ) (p : ℕ) (hp : 0 < p) (hc : |c| ≤ 10 ^ 12) :
    ∃ t, IntText c t ∧ outputHeader headerText st ⟨[c], [p], none⟩ = t ++ ".0 ± 0.0".toList := by
  have hp' : (p : ℚ) ≠ 0 := by exact_mod_cast hp.ne'
  have hmass : mass (⟨[c], [p], none⟩ : RV ℤ).pairs = p := by simp [RV.pairs, mass, wsum]
  have hr : (⟨[c], [p], none⟩ : RV ℤ).Proper := ⟨rfl, by simp, by simp, by rw [hmass]; exact hp'⟩
  have hM : Mean (⟨[c], [p], none⟩ : RV ℤ).pairs = c := by
    rw [Mean, Ex, hmass]
    simp [RV.pairs, wsum, hp']
  have hE : (Ex (⟨[c], [p], none⟩ : RV ℤ).pairs fun y => (y : ℚ) ^ 2) = (c : ℚ) * c := by
    rw [Ex, hmass]
    simp [RV.pairs, wsum, hp', sq]
  have hcq : |(c : ℚ)| ≤ 10 ^ 12 := by exact_mod_cast hc
  have hE' : (Ex (⟨[c], [p], none⟩ : RV ℤ).pairs fun y => (y : ℚ) ^ 2) ≤ 10 ^ 24 := by
    rw [hE, ← abs_mul_abs_self]
    refine le_trans (mul_le_mul hcq hcq (abs_nonneg _) (by norm_num)) (by norm_num)
  have hwide : dbl (c : ℚ) = c := by
    refine dbl_of_wide ⟨c, 0, ?_, by norm_num, by simp⟩
    norm_num at hc ⊢
    omega
  have e1 := mean_ok hr (by rw [hM]; exact le_trans hcq (by norm_num))
  have e2 := var_ok st hr hE'
  rw [hE, hM, hwide, sub_self, dbl_zero] at e2
  rw [hM, hwide] at e1
  have hround : round2 (|(c : ℚ)|) = dbl (((100 * c.natAbs : ℕ) : ℚ) / 100) := by
    have : 100 * |(c : ℚ)| = ((100 * c.natAbs : ℕ) : ℤ) := by
      push_cast
      rfl
    unfold round2
    rw [this, roundHalfEven_int, Int.cast_natCast]
  obtain ⟨t, ht, hs⟩ := floatText_hundredths (decide ((c : ℚ) < 0)) (n := 100 * c.natAbs)
    (by have := abs_le.1 hc; omega)
  obtain ⟨ds, h1, h2⟩ := hundredths_whole hs
  have hhead : outputHeader headerText st ⟨[c], [p], none⟩ = headerText (some c) (some 0) := by
    unfold outputHeader
    rw [e1, e2]
  have hstd : stdText (some 0) = ['0', '.', '0'] := by decide +kernel
  refine ⟨(if c < 0 then ['-'] else []) ++ ds, ?_, ?_⟩
  · unfold IntText
    split
    · exact ⟨ds, rfl, h1⟩
    · exact h1
  · rw [hhead, headerText, hstd, meanText, hround, ht, h2]
    have : decide ((c : ℚ) < 0) = decide (c < 0) := by
      rw [decide_eq_decide]; exact_mod_cast Iff.rfl
    rw [this]
    by_cases h : c < 0
    · rw [decide_eq_true h, if_pos rfl, if_pos h]
      simp only [List.append_assoc]
      rfl
    · rw [decide_eq_false h, if_neg (by simp), if_neg h]
      simp only [List.append_assoc]
      rfl

/-- C71. If the mean, or the mean square, is too large for a double, the header says so. -/
theorem C71_nan (st : Settings) (r : RV ℤ) (hr : r.Proper)
    (h : (RV.floatOverflow : ℚ) ≤ |Mean r.pairs| ∨ (RV.floatOverflow : ℚ) ≤ Ex r.pairs fun y => (y : ℚ) ^ 2) :
    outputHeader headerText st r = "NaN ± NaN".toList := by
  have hmean : ∀ q : RV ℤ, q.Proper → (RV.floatOverflow : ℚ) ≤ |Mean q.pairs| → q.mean = .error .overflow := by
    intro q hq hh
    rw [mean_eq q hq.len, if_neg hq.pos, toDouble, if_pos hh]
    rfl
  unfold outputHeader
  rcases h with h | h
  · rw [hmean r hr h]
  · have hs : r.sumProbs ≠ 0 := by
      intro h0
      have := sumProbs_eq r hr.len
      rw [h0] at this
      exact hr.pos this.symm
    obtain ⟨sq, h1, hsq, _, _, _, _, hlaw⟩ := mapVals_spec st hr (fun x => BinOp.eval .pow x 2) (fun x => x ^ 2) fun x _ => rfl
    have h1' : RV.binopNum st .pow r 2 = .ok sq := h1
    have hm2 : Mean sq.pairs = Ex r.pairs fun y => (y : ℚ) ^ 2 := by
      rw [Mean, hlaw]; congr 1
    have e1 : sq.mean = .error .overflow := hmean sq hsq (by rw [hm2]; exact le_trans h (le_abs_self _))
    have e2 : r.var st = .error .overflow := by
      unfold RV.var
      rw [if_neg hs, h1']
      change (sq.mean >>= fun a => r.mean >>= fun b => _) = _
      rw [e1]
      rfl
    rw [e2]
    cases r.mean <;> rfl

/-- C71. The header of a die without weight. -/
theorem C71_none (st : Settings) (r : RV ℤ) (h : ∀ p ∈ r.probs, p = 0) : outputHeader headerText st r = "None ± None".toList := by
  have hs : r.sumProbs = 0 := List.sum_eq_zero_iff.2 h
  unfold outputHeader RV.mean RV.var
  rw [if_pos hs, if_pos hs]
  rfl

/-- C71. The deviation shown can be wrong before the second digit after the point: the outcomes `10 ^ 8` and `10 ^ 8 + 10` deviate by
exactly 5 from their mean, and the header says 5.1. -/
theorem C71_deviation_counterexample :
    ∃ r : RV ℤ, r.Proper ∧ Mean r.pairs = 100000005 ∧ Variance r.pairs = 5 ^ 2 ∧
      outputHeader headerText {} r = "100000005.0 ± 5.1".toList := by
  refine ⟨⟨[100000000, 100000010], [1, 1], none⟩, ⟨rfl, by decide, by decide, by norm_num [mass, wsum, RV.pairs]⟩, ?_, ?_, by decide +kernel⟩
  · norm_num [Mean, Ex, mass, wsum, RV.pairs]
  · norm_num [Variance, Mean, Ex, mass, wsum, RV.pairs]

example : outputHeader headerText {} ⟨[1, 2, 3, 4, 5, 6], [1, 1, 1, 1, 1, 1], none⟩ = "3.5 ± 1.71".toList := by decide +kernel
example : (⟨[1, 2, 3, 4, 5, 6], [1, 1, 1, 1, 1, 1], none⟩ : RV ℤ).Proper ∧
    (Ex (⟨[1, 2, 3, 4, 5, 6], [1, 1, 1, 1, 1, 1], none⟩ : RV ℤ).pairs fun y => (y : ℚ) ^ 2) ≤ 1000000 :=
  ⟨⟨rfl, by decide, by decide, by norm_num [mass, wsum, RV.pairs]⟩, by norm_num [Ex, mass, wsum, RV.pairs]⟩
example : outputHeader headerText {} ⟨[-1, 0], [1, 299], none⟩ = "-0.0 ± 0.06".toList := by decide +kernel
example : outputHeader headerText {} ⟨[1], [0], none⟩ = "None ± None".toList := by decide +kernel
example : outputHeader headerText {} ⟨[10 ^ 16], [1], none⟩ = "1e+16 ± 0.0".toList := by decide +kernel
example : outputHeader headerText {} ⟨[2 ^ 512], [1], none⟩ = "NaN ± NaN".toList := by decide +kernel

set_option exponentiation.threshold 1100 in
example : (⟨[2 ^ 512], [1], none⟩ : RV ℤ).Proper ∧
    (RV.floatOverflow : ℚ) ≤ Ex (⟨[2 ^ 512], [1], none⟩ : RV ℤ).pairs fun y => (y : ℚ) ^ 2 :=
  ⟨⟨rfl, by decide, by decide, by norm_num [mass, wsum, RV.pairs]⟩, by norm_num [Ex, mass, wsum, RV.pairs, RV.floatOverflow]⟩

end PythonDice
