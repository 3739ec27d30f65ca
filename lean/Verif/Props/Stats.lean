import Verif.Proofs.Double
import Verif.Props.Objects

/-!
# C26, C27, C44: mean and standard deviation, probabilities, random rolls
-/

namespace PythonDice
open Spec

/-! ## C26 -/

/-- Expectation of a law on the integers. -/
def Mean (l : List (ℤ × ℕ)) : ℚ := Ex l fun x => (x : ℚ)

/-- Variance: expected squared distance from the mean. -/
def Variance (l : List (ℤ × ℕ)) : ℚ := Ex l fun x => ((x : ℚ) - Mean l) ^ 2

theorem sumProbs_eq (r : RV ℤ) (hl : r.vals.length = r.probs.length) : (r.sumProbs : ℚ) = mass r.pairs := by
  rw [mass_eq_sum, RV.pairs_map_snd r hl]; rfl

theorem mean_quotient (r : RV ℤ) (hl : r.vals.length = r.probs.length) :
    (((r.pairs.map fun vp => vp.1 * (vp.2 : ℤ)).sum : ℤ) : ℚ) / (r.sumProbs : ℚ) = Mean r.pairs := by
  rw [Mean, Ex, sumProbs_eq r hl]
  congr 1
  unfold wsum
  generalize r.pairs = l
  induction l with
  | nil => simp
  | cons x l ih =>
    simp only [List.map_cons, List.sum_cons]
    rw [Int.cast_add, ih]
    push_cast
    ring

theorem mean_eq (r : RV ℤ) (hl : r.vals.length = r.probs.length) :
    r.mean = if mass r.pairs = 0 then .ok none else (toDouble (Mean r.pairs)).map some := by
  have h0 : r.sumProbs = 0 ↔ mass r.pairs = 0 := by rw [← sumProbs_eq r hl]; norm_cast
  unfold RV.mean
  by_cases h : mass r.pairs = 0
  · rw [if_pos (h0.2 h), if_pos h]
  · rw [if_neg (mt h0.1 h), if_neg h, mean_quotient r hl]
    cases toDouble (Mean r.pairs) <;> rfl

/-- C26. `mean()` is None exactly when the total weight is 0; else it is the double nearest to the expectation, if there is one
(OverflowError otherwise). -/
theorem C26_mean (r : RV ℤ) (hl : r.vals.length = r.probs.length) :
    (r.mean = .ok none ↔ mass r.pairs = 0) ∧
    (∀ x, r.mean = .ok (some x) → NearestDouble (Mean r.pairs) x) ∧
    (mass r.pairs ≠ 0 → |Mean r.pairs| < RV.floatOverflow → ∃ x, r.mean = .ok (some x)) := by
  rw [mean_eq r hl]
  refine ⟨?_, ?_, ?_⟩
  · split
    · simp_all
    · cases toDouble (Mean r.pairs) <;> simp_all [Except.map]
  · intro x h
    split at h
    · cases h
    · cases ht : toDouble (Mean r.pairs) with
      | error e => rw [ht] at h; cases h
      | ok y =>
        rw [ht] at h; cases h
        obtain ⟨h1, rfl⟩ := toDouble_ok ht
        exact dbl_nearest h1
  · intro h hb
    rw [if_neg h, toDouble, if_neg (not_le.2 hb)]
    exact ⟨_, rfl⟩

/-- C26. The variance formula used by `std()`: `E[X²] - E[X]²` is the variance, and not negative. -/
theorem C26_variance (l : List (ℤ × ℕ)) (h : mass l ≠ 0) :
    (Ex l fun x => (x : ℚ) ^ 2) - Mean l ^ 2 = Variance l ∧ 0 ≤ Variance l := by
  constructor
  · have : Variance l = Ex l fun x => (x : ℚ) ^ 2 - (2 * Mean l) * x + Mean l ^ 2 := by
      unfold Variance; congr 1; funext x; ring
    rw [this, Ex_add, Ex_sub, Ex_mul_left, Ex_const h]
    change _ = _ - 2 * Mean l * Mean l + _
    ring
  · have := Ex_mono (l := l) (f := fun _ => 0) (g := fun x => ((x : ℚ) - Mean l) ^ 2) fun x _ => sq_nonneg _
    rwa [Ex_const h] at this

theorem sq_err {m e u t : ℚ} (h : |e - m| ≤ u * |m| + t) (hu : 0 ≤ u) (hu' : u ≤ 1 / 4) (ht : 0 ≤ t) (ht' : t ≤ u / 4) :
    |e * e - m ^ 2| ≤ 3 * u * m ^ 2 + 3 * t := by
  have e1 : e * e - m ^ 2 = (e - m) * (e + m) := by ring
  have hy : m ^ 2 = |m| ^ 2 := (sq_abs m).symm
  have h2 : |e + m| ≤ 2 * |m| + (u * |m| + t) := by
    have : e + m = (e - m) + 2 * m := by ring
    rw [this]
    refine (abs_add_le _ _).trans ?_
    rw [abs_mul, abs_two]
    linarith
  rw [e1, abs_mul, hy]
  have hn := abs_nonneg m
  generalize |m| = y at *
  have hA : |e - m| * |e + m| ≤ (u * y + t) * (2 * y + (u * y + t)) :=
    mul_le_mul h h2 (abs_nonneg _) (by positivity)
  refine hA.trans ?_
  have hy1 : y ≤ (1 + y ^ 2) / 2 := by nlinarith [sq_nonneg (y - 1)]
  have h3 : t * y * (2 + 2 * u) ≤ t * (1 + u) * (1 + y ^ 2) := by
    have : t * (1 + u) * (2 * y) ≤ t * (1 + u) * (1 + y ^ 2) := mul_le_mul_of_nonneg_left (by linarith) (by positivity)
    linarith
  have h4 : (u ^ 2 + t * (1 + u)) * y ^ 2 ≤ u * y ^ 2 := by
    refine mul_le_mul_of_nonneg_right ?_ (by positivity)
    nlinarith
  have h5 : t * (1 + u) + t ^ 2 ≤ 3 * t := by nlinarith
  nlinarith

/-- Rounding error of the computed variance. -/
theorem var_err {m1 m2 a e b c u t : ℚ} (hm : m1 ^ 2 ≤ m2) (hu : 0 ≤ u) (hu' : u ≤ 1 / 100) (ht : 0 ≤ t) (ht' : t ≤ u / 4)
    (ha : |a - m2| ≤ u * |m2| + t) (he : |e - m1| ≤ u * |m1| + t) (hb : |b - e * e| ≤ u * |e * e| + t)
    (hc : |c - (a - b)| ≤ u * |a - b| + t) : |c - (m2 - m1 ^ 2)| ≤ 8 * u * m2 + 8 * t := by
  have hm0 : 0 ≤ m1 ^ 2 := sq_nonneg _
  have h1 := sq_err he hu (by linarith) ht ht'
  rw [abs_of_nonneg (by linarith : 0 ≤ m2)] at ha
  have h2 : |e * e| ≤ m1 ^ 2 + (3 * u * m1 ^ 2 + 3 * t) := by
    have := abs_sub_abs_le_abs_sub (e * e) (m1 ^ 2)
    rw [abs_of_nonneg hm0] at this
    linarith
  have h3 : |b - m1 ^ 2| ≤ 5 * u * m1 ^ 2 + 5 * t := by
    have := abs_sub_le b (e * e) (m1 ^ 2)
    have h4 : u * |e * e| ≤ 2 * u * m1 ^ 2 + t := by
      have : u * |e * e| ≤ u * (m1 ^ 2 + (3 * u * m1 ^ 2 + 3 * t)) := mul_le_mul_of_nonneg_left h2 hu
      have h6 : u * (3 * u * m1 ^ 2) ≤ u * m1 ^ 2 := by
        have : u * (3 * u * m1 ^ 2) = (3 * u) * (u * m1 ^ 2) := by ring
        rw [this]
        exact (mul_le_of_le_one_left (by positivity) (by linarith))
      nlinarith
    linarith
  have h5u : 5 * u * m1 ^ 2 ≤ 5 * u * m2 := mul_le_mul_of_nonneg_left hm (by linarith)
  have h4 : |(a - b) - (m2 - m1 ^ 2)| ≤ 6 * u * m2 + 6 * t := by
    have e1 : (a - b) - (m2 - m1 ^ 2) = (a - m2) - (b - m1 ^ 2) := by ring
    rw [e1]
    have := abs_sub (a - m2) (b - m1 ^ 2)
    linarith
  have h5 : |a - b| ≤ m2 + 6 * u * m2 + 6 * t := by
    have := abs_sub_abs_le_abs_sub (a - b) (m2 - m1 ^ 2)
    rw [abs_of_nonneg (by linarith : 0 ≤ m2 - m1 ^ 2)] at this
    linarith
  have h6 : u * |a - b| ≤ 2 * u * m2 + t := by
    have h7 : u * |a - b| ≤ u * (m2 + 6 * u * m2 + 6 * t) := mul_le_mul_of_nonneg_left h5 hu
    have h8 : u * (6 * u * m2) ≤ u * m2 := by
      have : u * (6 * u * m2) = (6 * u) * (u * m2) := by ring
      rw [this]
      exact (mul_le_of_le_one_left (mul_nonneg hu (by linarith)) (by linarith))
    nlinarith
  have := abs_sub_le c (a - b) (m2 - m1 ^ 2)
  linarith

theorem dbl_err' (q : ℚ) : |dbl q - q| ≤ 1 / 2 ^ 53 * |q| + 1 / 2 ^ 1075 := by
  have := dbl_error q
  rwa [div_eq_mul_one_div, mul_comm] at this

theorem tiny : (1 : ℚ) / 2 ^ 1075 ≤ 1 / 2 ^ 53 / 4 := by
  rw [div_div, show (2 : ℚ) ^ 53 * 4 = 2 ^ 55 by norm_num]
  exact one_div_le_one_div_of_le (by positivity) (pow_le_pow_right₀ (by norm_num) (by norm_num))

/-- C26. `std()` returns None exactly when the total weight is 0; else the root of a number within rounding error of the variance, and not
negative. -/
theorem C26_std (st : Settings) (r : RV ℤ) (hr : r.Proper) (v : Option ℚ) (h : r.stdSquare st = .ok v) :
    ∃ x, v = some x ∧ 0 ≤ x ∧ |x - Variance r.pairs| ≤ (Ex r.pairs fun y => (y : ℚ) ^ 2) / 2 ^ 50 + 1 / 2 ^ 1072 := by
  have hs : r.sumProbs ≠ 0 := by
    intro h0
    have := sumProbs_eq r hr.len
    rw [h0] at this
    exact hr.pos this.symm
  obtain ⟨sq, h1, hsq, _, _, _, _, hlaw⟩ := mapVals_spec st hr (fun x => BinOp.eval .pow x 2) (fun x => x ^ 2) fun x _ => rfl
  have h1' : RV.binopNum st .pow r 2 = .ok sq := h1
  unfold RV.stdSquare RV.var at h
  rw [if_neg hs, h1'] at h
  change Except.map _ (sq.mean >>= fun a => r.mean >>= fun b => _) = _ at h
  rw [mean_eq sq hsq.len, mean_eq r hr.len, if_neg hsq.pos, if_neg hr.pos] at h
  have hm2 : Mean sq.pairs = Ex r.pairs fun y => (y : ℚ) ^ 2 := by
    rw [Mean, hlaw]; congr 1
  cases ha : toDouble (Mean sq.pairs) with
  | error e => rw [ha] at h; cases h
  | ok a =>
  cases he : toDouble (Mean r.pairs) with
  | error e => rw [ha, he] at h; cases h
  | ok e =>
  cases hb : toDouble (e * e) with
  | error e' =>
    rw [ha, he] at h
    change Except.map _ (toDouble (e * e) >>= fun ee => _) = _ at h
    rw [hb] at h
    cases h
  | ok b =>
  rw [ha, he] at h
  change Except.map _ (toDouble (e * e) >>= fun ee => _) = _ at h
  rw [hb] at h
  cases h
  refine ⟨_, rfl, ?_, ?_⟩
  · beta_reduce
    split
    · assumption
    · exact le_rfl
  · obtain ⟨_, rfl⟩ := toDouble_ok ha
    obtain ⟨_, rfl⟩ := toDouble_ok he
    obtain ⟨_, rfl⟩ := toDouble_ok hb
    obtain ⟨hv, hv0⟩ := C26_variance r.pairs hr.pos
    have hbound := var_err (m1 := Mean r.pairs) (m2 := Ex r.pairs fun y => (y : ℚ) ^ 2) (u := 1 / 2 ^ 53) (t := 1 / 2 ^ 1075)
      (by linarith) (by positivity) (by norm_num) (by positivity) tiny (by rw [← hm2]; exact dbl_err' _) (dbl_err' _)
      (dbl_err' _) (dbl_err' _)
    rw [hv] at hbound
    have hfin : 8 * (1 / 2 ^ 53) * (Ex r.pairs fun y => (y : ℚ) ^ 2) + 8 * (1 / 2 ^ 1075) =
        (Ex r.pairs fun y => (y : ℚ) ^ 2) / 2 ^ 50 + 1 / 2 ^ 1072 := by
      have : (8 : ℚ) * (1 / 2 ^ 1075) = 1 / 2 ^ 1072 := by
        rw [show (1075 : ℕ) = 1072 + 3 from rfl, pow_add]
        generalize (2 : ℚ) ^ 1072 = z
        rw [show (2 : ℚ) ^ 3 = 8 by norm_num]
        field_simp
      rw [this]; ring
    rw [hfin] at hbound
    refine le_trans ?_ hbound
    rw [hm2]
    beta_reduce
    split
    · exact le_rfl
    · rename_i hneg
      push Not at hneg
      rw [abs_le]
      constructor
      · rw [abs_of_neg (by linarith)]; linarith
      · have := abs_nonneg (dbl (dbl (Ex r.pairs fun y => (y : ℚ) ^ 2) - dbl (dbl (Mean r.pairs) * dbl (Mean r.pairs))) - Variance r.pairs)
        linarith

theorem C26_std_none (st : Settings) (r : RV ℤ) (hl : r.vals.length = r.probs.length) (h : mass r.pairs = 0) :
    r.stdSquare st = .ok none := by
  unfold RV.stdSquare RV.var
  rw [if_pos]
  · rfl
  have := sumProbs_eq r hl
  rw [h] at this
  exact_mod_cast this

/-- C26. Mean and variance add up over sums of independent dice (exactly, before rounding). -/
theorem C26_additive (st : Settings) (X Y r : RV ℤ) (hr : X.binop st .add Y = .ok (r, false)) (hX : mass X.pairs ≠ 0)
    (hY : mass Y.pairs ≠ 0) :
    Mean r.pairs = Mean X.pairs + Mean Y.pairs ∧ Variance r.pairs = Variance X.pairs + Variance Y.pairs := by
  have law := C05_binop_law st .add X Y r (fun x y => x + y) (fun x _ y _ => .add x y) hr hX hY
  have hm : Mean r.pairs = Mean X.pairs + Mean Y.pairs := by
    have : ∀ x : ℤ, (Ex Y.pairs fun y => ((x + y : ℤ) : ℚ)) = x + Mean Y.pairs := by
      intro x
      push_cast
      rw [Ex_add, Ex_const hY]; rfl
    rw [Mean, law]
    simp only [this]
    rw [Ex_add, Ex_const hX]; rfl
  refine ⟨hm, ?_⟩
  have e : ∀ x : ℤ, (Ex Y.pairs fun y => (((x + y : ℤ) : ℚ) - Mean r.pairs) ^ 2) =
      ((x : ℚ) - Mean X.pairs) ^ 2 + Variance Y.pairs := by
    intro x
    have : (fun y : ℤ => (((x + y : ℤ) : ℚ) - Mean r.pairs) ^ 2) = fun y : ℤ =>
        (((x : ℚ) - Mean X.pairs) ^ 2 + 2 * ((x : ℚ) - Mean X.pairs) * ((y : ℚ) - Mean Y.pairs)) + ((y : ℚ) - Mean Y.pairs) ^ 2 := by
      funext y; rw [hm]; push_cast; ring
    rw [this, Ex_add, Ex_add, Ex_const hY, Ex_mul_left, Ex_sub, Ex_const hY]
    change _ + _ * (Mean Y.pairs - Mean Y.pairs) + Variance Y.pairs = _
    ring
  rw [Variance, law]
  simp only [e]
  rw [Ex_add, Ex_const hX]; rfl

example : (⟨[1, 2], [1, 2], none⟩ : RV ℤ).mean = .ok (some (dbl (5 / 3))) := by decide +kernel
example : (⟨[1, 2], [0, 0], none⟩ : RV ℤ).mean = .ok none := by decide +kernel
example : (⟨[1, 3], [1, 1], none⟩ : RV ℤ).stdSquare {} = .ok (some 1) := by decide +kernel

end PythonDice
