import Verif.Model.Stats
import Verif.Proofs.Float
import Verif.Spec.Float
import Mathlib.Tactic.Positivity
import Mathlib.Tactic.Linarith
import Mathlib.Tactic.FieldSimp

/-! # Rounding to double -/

namespace PythonDice
open Spec

theorem roundHalfEven_nearest (q : ℚ) (n : ℤ) : |q - roundHalfEven q| ≤ |q - n| := by
  have h := roundHalfEven_error q
  by_cases hn : n = roundHalfEven q
  · rw [hn]
  · have h1 : (1 : ℚ) ≤ |(roundHalfEven q : ℚ) - n| := by
      have : (1 : ℤ) ≤ |roundHalfEven q - n| := Int.one_le_abs (sub_ne_zero.2 (Ne.symm hn))
      exact_mod_cast this
    have h2 : |(roundHalfEven q : ℚ) - n| ≤ |(roundHalfEven q : ℚ) - q| + |q - n| := abs_sub_le _ _ _
    rw [abs_sub_comm q]
    linarith

/-- The exponent used by `dbl`. -/
def dblExp (q : ℚ) : ℤ := max (Int.log 2 |q| - 52) (-1074)

theorem dbl_def {q : ℚ} (h : q ≠ 0) : dbl q = (roundHalfEven (q / 2 ^ dblExp q) : ℚ) * 2 ^ dblExp q := by
  unfold dbl
  rw [if_neg h]; rfl

@[simp] theorem dbl_zero : dbl 0 = 0 := if_pos rfl

theorem two_zpow_pos (e : ℤ) : (0 : ℚ) < 2 ^ e := zpow_pos (by norm_num) e

theorem abs_lt_zpow_log (q : ℚ) : |q| < 2 ^ (Int.log 2 |q| + 1) := by
  have := Int.lt_zpow_succ_log_self (b := 2) (by norm_num) |q|
  exact_mod_cast this

/-- No multiple of the unit is closer. -/
theorem dbl_nearest_multiple {q : ℚ} (h : q ≠ 0) (n : ℤ) : |q - dbl q| ≤ |q - n * 2 ^ dblExp q| := by
  rw [dbl_def h]
  have hp := two_zpow_pos (dblExp q)
  have e : ∀ x : ℚ, q - x * 2 ^ dblExp q = (q / 2 ^ dblExp q - x) * 2 ^ dblExp q := by
    intro x; field_simp
  rw [e, e, abs_mul, abs_mul]
  exact mul_le_mul_of_nonneg_right (roundHalfEven_nearest _ n) (abs_nonneg _)

theorem dbl_abs_error {q : ℚ} (h : q ≠ 0) : |q - dbl q| ≤ 2 ^ dblExp q / 2 := by
  rw [dbl_def h]
  have hp := two_zpow_pos (dblExp q)
  have e : q - (roundHalfEven (q / 2 ^ dblExp q) : ℚ) * 2 ^ dblExp q =
      (q / 2 ^ dblExp q - roundHalfEven (q / 2 ^ dblExp q)) * 2 ^ dblExp q := by field_simp
  rw [e, abs_mul, abs_of_pos hp, abs_sub_comm]
  have := roundHalfEven_error (q / 2 ^ dblExp q)
  nlinarith

/-- Error of rounding to double. -/
theorem dbl_error (q : ℚ) : |dbl q - q| ≤ |q| / 2 ^ 53 + 1 / 2 ^ 1075 := by
  by_cases h : q = 0
  · subst h; simp
  rw [abs_sub_comm]
  refine (dbl_abs_error h).trans ?_
  unfold dblExp
  rcases le_total (Int.log 2 |q| - 52) (-1074) with hc | hc
  · rw [max_eq_right hc]
    have : (2 : ℚ) ^ (-1074 : ℤ) / 2 = 1 / 2 ^ 1075 := by
      rw [zpow_neg, show (1074 : ℤ) = ((1074 : ℕ) : ℤ) from rfl, zpow_natCast, pow_succ]
      field_simp
    rw [this]
    have : (0 : ℚ) ≤ |q| / 2 ^ 53 := by positivity
    linarith
  · rw [max_eq_left hc]
    have h1 := zpow_log_le h
    have : (2 : ℚ) ^ (Int.log 2 |q| - 52) / 2 = 2 ^ (Int.log 2 |q|) / 2 ^ 53 := by
      rw [zpow_sub₀ (by norm_num)]
      norm_num
      ring
    rw [this]
    have h2 : (2 : ℚ) ^ (Int.log 2 |q|) / 2 ^ 53 ≤ |q| / 2 ^ 53 := by gcongr
    have : (0 : ℚ) ≤ 1 / 2 ^ 1075 := by positivity
    linarith

theorem log_le_of_lt {q : ℚ} (h : q ≠ 0) (hq : |q| < RV.floatOverflow) : Int.log 2 |q| ≤ 1023 := by
  by_contra hc
  push Not at hc
  have h1 := zpow_log_le h
  have h2 : (2 : ℚ) ^ (1024 : ℤ) ≤ 2 ^ (Int.log 2 |q|) := zpow_le_zpow_right₀ (by norm_num) (by omega)
  have h3 : (RV.floatOverflow : ℚ) ≤ 2 ^ (1024 : ℤ) := by
    rw [show (1024 : ℤ) = ((1024 : ℕ) : ℤ) from rfl, zpow_natCast]
    have : RV.floatOverflow ≤ 2 ^ 1024 := Nat.sub_le _ _
    exact_mod_cast this
  linarith

/-- What the mantissa can be. -/
theorem mantissa_le {q : ℚ} (_h : q ≠ 0) : |q / 2 ^ dblExp q| ≤ 2 ^ 53 := by
  have hp := two_zpow_pos (dblExp q)
  rw [abs_div, abs_of_pos hp, div_le_iff₀ hp]
  have h1 := (abs_lt_zpow_log q).le
  refine h1.trans ?_
  have : (2 : ℚ) ^ 53 * 2 ^ dblExp q = 2 ^ (53 + dblExp q) := by
    rw [zpow_add₀ (by norm_num)]; norm_num
  rw [this]
  refine zpow_le_zpow_right₀ (by norm_num) ?_
  have := le_max_left (Int.log 2 |q| - 52) (-1074)
  unfold dblExp
  omega

theorem abs_roundHalfEven_le {n : ℤ} {q : ℚ} (h : |q| ≤ n) : |roundHalfEven q| ≤ n := by
  rw [abs_le] at h ⊢
  exact ⟨le_roundHalfEven (by push_cast; exact h.1), roundHalfEven_le h.2⟩

theorem dbl_isDouble {q : ℚ} (hq : |q| < RV.floatOverflow) : IsDouble (dbl q) := by
  by_cases h : q = 0
  · subst h
    exact ⟨0, 0, by norm_num, by norm_num, by norm_num, by simp⟩
  have hlog := log_le_of_lt h hq
  have hlo : -1074 ≤ dblExp q := le_max_right _ _
  have hhi : dblExp q ≤ 971 := max_le (by omega) (by norm_num)
  have hm : |roundHalfEven (q / 2 ^ dblExp q)| ≤ 2 ^ 53 := abs_roundHalfEven_le (by push_cast; exact mantissa_le h)
  rw [dbl_def h]
  rcases lt_or_eq_of_le hm with hm | hm
  · exact ⟨_, _, hm, hlo, hhi, rfl⟩
  · -- mantissa ± 2^53: one binary place up
    have he : dblExp q < 971 := by
      refine lt_of_le_of_ne hhi fun he => ?_
      have hb : |q / 2 ^ dblExp q| < 2 ^ 53 - 1 / 2 := by
        have hp := two_zpow_pos (dblExp q)
        rw [abs_div, abs_of_pos hp, div_lt_iff₀ hp, he]
        refine lt_of_lt_of_le hq (le_of_eq ?_)
        rw [show (971 : ℤ) = ((971 : ℕ) : ℤ) from rfl, zpow_natCast, RV.floatOverflow]
        rw [Nat.cast_sub (Nat.pow_le_pow_right (by norm_num) (by norm_num))]
        push_cast
        rw [sub_mul, ← pow_add, show (971 : ℕ) = 970 + 1 from rfl, pow_succ (2 : ℚ) 970]
        ring
      have h1 := roundHalfEven_error (q / 2 ^ dblExp q)
      have h2 : |(roundHalfEven (q / 2 ^ dblExp q) : ℚ)| = 2 ^ 53 := by exact_mod_cast congrArg (fun z : ℤ => (z : ℚ)) hm
      have h3 := abs_sub_abs_le_abs_sub (roundHalfEven (q / 2 ^ dblExp q) : ℚ) (q / 2 ^ dblExp q)
      linarith
    have e2 : (2 : ℚ) ^ 53 * 2 ^ dblExp q = 2 ^ 52 * 2 ^ (dblExp q + 1) := by
      rw [zpow_add₀ (by norm_num)]; ring
    rcases abs_eq (by norm_num : (0 : ℤ) ≤ 2 ^ 53) |>.1 hm with hs | hs
    · refine ⟨2 ^ 52, dblExp q + 1, by norm_num, by omega, by omega, ?_⟩
      rw [hs]; push_cast; exact e2
    · refine ⟨-2 ^ 52, dblExp q + 1, by norm_num, by omega, by omega, ?_⟩
      rw [hs]; norm_num at e2 ⊢; linarith

/-- A double without an upper limit on the exponent. -/
def IsWide (x : ℚ) : Prop := ∃ m e : ℤ, |m| < 2 ^ 53 ∧ -1074 ≤ e ∧ x = (m : ℚ) * 2 ^ e

theorem _root_.Spec.IsDouble.wide {x : ℚ} (h : IsDouble x) : IsWide x := by
  obtain ⟨m, e, h1, h2, _, h4⟩ := h
  exact ⟨m, e, h1, h2, h4⟩

theorem dbl_wide (q : ℚ) : IsWide (dbl q) := by
  by_cases h : q = 0
  · subst h
    exact ⟨0, 0, by norm_num, by norm_num, by simp⟩
  have hlo : -1074 ≤ dblExp q := le_max_right _ _
  have hm : |roundHalfEven (q / 2 ^ dblExp q)| ≤ 2 ^ 53 := abs_roundHalfEven_le (by push_cast; exact mantissa_le h)
  rw [dbl_def h]
  rcases lt_or_eq_of_le hm with hm | hm
  · exact ⟨_, _, hm, hlo, rfl⟩
  · have e2 : (2 : ℚ) ^ 53 * 2 ^ dblExp q = 2 ^ 52 * 2 ^ (dblExp q + 1) := by
      rw [zpow_add₀ (by norm_num)]; ring
    rcases abs_eq (by norm_num : (0 : ℤ) ≤ 2 ^ 53) |>.1 hm with hs | hs
    · refine ⟨2 ^ 52, dblExp q + 1, by norm_num, by omega, ?_⟩
      rw [hs]; push_cast; exact e2
    · refine ⟨-2 ^ 52, dblExp q + 1, by norm_num, by omega, ?_⟩
      rw [hs]; norm_num at e2 ⊢; linarith

theorem dbl_nearest_wide (q : ℚ) {y : ℚ} (hy : IsWide y) : |q - dbl q| ≤ |q - y| := by
  obtain ⟨m, e, hm, he1, rfl⟩ := hy
  by_cases h : q = 0
  · subst h; rw [dbl_zero, sub_self, abs_zero]; exact abs_nonneg _
  by_cases hc : dblExp q ≤ e
  · -- a multiple of the unit
    have : (m : ℚ) * 2 ^ e = ((m * 2 ^ (e - dblExp q).toNat : ℤ) : ℚ) * 2 ^ dblExp q := by
      push_cast
      rw [mul_assoc, ← zpow_natCast, ← zpow_add₀ (by norm_num)]
      congr 2
      omega
    rw [this]
    exact dbl_nearest_multiple h _
  · push Not at hc
    have hexp : dblExp q = Int.log 2 |q| - 52 := by
      unfold dblExp at hc ⊢
      rcases le_total (Int.log 2 |q| - 52) (-1074) with hx | hx
      · rw [max_eq_right hx] at hc; omega
      · exact max_eq_left hx
    have hlow := zpow_log_le h
    have hz : (2 : ℚ) ^ Int.log 2 |q| = 2 ^ 52 * 2 ^ dblExp q := by
      rw [hexp, show Int.log 2 |q| = 52 + (Int.log 2 |q| - 52) by ring, zpow_add₀ (by norm_num)]
      norm_num
    have hy : |(m : ℚ) * 2 ^ e| ≤ 2 ^ Int.log 2 |q| := by
      rw [abs_mul, abs_of_pos (two_zpow_pos e)]
      have h1 : |(m : ℚ)| ≤ 2 ^ 53 := by exact_mod_cast hm.le
      have h2 : (2 : ℚ) ^ e ≤ 2 ^ (dblExp q - 1) := zpow_le_zpow_right₀ (by norm_num) (by omega)
      have h3 : (2 : ℚ) ^ (dblExp q - 1) = 2 ^ dblExp q / 2 := by rw [zpow_sub₀ (by norm_num)]; norm_num
      have := two_zpow_pos e
      calc |(m : ℚ)| * 2 ^ e ≤ 2 ^ 53 * (2 ^ dblExp q / 2) := by
            rw [← h3]; exact mul_le_mul h1 h2 this.le (by norm_num)
        _ = 2 ^ Int.log 2 |q| := by rw [hz]; ring
    have hfar : |q| - 2 ^ Int.log 2 |q| ≤ |q - (m : ℚ) * 2 ^ e| := by
      have := abs_sub_abs_le_abs_sub q ((m : ℚ) * 2 ^ e)
      linarith
    refine le_trans ?_ hfar
    rcases lt_or_gt_of_ne h with hneg | hpos
    · have := dbl_nearest_multiple h (-2 ^ 52)
      rw [show (((-2 ^ 52 : ℤ) : ℚ)) * 2 ^ dblExp q = -2 ^ Int.log 2 |q| by rw [hz]; norm_num, sub_neg_eq_add] at this
      refine this.trans (le_of_eq ?_)
      rw [abs_of_neg hneg] at hlow ⊢
      rw [abs_of_nonpos (by linarith)]
      ring
    · have := dbl_nearest_multiple h (2 ^ 52)
      rw [show (((2 ^ 52 : ℤ) : ℚ)) * 2 ^ dblExp q = 2 ^ Int.log 2 |q| by rw [hz]; norm_num] at this
      refine this.trans (le_of_eq ?_)
      rw [abs_of_pos hpos] at hlow ⊢
      rw [abs_of_nonneg (by linarith)]

/-- `dbl` is the correctly rounded double. -/
theorem dbl_nearest {q : ℚ} (hq : |q| < RV.floatOverflow) : NearestDouble q (dbl q) :=
  ⟨dbl_isDouble hq, fun _ hy => dbl_nearest_wide q hy.wide⟩

theorem dbl_of_wide {x : ℚ} (hx : IsWide x) : dbl x = x := by
  have := dbl_nearest_wide x hx
  rw [sub_self, abs_zero, abs_nonpos_iff, sub_eq_zero] at this
  exact this.symm

/-- Rounding is monotone. -/
theorem dbl_mono {p q : ℚ} (h : p ≤ q) : dbl p ≤ dbl q := by
  by_contra hc
  push Not at hc
  have ha := dbl_nearest_wide p (dbl_wide q)
  have hb := dbl_nearest_wide q (dbl_wide p)
  have e : p = q := by
    rcases abs_cases (p - dbl p) with ⟨x1, x2⟩ | ⟨x1, x2⟩ <;> rcases abs_cases (p - dbl q) with ⟨y1, y2⟩ | ⟨y1, y2⟩ <;>
    rcases abs_cases (q - dbl q) with ⟨z1, z2⟩ | ⟨z1, z2⟩ <;> rcases abs_cases (q - dbl p) with ⟨t1, t2⟩ | ⟨t1, t2⟩ <;>
    rw [x1, y1] at ha <;> rw [z1, t1] at hb <;> linarith
  rw [e] at hc
  exact lt_irrefl _ hc

theorem dbl_nonneg {q : ℚ} (h : 0 ≤ q) : 0 ≤ dbl q := by
  have := dbl_mono h
  rwa [dbl_zero] at this

theorem one_lt_floatOverflow : (2 : ℚ) ^ 1000 < RV.floatOverflow := by
  have : 2 ^ 1000 < RV.floatOverflow := by
    unfold RV.floatOverflow
    decide +kernel
  exact_mod_cast this

theorem toDouble_ok {q x : ℚ} (h : toDouble q = .ok x) : |q| < RV.floatOverflow ∧ x = dbl q := by
  unfold toDouble at h
  split at h
  · cases h
  · cases h; exact ⟨lt_of_not_ge ‹_›, rfl⟩

end PythonDice
