import Verif.Props.Derived
import Verif.Proofs.Double

/-!
# C67: the error bound that is logged when probabilities are reduced
-/

namespace PythonDice

open Spec

/-- src/randvar.py:452 `1 / (sum_ / normalizing_const - 1)`: the bound in the message, for a total weight `s` and the constant `n`. -/
def RV.loggedBound (s n : ℕ) : ℚ := dbl (1 / dbl (dbl ((s : ℚ) / n) - 1))

theorem dbl_upper {q : ℚ} (h : 0 ≤ q) : dbl q ≤ q * (1 + 1 / 2 ^ 53) + 1 / 2 ^ 1075 := by
  have := dbl_error q
  generalize (1 : ℚ) / 2 ^ 1075 = ε at *
  rw [abs_of_nonneg h] at this
  have := (abs_le.1 this).2
  linarith

theorem dbl_lower {q : ℚ} (h : 0 ≤ q) : q * (1 - 1 / 2 ^ 53) - 1 / 2 ^ 1075 ≤ dbl q := by
  have := dbl_error q
  generalize (1 : ℚ) / 2 ^ 1075 = ε at *
  rw [abs_of_nonneg h] at this
  have := (abs_le.1 this).1
  linarith

set_option exponentiation.threshold 2000 in
theorem overflow_le : (RV.floatOverflow : ℚ) ≤ 2 ^ 1024 := by
  norm_num [RV.floatOverflow]

set_option exponentiation.threshold 2000 in
theorem tiny_eq : (1 : ℚ) / 2 ^ 1075 * (2 ^ 1024 / 2 ^ 10) = 1 / 2 ^ 61 := by norm_num

theorem tiny_mul {s n ε c : ℚ} (hs : s ≤ c) (hn : 10 ^ 10 ≤ n) (e0 : 0 ≤ ε) (h : ε * (c / 2 ^ 10) = 1 / 2 ^ 61) (s0 : 0 ≤ s) :
    ε * (s / n) ≤ 1 / 2 ^ 60 := by
  have hn0 : 0 < n := lt_of_lt_of_le (by norm_num) hn
  have h5 : s / n ≤ c / 2 ^ 10 := by
    rw [div_le_div_iff₀ hn0 (by positivity)]
    have : (2 : ℚ) ^ 10 ≤ n := le_trans (by norm_num) hn
    nlinarith
  refine (mul_le_mul_of_nonneg_left h5 e0).trans (h.le.trans ?_)
  norm_num

theorem logged_algebra {x d1 d2 L ε : ℚ} (hx : 10 ^ 10 ≤ x) (e1 : ε ≤ 1 / 2 ^ 60) (e2 : ε * x ≤ 1 / 2 ^ 60)
    (d1u : d1 ≤ x * (1 + 1 / 2 ^ 53) + ε) (d1l : x * (1 - 1 / 2 ^ 53) - ε ≤ d1)
    (d2u : d2 ≤ (d1 - 1) * (1 + 1 / 2 ^ 53) + ε) (d2l : (d1 - 1) * (1 - 1 / 2 ^ 53) - ε ≤ d2)
    (l : 1 / d2 * (1 - 1 / 2 ^ 53) - ε ≤ L) : 1 / x ≤ (1 + 1 / 2 ^ 50) * L := by
  norm_num at *
  have x0 : 0 < x := by linarith
  have d20 : 0 < d2 := by linarith
  have hd2 : d2 ≤ x * (1 + 1 / 2 ^ 51) := by norm_num; linarith
  have hi : 1 / (x * (1 + 1 / 2 ^ 51)) ≤ 1 / d2 := one_div_le_one_div_of_le d20 hd2
  have hi' : x⁻¹ * (2251799813685248 / 2251799813685249) ≤ d2⁻¹ := by
    have e : 1 / (x * (1 + 1 / 2 ^ 51)) = x⁻¹ * (2251799813685248 / 2251799813685249) := by
      field_simp
      norm_num
    rw [e, one_div] at hi
    exact hi
  have he : ε ≤ 1 / 1152921504606846976 * x⁻¹ := by
    rw [← div_eq_mul_inv, le_div_iff₀ x0]
    linarith
  have xi : 0 < x⁻¹ := inv_pos.2 x0
  nlinarith

/-- The logged bound is `n / s` up to rounding. -/
theorem loggedBound_ge {s n : ℕ} (h1 : 10 ^ 10 ≤ n) (h2 : (n : ℚ) ≤ 101 / 100 / 10 ^ 20 * s) (h3 : s < RV.floatOverflow) :
    (n : ℚ) / s ≤ (1 + 1 / 2 ^ 50) * RV.loggedBound s n := by
  unfold RV.loggedBound
  have hn : (10 : ℚ) ^ 10 ≤ n := by exact_mod_cast h1
  have hn0 : (0 : ℚ) < n := lt_of_lt_of_le (by norm_num) hn
  have hs0 : (0 : ℚ) < s := by
    by_contra hc
    push Not at hc
    have : 101 / 100 / 10 ^ 20 * (s : ℚ) ≤ 0 := mul_nonpos_of_nonneg_of_nonpos (by norm_num) hc
    linarith
  have hx : (n : ℚ) / s = 1 / ((s : ℚ) / n) := by rw [one_div_div]
  have hx1 : (10 : ℚ) ^ 10 ≤ (s : ℚ) / n := by
    rw [le_div_iff₀ hn0]
    have := mul_le_mul_of_nonneg_left h2 (by norm_num : (0 : ℚ) ≤ 10 ^ 10)
    refine this.trans ?_
    clear h3 this
    nlinarith
  have hx2 := tiny_mul (ε := 1 / 2 ^ 1075) ((Nat.cast_le (α := ℚ).2 h3.le).trans overflow_le) hn (by positivity) tiny_eq hs0.le
  have e1 : (1 : ℚ) / 2 ^ 1075 ≤ 1 / 2 ^ 60 := by
    apply one_div_le_one_div_of_le (by positivity)
    exact pow_le_pow_right₀ (by norm_num) (by norm_num)
  have x0 : 0 ≤ (s : ℚ) / n := le_trans (by norm_num) hx1
  have a := dbl_upper x0
  have b := dbl_lower x0
  have c0 : 0 ≤ dbl ((s : ℚ) / n) - 1 := by
    generalize (1 : ℚ) / 2 ^ 1075 = ε at *
    norm_num at *
    linarith
  have c := dbl_upper c0
  have d := dbl_lower c0
  have f0 : 0 ≤ dbl (dbl ((s : ℚ) / n) - 1) := dbl_nonneg c0
  rw [hx]
  exact logged_algebra hx1 e1 hx2 a b c d (dbl_lower (one_div_nonneg.2 f0))

variable {α : Type} [LinearOrder α] [PyVal α]

/-- **C67** (src/randvar.py:447-463), partial: when probabilities are reduced, the constant `N` by which weights are divided gives a logged bound such
that the probability of every event (of every outcome) changes by at most the number of outcomes times the bound, up to rounding of the bound
itself.
Missing: that it changes by at most the logged bound, which is false (see below): the calculation in the comment of the code takes the sum of the
fractions cut off to be at most 1, but there is one for each outcome. -/
theorem C67_logged_bound_partial (X X' : RV α) (hl : X.vals.length = X.probs.length) (h : RV.probLimit X = .ok (X', true)) :
    ∃ N : ℕ, RV.normConst X.probs.sum = .ok N ∧ X'.probs = X.probs.map (· / N) ∧
      (X.vals.length ≤ 9 * 10 ^ 9 → ∀ (A : α → Prop) [DecidablePred A],
        |Pr X'.pairs A - Pr X.pairs A| ≤ (1 + 1 / 2 ^ 50) * X.vals.length * RV.loggedBound X.probs.sum N) := by
  have hlim : RV.sumLimit < X.probs.sum := by
    by_contra hc
    rw [RV.probLimit_le (not_lt.1 hc)] at h
    cases h
  cases hN : RV.normConst X.probs.sum with
  | error e =>
    unfold RV.probLimit RV.sumProbs at h
    rw [if_neg (by omega), hN] at h
    cases h
  | ok N =>
    have hb := normConst_bounds hlim hN
    have hov : X.probs.sum < RV.floatOverflow := by
      by_contra hc
      rw [RV.normConst, if_pos (not_lt.1 hc)] at hN
      cases hN
    obtain ⟨-, N', hN', -, -, hp, hc⟩ := reduction_bound X X' hl h
    rw [hN] at hN'
    cases hN'
    refine ⟨N, rfl, hp, fun hn A _ => ((hc hn).2 A).trans ?_⟩
    have := mul_le_mul_of_nonneg_left (loggedBound_ge hb.1 hb.2 hov) (Nat.cast_nonneg (α := ℚ) X.vals.length)
    calc (X.vals.length : ℚ) * N / X.probs.sum = X.vals.length * (N / X.probs.sum) := by rw [mul_div_assoc]
      _ ≤ _ := this
      _ = _ := by ring

/-- A die with one outcome of weight 10^31 and three that are just below the constant 10^11. -/
def heavy : RV ℤ := ⟨[0, 1, 2, 3], [10 ^ 31, 10 ^ 11 - 1, 10 ^ 11 - 1, 10 ^ 11 - 1], none⟩

/-- Adding 0 reduces the probabilities; the outcomes 1, 2, 3 become impossible. -/
example : RV.mk' {} heavy.vals (heavy.probs.map fun p : ℕ => (p : ℤ)) = .ok heavy ∧
    RV.probLimit heavy = .ok (⟨[0, 1, 2, 3], [10 ^ 20, 0, 0, 0], none⟩, true) := by decide +kernel

/-- **C67** is false: the probability of 0 changes by more than twice the logged bound. -/
theorem C67_logged_bound_counterexample : ∃ X' N, RV.probLimit heavy = .ok (X', true) ∧ RV.normConst heavy.probs.sum = .ok N ∧
    2 * RV.loggedBound heavy.probs.sum N < |Pr X'.pairs (fun v => v = 0) - Pr heavy.pairs (fun v => v = 0)| :=
  ⟨⟨[0, 1, 2, 3], [10 ^ 20, 0, 0, 0], none⟩, 10 ^ 11, by decide +kernel, by decide +kernel, by decide +kernel⟩

end PythonDice
