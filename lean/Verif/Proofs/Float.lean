import Verif.Model.RV
import Mathlib.Tactic.Linarith
import Mathlib.Tactic.Positivity
import Mathlib.Tactic.FieldSimp
import Mathlib.Tactic.Ring
import Mathlib.Tactic.NormNum
import Mathlib.Algebra.Order.Floor.Ring

/-! Lemmas on the rounding function `fl` and the constant of the limiter. -/

namespace PythonDice

theorem roundHalfEven_error (q : ℚ) : |(roundHalfEven q : ℚ) - q| ≤ 1 / 2 := by
  have h1 := Int.floor_le q
  have h2 := Int.lt_floor_add_one q
  unfold roundHalfEven
  simp only
  split
  · rw [abs_le]; constructor <;> linarith
  split
  · push_cast; rw [abs_le]; constructor <;> linarith
  · have : q - ⌊q⌋ = 1 / 2 := by linarith
    split
    · rw [abs_le]; constructor <;> linarith
    · push_cast; rw [abs_le]; constructor <;> linarith

theorem roundHalfEven_int (n : ℤ) : roundHalfEven (n : ℚ) = n := by
  unfold roundHalfEven; simp

/-- An integer below `q` is not rounded past. -/
theorem le_roundHalfEven {n : ℤ} {q : ℚ} (h : (n : ℚ) ≤ q) : n ≤ roundHalfEven q := by
  have h1 : n ≤ ⌊q⌋ := Int.le_floor.2 h
  unfold roundHalfEven
  simp only
  split
  · exact h1
  split
  · omega
  split <;> omega

theorem roundHalfEven_le {n : ℤ} {q : ℚ} (h : q ≤ (n : ℚ)) : roundHalfEven q ≤ n := by
  have h1 := roundHalfEven_error q
  rw [abs_le] at h1
  by_contra hc
  push Not at hc
  have hc' : (n : ℚ) + 1 ≤ roundHalfEven q := by exact_mod_cast hc
  have : q ≥ n + 1 / 2 := by linarith [h1.2]
  linarith

theorem zpow_log_le {q : ℚ} (h : q ≠ 0) : (2 : ℚ) ^ (Int.log 2 |q|) ≤ |q| := by
  have := Int.zpow_log_le_self (b := 2) (r := |q|) (by norm_num) (abs_pos.2 h)
  exact_mod_cast this

/-- Relative error of rounding to double. -/
theorem fl_error (q : ℚ) : |fl q - q| ≤ |q| / 2 ^ 53 := by
  unfold fl
  split
  · rename_i h; subst h; simp
  rename_i hq
  simp only
  set e : ℤ := Int.log 2 |q| - 52 with he
  have hpos : (0 : ℚ) < 2 ^ e := zpow_pos (by norm_num) _
  have h1 := roundHalfEven_error (q / 2 ^ e)
  have h2 : (roundHalfEven (q / 2 ^ e) : ℚ) * 2 ^ e - q = ((roundHalfEven (q / 2 ^ e) : ℚ) - q / 2 ^ e) * 2 ^ e := by
    field_simp
  rw [h2, abs_mul, abs_of_pos hpos]
  have h3 : (2 : ℚ) ^ e * 2 ^ 52 ≤ |q| := by
    have := zpow_log_le hq
    have e1 : (2 : ℚ) ^ (Int.log 2 |q|) = 2 ^ e * 2 ^ 52 := by
      rw [← zpow_natCast, ← zpow_add₀ (by norm_num)]
      congr 1
      rw [he]; push_cast; ring
    linarith
  calc |(roundHalfEven (q / 2 ^ e) : ℚ) - q / 2 ^ e| * 2 ^ e ≤ 1 / 2 * 2 ^ e := by
        exact mul_le_mul_of_nonneg_right h1 hpos.le
    _ = (2 ^ e * 2 ^ 52) / 2 ^ 53 := by norm_num; ring
    _ ≤ |q| / 2 ^ 53 := by exact div_le_div_of_nonneg_right h3 (by positivity)

theorem fl_le {q : ℚ} (h : 0 ≤ q) : fl q ≤ q * (1 + 1 / 2 ^ 53) := by
  have := fl_error q
  rw [abs_of_nonneg h, abs_le] at this
  have h2 := this.2
  linarith [this.2]

theorem le_fl {q : ℚ} (h : 0 ≤ q) : q * (1 - 1 / 2 ^ 53) ≤ fl q := by
  have := fl_error q
  rw [abs_of_nonneg h, abs_le] at this
  linarith [this.1]

/-- A double is not rounded past: here for the limit itself. -/
theorem sumLimit_le_fl {s : ℕ} (h : RV.sumLimit ≤ s) : (RV.sumLimit : ℚ) ≤ fl s := by
  have hs : (RV.sumLimit : ℚ) ≤ s := by exact_mod_cast h
  by_cases h2 : s < 2 ^ 103
  · have hs0 : (s : ℚ) ≠ 0 := by
      have : 0 < RV.sumLimit := by norm_num [RV.sumLimit]
      have : s ≠ 0 := by omega
      exact_mod_cast this
    have hlog : Int.log 2 |(s : ℚ)| = 102 := by
      rw [abs_of_nonneg (by positivity), Int.log_natCast]
      have : Nat.log 2 s = 102 := by
        rw [Nat.log_eq_iff (by norm_num)]
        have : 2 ^ 102 ≤ RV.sumLimit := by norm_num [RV.sumLimit]
        exact ⟨by omega, h2⟩
      rw [this]; rfl
    unfold fl
    rw [if_neg hs0, hlog]
    simp only
    norm_num only
    have hn : (RV.sumLimit : ℚ) = ((8881784197001252 : ℤ) : ℚ) * 1125899906842624 := by norm_num [RV.sumLimit]
    rw [hn]
    apply mul_le_mul_of_nonneg_right _ (by norm_num)
    have : (8881784197001252 : ℤ) ≤ roundHalfEven ((s : ℚ) / 1125899906842624) := by
      apply le_roundHalfEven
      rw [le_div_iff₀ (by norm_num), ← hn]; exact hs
    exact_mod_cast this
  · push Not at h2
    have h3 : (2 ^ 103 : ℚ) ≤ s := by exact_mod_cast h2
    have h4 := le_fl (q := s) (by positivity)
    have : (2 ^ 103 : ℚ) * (1 - 1 / 2 ^ 53) ≤ fl s :=
      le_trans (mul_le_mul_of_nonneg_right h3 (by norm_num)) h4
    refine le_trans ?_ this
    norm_num [RV.sumLimit]

/-- The constant of the limiter: positive, and about 10^-20 of the total weight. -/
theorem normConst_bounds {s N : ℕ} (h : RV.sumLimit < s) (hN : RV.normConst s = .ok N) :
    10 ^ 10 ≤ N ∧ (N : ℚ) ≤ 101 / 100 / 10 ^ 20 * s := by
  unfold RV.normConst at hN
  split at hN
  · cases hN
  simp only at hN
  cases hN
  set vx : ℚ := fl s with hvx
  have hL : (0 : ℚ) < RV.sumLimit := by norm_num [RV.sumLimit]
  generalize hLdef : (RV.sumLimit : ℚ) = L at *
  have h1 : L ≤ vx := hLdef ▸ sumLimit_le_fl h.le
  have h2 : vx ≤ s * (1 + 1 / 2 ^ 53) := fl_le (by positivity)
  have hm : vx - (vx - L * ⌊vx / L⌋) = L * ⌊vx / L⌋ := by ring
  rw [hm]
  have hk1 : (1 : ℚ) ≤ (⌊vx / L⌋ : ℤ) := by
    have : 1 ≤ ⌊vx / L⌋ := Int.le_floor.2 (by rw [le_div_iff₀ hL]; push_cast; linarith)
    exact_mod_cast this
  have hk2 : ((⌊vx / L⌋ : ℤ) : ℚ) ≤ vx / L := Int.floor_le _
  set k : ℤ := ⌊vx / L⌋ with hk
  have hLk : 0 ≤ L * k := mul_nonneg hL.le (le_trans zero_le_one hk1)
  have ha1 := fl_le hLk
  have ha2 := le_fl hLk
  set a := fl (L * k) with ha
  have haL1 : a / L ≤ k * (1 + 1 / 2 ^ 53) := by rw [div_le_iff₀ hL]; linarith
  have haL2 : k * (1 - 1 / 2 ^ 53) ≤ a / L := by rw [le_div_iff₀ hL]; linarith
  have haL0 : 0 ≤ a / L := le_trans (by apply mul_nonneg; linarith; norm_num) haL2
  have hd1 := fl_le haL0
  have hd2 := le_fl haL0
  set d := fl (a / L) with hd
  have hd1' : d ≤ k * (1 + 1 / 2 ^ 51) := by
    refine hd1.trans ?_
    have : a / L * (1 + 1 / 2 ^ 53) ≤ k * (1 + 1 / 2 ^ 53) * (1 + 1 / 2 ^ 53) :=
      mul_le_mul_of_nonneg_right haL1 (by norm_num)
    refine this.trans ?_
    rw [mul_assoc]
    apply mul_le_mul_of_nonneg_left _ (by linarith)
    norm_num
  have hd2' : k * (1 - 1 / 2 ^ 51) ≤ d := by
    refine le_trans ?_ hd2
    have : k * (1 - 1 / 2 ^ 53) * (1 - 1 / 2 ^ 53) ≤ a / L * (1 - 1 / 2 ^ 53) :=
      mul_le_mul_of_nonneg_right haL2 (by norm_num)
    refine le_trans ?_ this
    rw [mul_assoc]
    apply mul_le_mul_of_nonneg_left _ (by linarith)
    norm_num
  have hf1 := Int.floor_le d
  have hf2 := Int.lt_floor_add_one d
  set fd : ℤ := if 1 / 2 < d - ⌊d⌋ then ⌊d⌋ + 1 else ⌊d⌋ with hfd
  have hfd1 : (fd : ℚ) ≤ d + 1 / 2 := by
    rw [hfd]; split
    · push_cast; linarith
    · linarith
  have hfd2 : d - 1 / 2 ≤ fd := by
    rw [hfd]; split
    · push_cast; linarith
    · linarith
  have hfdlow : (1 : ℚ) ≤ fd := by
    have : (0 : ℚ) < fd := by
      refine lt_of_lt_of_le ?_ hfd2
      have : (1 : ℚ) * (1 - 1 / 2 ^ 51) ≤ k * (1 - 1 / 2 ^ 51) := mul_le_mul_of_nonneg_right hk1 (by norm_num)
      have h3 : (1 / 2 : ℚ) < 1 * (1 - 1 / 2 ^ 51) := by norm_num
      linarith
    have h0 : 0 < fd := by exact_mod_cast this
    have : 1 ≤ fd := by omega
    exact_mod_cast this
  -- fd is at most slightly above k
  have hfdk : (fd : ℚ) ≤ k * (1 + 1 / 2 ^ 49) := by
    by_cases hbig : (2 : ℚ) ^ 49 ≤ k
    · have : (1 / 2 : ℚ) ≤ k * (1 / 2 ^ 50) := by
        have := mul_le_mul_of_nonneg_right hbig (show (0 : ℚ) ≤ 1 / 2 ^ 50 by norm_num)
        refine le_trans ?_ this
        norm_num
      have e : (k : ℚ) * (1 + 1 / 2 ^ 49) = k * (1 + 1 / 2 ^ 51) + k * (1 / 2 ^ 50) + k * (1 / 2 ^ 51) := by ring
      have : (0 : ℚ) ≤ k * (1 / 2 ^ 51) := by apply mul_nonneg; linarith; norm_num
      linarith
    · push Not at hbig
      have : (fd : ℚ) < k + 1 := by
        have h3 : (k : ℚ) * (1 / 2 ^ 51) < 1 / 4 := by
          have := mul_lt_mul_of_pos_right hbig (show (0 : ℚ) < 1 / 2 ^ 51 by norm_num)
          refine lt_of_lt_of_le this ?_
          norm_num
        linarith
      have h4 : fd < k + 1 := by exact_mod_cast this
      have h5 : fd ≤ k := by omega
      have h6 : (fd : ℚ) ≤ k := by exact_mod_cast h5
      have : (0 : ℚ) ≤ k * (1 / 2 ^ 49) := by apply mul_nonneg; linarith; norm_num
      linarith
  have hx0 : (0 : ℚ) ≤ 100000000000 * fd := by linarith
  have hn1 := fl_le hx0
  have hn2 := le_fl hx0
  have hfl0 : 0 ≤ ⌊fl (100000000000 * (fd : ℚ))⌋ := Int.floor_nonneg.2 (le_trans (by apply mul_nonneg hx0; norm_num) hn2)
  have hcast : ((⌊fl (100000000000 * (fd : ℚ))⌋.toNat : ℕ) : ℚ) = (⌊fl (100000000000 * (fd : ℚ))⌋ : ℤ) := by
    have := Int.toNat_of_nonneg hfl0
    exact_mod_cast this
  refine ⟨?_, ?_⟩
  · have : ((10 ^ 10 : ℤ) : ℚ) ≤ fl (100000000000 * (fd : ℚ)) := by
      refine le_trans ?_ hn2
      have : (100000000000 * 1 : ℚ) * (1 - 1 / 2 ^ 53) ≤ 100000000000 * fd * (1 - 1 / 2 ^ 53) := by
        apply mul_le_mul_of_nonneg_right _ (by norm_num)
        linarith
      refine le_trans ?_ this
      norm_num
    have := Int.le_floor.2 this
    omega
  · rw [hcast]
    refine (Int.floor_le _).trans (hn1.trans ?_)
    have hks : (k : ℚ) ≤ s * (1 + 1 / 2 ^ 53) / L := hk2.trans (div_le_div_of_nonneg_right h2 hL.le)
    have h7 : (fd : ℚ) ≤ s * (1 + 1 / 2 ^ 53) / L * (1 + 1 / 2 ^ 49) :=
      hfdk.trans (mul_le_mul_of_nonneg_right hks (by norm_num))
    have h8 : 100000000000 * (fd : ℚ) * (1 + 1 / 2 ^ 53) ≤
        100000000000 * (s * (1 + 1 / 2 ^ 53) / L * (1 + 1 / 2 ^ 49)) * (1 + 1 / 2 ^ 53) := by
      apply mul_le_mul_of_nonneg_right _ (by norm_num)
      linarith
    refine h8.trans ?_
    have e : 100000000000 * ((s : ℚ) * (1 + 1 / 2 ^ 53) / L * (1 + 1 / 2 ^ 49)) * (1 + 1 / 2 ^ 53) =
      (100000000000 * (1 + 1 / 2 ^ 53) / L * (1 + 1 / 2 ^ 49) * (1 + 1 / 2 ^ 53)) * s := by ring
    rw [e]
    apply mul_le_mul_of_nonneg_right _ (by positivity)
    rw [← hLdef]
    norm_num [RV.sumLimit]

end PythonDice
