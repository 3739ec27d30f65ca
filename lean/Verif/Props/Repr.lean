import Verif.Proofs.ReprText

/-!
# C102: the numbers in the header line read back

`f'{mean} ± {std}'` (src/output.py:27) writes doubles with `repr`.  C71 says what is written for dice that are not too large; here are all doubles.
-/

namespace PythonDice
open Spec

/-- **C102** (src/output.py:22-29): the text of a double is a number in Python's notation, and the double nearest to that number (ties to even) is
the one that was written. -/
theorem C102_reads_back (neg : Bool) (x : ℚ) (hx : IsDouble x) (h0 : 0 ≤ x) :
    ∃ v, FloatText neg v (floatText neg x) ∧ NearestDouble v x ∧ dbl v = x := by
  rcases eq_or_lt_of_le h0 with h | h
  · subst h
    exact ⟨0, floatText_zero neg, ⟨hx, fun y _ => by simp⟩, dbl_zero⟩
  · have h1 := (shortDecimal_spec hx.wide h).1
    refine ⟨_, floatText_spec neg hx.wide h, ⟨hx, fun y hy => ?_⟩, h1⟩
    have h2 := dbl_nearest_wide (decimalValue (shortDecimal x)) hy.wide
    rwa [h1] at h2

theorem decDigits_count {n : ℕ} (h : n ≠ 0) : (decDigits n).length = (Nat.digits 10 n).length := by
  unfold decDigits
  rw [if_neg h, List.length_reverse]

/-- No number that reads back has fewer digits, and of those with as many digits none is closer; 17 digits are enough. -/
theorem C102_shortest (neg : Bool) (x : ℚ) (hx : IsDouble x) (h0 : 0 < x) :
    ∃ (n : ℕ) (k : ℤ), FloatText neg (n * 10 ^ k) (floatText neg x) ∧ dbl (n * 10 ^ k) = x ∧ (Nat.digits 10 n).length ≤ 17 ∧
      ∀ (m : ℕ) (j : ℤ), dbl (m * 10 ^ j) = x → (Nat.digits 10 n).length ≤ (Nat.digits 10 m).length ∧
        ((Nat.digits 10 m).length = (Nat.digits 10 n).length → |x - n * 10 ^ k| ≤ |x - m * 10 ^ j|) := by
  obtain ⟨h1, h2, h3, h4⟩ := shortDecimal_spec hx.wide h0
  have hn : (shortDecimal x).1 ≠ 0 := fun h => h2 (by rw [h])
  refine ⟨(shortDecimal x).1, (shortDecimal x).2, floatText_spec neg hx.wide h0, h1, by rw [← decDigits_count hn]; exact h3, fun m j h => ?_⟩
  have hm : m ≠ 0 := by
    rintro rfl
    rw [Nat.cast_zero, zero_mul, dbl_zero] at h
    exact h0.ne h
  obtain ⟨h5, h6⟩ := h4 m j h
  rw [← decDigits_count hn, ← decDigits_count hm]
  exact ⟨h5, fun he => h6 he.le⟩

/-- Different doubles have different texts. -/
theorem C102_injective (neg : Bool) (x y : ℚ) (hx : IsDouble x) (hy : IsDouble y) (h0 : 0 ≤ x) (h1 : 0 ≤ y) (h : floatText neg x = floatText neg y) :
    x = y := by
  obtain ⟨v, a1, _, a2⟩ := C102_reads_back neg x hx h0
  obtain ⟨w, b1, _, b2⟩ := C102_reads_back neg y hy h1
  rw [h] at a1
  rw [← a2, ← b2, floatText_value a1 b1]

theorem wide_text (neg : Bool) {x : ℚ} (hx : IsWide x) (h0 : 0 ≤ x) : ∃ v, FloatText neg v (floatText neg x) ∧ dbl v = x := by
  rcases eq_or_lt_of_le h0 with h | h
  · subst h
    exact ⟨0, floatText_zero neg, dbl_zero⟩
  · exact ⟨_, floatText_spec neg hx h, (shortDecimal_spec hx h).1⟩

theorem round2_near (x : ℚ) (h0 : 0 ≤ x) : ∃ h : ℤ, round2 x = dbl (h / 100) ∧ |(h : ℚ) / 100 - x| ≤ 1 / 200 := by
  refine ⟨roundHalfEven (100 * x), rfl, ?_⟩
  have h1 := roundHalfEven_error (100 * x)
  rw [abs_le] at h1 ⊢
  constructor <;> linarith [h1.1, h1.2]

theorem round2_nonneg {x : ℚ} (h0 : 0 ≤ x) : 0 ≤ round2 x := by
  refine dbl_nonneg (div_nonneg ?_ (by norm_num))
  have : (0 : ℤ) ≤ roundHalfEven (100 * x) := le_roundHalfEven (by push_cast; linarith)
  exact_mod_cast this

/-- The header line of every die whose mean and variance are doubles: two numbers that read back as the mean and the deviation, rounded to
hundredths.  The minus sign is there exactly if the mean is negative. -/
theorem C102_header (st : Settings) (r : RV ℤ) (m s : ℚ) (hm : r.mean = .ok (some m)) (hs : r.var st = .ok (some s)) :
    ∃ (tm ts : List Char) (v : ℚ) (h : ℤ), outputHeader headerText st r = tm ++ " ± ".toList ++ ts ∧
      FloatText (decide (m < 0)) v tm ∧ dbl v = dbl (h / 100) ∧ |(h : ℚ) / 100 - abs m| ≤ 1 / 200 ∧
      (s < 0 ∧ ts = ['0'] ∨ 0 ≤ s ∧ ∃ (w : ℚ) (g : ℤ), FloatText false w ts ∧ dbl w = dbl (g / 100) ∧ |(g : ℚ) / 100 - sqrtDouble s| ≤ 1 / 200) := by
  obtain ⟨h, h1, h2⟩ := round2_near |m| (abs_nonneg m)
  obtain ⟨v, v1, v2⟩ := wide_text (decide (m < 0)) (x := round2 |m|) (dbl_wide _) (round2_nonneg (abs_nonneg m))
  refine ⟨meanText (some m), stdText (some s), v, h, ?_, v1, by rw [v2, h1], h2, ?_⟩
  · unfold outputHeader
    rw [hm, hs]
    rfl
  · rcases lt_or_ge s 0 with hneg | hpos
    · left
      refine ⟨hneg, ?_⟩
      unfold stdText
      exact if_neg (not_le.2 hneg)
    · right
      have hq : 0 ≤ sqrtDouble s := by
        unfold sqrtDouble
        refine dbl_nonneg (div_nonneg ?_ (by positivity))
        split <;> positivity
      obtain ⟨g, g1, g2⟩ := round2_near _ hq
      obtain ⟨w, w1, w2⟩ := wide_text false (x := round2 (sqrtDouble s)) (dbl_wide _) (round2_nonneg hq)
      refine ⟨hpos, w, g, ?_, by rw [w2, g1], g2⟩
      have e : stdText (some s) = floatText false (round2 (sqrtDouble s)) := if_pos hpos
      rw [e]
      exact w1

/-- One tenth and two tenths. -/
example : floatText false (dbl (dbl (1 / 10) + dbl (2 / 10))) = "0.30000000000000004".toList := by decide +kernel

/-- The smallest double, and large ones. -/
example : floatText false (1 / 2 ^ 1074) = "5e-324".toList := by decide +kernel
example : floatText true (10 ^ 22) = "-1e+22".toList := by decide +kernel
example : floatText false (2 ^ 53) = "9007199254740992.0".toList := by decide +kernel

/-- A power of two whose nearest decimal of 16 digits does not read back, while the next above does. -/
example : floatText false (1 / 2 ^ 24) = "5.960464477539063e-08".toList ∧ dbl (5960464477539062 / 10 ^ 23) ≠ 1 / 2 ^ 24 ∧
    |(1 : ℚ) / 2 ^ 24 - 5960464477539062 / 10 ^ 23| = |1 / 2 ^ 24 - 5960464477539063 / 10 ^ 23| := by decide +kernel

example : IsDouble (1 / 2 ^ 1074) := ⟨1, -1074, by norm_num, by norm_num, by norm_num, by
  rw [zpow_neg, show (1074 : ℤ) = ((1074 : ℕ) : ℤ) from rfl, zpow_natCast]
  simp⟩

end PythonDice
