import Verif.Proofs.Header

/-!
# The shortest decimal that reads back
-/

namespace PythonDice
open Spec

/-- A double in units of its exponent. -/
structure Mantissa (x : ℚ) (X e : ℤ) : Prop where
  eq : x = X * 2 ^ e
  pos : 1 ≤ X
  lt : X < 2 ^ 53
  low : -1074 ≤ e
  normal : e = -1074 ∨ 2 ^ 52 ≤ X

theorem dblExp_of {q : ℚ} {e : ℤ} (hq : 0 < q) (he : -1074 ≤ e) (h1 : q < 2 ^ 53 * 2 ^ e) (h2 : e = -1074 ∨ 2 ^ 52 * 2 ^ e ≤ q) : dblExp q = e := by
  unfold dblExp
  rw [abs_of_pos hq]
  have h3 : Int.log 2 q < 53 + e := by
    rw [← Int.lt_zpow_iff_log_lt (by norm_num) hq, zpow_add₀ (by norm_num)]
    exact_mod_cast h1
  rcases h2 with h2 | h2
  · rw [max_eq_right (by omega)]
    exact h2.symm
  · have h4 : 52 + e ≤ Int.log 2 q := by
      rw [← Int.zpow_le_iff_le_log (by norm_num) hq, zpow_add₀ (by norm_num)]
      exact_mod_cast h2
    rw [max_eq_left (by omega)]
    omega

theorem mantissa_of {x : ℚ} (hx : IsWide x) (h0 : 0 < x) : ∃ X e, Mantissa x X e := by
  have hp := two_zpow_pos (dblExp x)
  have h1 := dbl_def h0.ne'
  rw [dbl_of_wide hx] at h1
  generalize hX : roundHalfEven (x / 2 ^ dblExp x) = X at h1
  have hlt : x < 2 ^ 53 * 2 ^ dblExp x := by
    have h2 := abs_lt_zpow_log x
    rw [abs_of_pos h0] at h2
    have h3 : (2 : ℚ) ^ (Int.log 2 x + 1) ≤ 2 ^ (53 + dblExp x) := by
      refine zpow_le_zpow_right₀ (by norm_num) ?_
      have := le_max_left (Int.log 2 |x| - 52) (-1074)
      unfold dblExp
      rw [abs_of_pos h0] at this ⊢
      omega
    rw [zpow_add₀ (by norm_num) 53] at h3
    have h4 : (2 : ℚ) ^ (53 : ℤ) = 2 ^ 53 := by norm_num
    rw [h4] at h3
    linarith
  refine ⟨X, dblExp x, h1, ?_, ?_, le_max_right _ _, ?_⟩
  · have : (0 : ℚ) < X := by
      rw [h1] at h0
      exact pos_of_mul_pos_left h0 hp.le
    have : 0 < X := by exact_mod_cast this
    omega
  · have hlt' : (X : ℚ) * 2 ^ dblExp x < 2 ^ 53 * 2 ^ dblExp x := lt_of_eq_of_lt h1.symm hlt
    have : (X : ℚ) < 2 ^ 53 := lt_of_mul_lt_mul_right hlt' hp.le
    exact_mod_cast this
  · rcases le_total (Int.log 2 |x| - 52) (-1074) with h | h
    · left
      exact max_eq_right h
    · right
      have h2 : dblExp x = Int.log 2 |x| - 52 := max_eq_left h
      have h3 := Int.zpow_log_le_self (b := 2) (by norm_num) h0
      have h4 : Int.log 2 x = 52 + dblExp x := by rw [h2, abs_of_pos h0]; ring
      rw [h4, zpow_add₀ (by norm_num)] at h3
      have h5 : (2 : ℚ) ^ 52 * 2 ^ dblExp x ≤ X * 2 ^ dblExp x := by
        rw [← h1]
        exact_mod_cast h3
      have := le_of_mul_le_mul_right h5 hp
      exact_mod_cast this

/-- Doubles that are not smaller are multiples of the unit. -/
theorem wide_multiple {y : ℚ} (hy : IsWide y) {e : ℤ} (h : e = -1074 ∨ 2 ^ 52 * 2 ^ e ≤ y) : ∃ Y : ℤ, y = Y * 2 ^ e := by
  obtain ⟨m, j, hm, hj, rfl⟩ := hy
  have hje : e ≤ j := by
    rcases h with h | h
    · omega
    · by_contra hc
      have h1 : (2 : ℚ) ^ j ≤ 2 ^ (e - 1) := zpow_le_zpow_right₀ (by norm_num) (by omega)
      rw [zpow_sub₀ (by norm_num), zpow_one] at h1
      have h2 : (m : ℚ) < 2 ^ 53 := by exact_mod_cast (abs_lt.1 hm).2
      have h3 := two_zpow_pos j
      have h4 : (m : ℚ) * 2 ^ j < 2 ^ 53 * 2 ^ j := mul_lt_mul_of_pos_right h2 h3
      have h5 : (2 : ℚ) ^ 53 * 2 ^ j ≤ 2 ^ 53 * (2 ^ e / 2) := mul_le_mul_of_nonneg_left h1 (by norm_num)
      generalize (2 : ℚ) ^ j = a at *
      generalize (2 : ℚ) ^ e = b at *
      norm_num at *
      linarith
  refine ⟨m * 2 ^ (j - e).toNat, ?_⟩
  push_cast
  rw [mul_assoc, ← zpow_natCast, ← zpow_add₀ (by norm_num)]
  congr 2
  omega

/-- The distance to other doubles. -/
theorem wide_gap {x y : ℚ} {X e : ℤ} (hx : Mantissa x X e) (hy : IsWide y) (hne : y ≠ x) :
    2 ^ e ≤ |y - x| ∨ X = 2 ^ 52 ∧ 2 ^ e / 2 ≤ |y - x| := by
  have hp := two_zpow_pos e
  have hmul : ∀ (Y Z : ℤ) (u : ℚ), 0 < u → y = Y * u → x = Z * u → u ≤ |y - x| := by
    intro Y Z u hu h1 h2
    have h3 : Y ≠ Z := by
      rintro rfl
      exact hne (by rw [h1, h2])
    have h4 : (1 : ℚ) ≤ |(Y : ℚ) - Z| := by
      have : (1 : ℤ) ≤ |Y - Z| := Int.one_le_abs (sub_ne_zero.2 h3)
      exact_mod_cast this
    rw [h1, h2, ← sub_mul, abs_mul, abs_of_pos hu]
    nlinarith
  by_cases hc : e = -1074 ∨ 2 ^ 52 * 2 ^ e ≤ y
  · obtain ⟨Y, hY⟩ := wide_multiple hy hc
    exact Or.inl (hmul Y X _ hp hY hx.eq)
  · push Not at hc
    have hX := hx.normal.resolve_left hc.1
    rcases lt_or_eq_of_le hX with hX | hX
    · left
      have h1 : (2 : ℚ) ^ 52 + 1 ≤ X := by exact_mod_cast hX
      have h2 := hx.eq
      have h3 : ((2 : ℚ) ^ 52 + 1) * 2 ^ e ≤ X * 2 ^ e := mul_le_mul_of_nonneg_right h1 hp.le
      rw [abs_sub_comm]
      refine le_trans ?_ (le_abs_self _)
      rw [h2]
      linarith [hc.2]
    · right
      refine ⟨hX.symm, ?_⟩
      have h2 : x = 2 ^ 52 * 2 ^ e := by rw [hx.eq, ← hX]; push_cast; rfl
      have h3 : (2 : ℚ) ^ (e - 1) = 2 ^ e / 2 := by rw [zpow_sub₀ (by norm_num), zpow_one]
      by_cases hd : 2 ^ 52 * 2 ^ (e - 1) ≤ y
      · obtain ⟨Y, hY⟩ := wide_multiple hy (Or.inr hd)
        rw [h3] at hY
        exact hmul Y (2 ^ 53) _ (by linarith) hY (by rw [h2]; push_cast; ring)
      · push Not at hd
        rw [h3] at hd
        rw [abs_sub_comm]
        refine le_trans ?_ (le_abs_self _)
        rw [h2]
        generalize (2 : ℚ) ^ e = b at *
        norm_num at *
        linarith

/-- Seventeen digits read back. -/
theorem dbl_close {x d : ℚ} (hx : IsWide x) (h0 : 0 < x) (h : |d - x| ≤ x / 10 ^ 16 / 2) : dbl d = x := by
  obtain ⟨X, e, hm⟩ := mantissa_of hx h0
  by_contra hne
  have h1 := dbl_nearest_wide d hx
  have h2 : |dbl d - x| ≤ |dbl d - d| + |d - x| := abs_sub_le _ _ _
  rw [abs_sub_comm (dbl d) d] at h2
  have hp := two_zpow_pos e
  have h3 : |dbl d - x| ≤ x / 10 ^ 16 := by linarith
  have hX : (X : ℚ) < 2 ^ 53 := by exact_mod_cast hm.lt
  rcases wide_gap hm (dbl_wide d) hne with h4 | ⟨h4, h5⟩
  · have h5 := h4.trans h3
    rw [hm.eq] at h5
    have h6 : (X : ℚ) * 2 ^ e < 2 ^ 53 * 2 ^ e := mul_lt_mul_of_pos_right hX hp
    generalize (2 : ℚ) ^ e = b at *
    norm_num at *
    linarith
  · have h6 := h5.trans h3
    rw [hm.eq, h4] at h6
    generalize (2 : ℚ) ^ e = b at *
    norm_num at *
    linarith

theorem squeeze {x a b : ℚ} (h : dbl b = x) (hx : IsWide x) (hab : b ≤ a ∧ a ≤ x ∨ x ≤ a ∧ a ≤ b) : dbl a = x := by
  rcases hab with ⟨h1, h2⟩ | ⟨h1, h2⟩
  · have h3 := dbl_mono h1
    have h4 := dbl_mono h2
    rw [dbl_of_wide hx] at h4
    exact le_antisymm h4 (by rw [← h]; exact h3)
  · have h3 := dbl_mono h1
    have h4 := dbl_mono h2
    rw [dbl_of_wide hx] at h3
    exact le_antisymm (by rw [← h]; exact h4) h3

theorem wide_int {m e : ℤ} (h : |m| < 2 ^ 53) (he : -1074 ≤ e) : IsWide ((m : ℚ) * 2 ^ e) := ⟨m, e, h, he, rfl⟩

/-- What reads back below `x`, reads back above it: doubles are not closer together above. -/
theorem dbl_reflect {x f : ℚ} (hx : IsWide x) (h0 : 0 < x) (hf : f ≤ x) (h : dbl f = x) : dbl (2 * x - f) = x := by
  obtain ⟨X, e, hm⟩ := mantissa_of hx h0
  have hp := two_zpow_pos e
  have hXl : (X : ℚ) < 2 ^ 53 := by exact_mod_cast hm.lt
  have hX1 : (1 : ℚ) ≤ X := by exact_mod_cast hm.pos
  -- `f` is at most half a unit away
  have hhalf : x - f ≤ 2 ^ e / 2 := by
    have hw : IsWide (x - 2 ^ e) := by
      have : x - 2 ^ e = ((X - 1 : ℤ) : ℚ) * 2 ^ e := by rw [hm.eq]; push_cast; ring
      rw [this]
      exact wide_int (by rw [abs_lt]; have := hm.pos; have := hm.lt; constructor <;> omega) hm.low
    have h1 := dbl_nearest_wide f hw
    rw [h, abs_of_nonpos (by linarith)] at h1
    rcases abs_cases (f - (x - 2 ^ e)) with ⟨h2, _⟩ | ⟨h2, _⟩ <;> rw [h2] at h1 <;> linarith
  by_contra hne
  have hge : x ≤ dbl (2 * x - f) := by
    have := dbl_mono (show x ≤ 2 * x - f by linarith)
    rwa [dbl_of_wide hx] at this
  have hgt : x < dbl (2 * x - f) := lt_of_le_of_ne hge (Ne.symm hne)
  obtain ⟨Z, hZ⟩ := wide_multiple (dbl_wide (2 * x - f)) (e := e) (by
    rcases hm.normal with h | h
    · exact Or.inl h
    · right
      have : (2 : ℚ) ^ 52 ≤ X := by exact_mod_cast h
      have : (2 : ℚ) ^ 52 * 2 ^ e ≤ X * 2 ^ e := mul_le_mul_of_nonneg_right this hp.le
      rw [← hm.eq] at this
      linarith)
  have hZX : X + 1 ≤ Z := by
    rw [hZ, hm.eq] at hgt
    have := lt_of_mul_lt_mul_right hgt hp.le
    have : X < Z := by exact_mod_cast this
    omega
  have hZ1 : x + 2 ^ e ≤ dbl (2 * x - f) := by
    rw [hZ, hm.eq]
    have : (X : ℚ) + 1 ≤ Z := by exact_mod_cast hZX
    nlinarith
  have hn := dbl_nearest_wide (2 * x - f) hx
  rw [abs_of_nonpos (show 2 * x - f - dbl (2 * x - f) ≤ 0 by linarith), abs_of_nonneg (show 0 ≤ 2 * x - f - x by linarith)] at hn
  -- a tie on both sides
  have hfe : f = ((X : ℚ) - 1 / 2) * 2 ^ e := by
    have : x - f = 2 ^ e / 2 := by linarith
    have h2 := hm.eq
    rw [sub_mul]
    linarith
  have hge' : 2 * x - f = ((X : ℚ) + 1 / 2) * 2 ^ e := by
    have h2 := hm.eq
    rw [add_mul]
    rw [sub_mul] at hfe
    linarith
  have hf0 : 0 < f := by rw [hfe]; exact mul_pos (by linarith) hp
  have hnorm : e = -1074 ∨ 2 ^ 52 < X := by
    rcases hm.normal with h1 | h1
    · exact Or.inl h1
    · rcases lt_or_eq_of_le h1 with h1 | h1
      · exact Or.inr h1
      · left
        by_contra he
        have hw : IsWide f := by
          have : f = ((2 ^ 53 - 1 : ℤ) : ℚ) * 2 ^ (e - 1) := by
            rw [hfe, ← h1, zpow_sub₀ (by norm_num), zpow_one]
            push_cast
            ring
          rw [this]
          exact wide_int (by norm_num) (by have := hm.low; omega)
        rw [dbl_of_wide hw] at h
        rw [h] at hfe
        have h2 := hm.eq
        rw [h2] at hfe
        have := mul_right_cancel₀ hp.ne' hfe
        linarith
  have e1 : dblExp f = e := by
    refine dblExp_of hf0 hm.low ?_ ?_
    · rw [hfe]
      exact mul_lt_mul_of_pos_right (by linarith) hp
    · rcases hnorm with h1 | h1
      · exact Or.inl h1
      · right
        have : (2 : ℚ) ^ 52 + 1 ≤ X := by exact_mod_cast h1
        rw [hfe]
        exact mul_le_mul_of_nonneg_right (by linarith) hp.le
  have e2 : dblExp (2 * x - f) = e := by
    refine dblExp_of (by linarith) hm.low ?_ ?_
    · rw [hge']
      have : X + 1 ≤ 2 ^ 53 := by have := hm.lt; omega
      have : (X : ℚ) + 1 ≤ 2 ^ 53 := by exact_mod_cast this
      exact mul_lt_mul_of_pos_right (by linarith) hp
    · rcases hnorm with h1 | h1
      · exact Or.inl h1
      · right
        have : (2 : ℚ) ^ 52 + 1 ≤ X := by exact_mod_cast h1
        rw [hge']
        exact mul_le_mul_of_nonneg_right (by linarith) hp.le
  have r1 : roundHalfEven ((X : ℚ) - 1 / 2) = X := by
    have h1 := dbl_def hf0.ne'
    rw [e1, h, hm.eq, hfe, mul_div_cancel_right₀ _ hp.ne'] at h1
    have := mul_right_cancel₀ hp.ne' h1
    exact_mod_cast this.symm
  have r2 : roundHalfEven ((X : ℚ) + 1 / 2) = X + 1 := by
    have h1 := dbl_def (show 2 * x - f ≠ 0 by linarith)
    have h3 : roundHalfEven ((X : ℚ) + 1 / 2) ≤ X + 1 := roundHalfEven_le (by push_cast; linarith)
    rw [e2, hZ, hge', mul_div_cancel_right₀ _ hp.ne'] at h1
    have h4 := mul_right_cancel₀ hp.ne' h1
    have h5 : Z = roundHalfEven ((X : ℚ) + 1 / 2) := by exact_mod_cast h4
    omega
  have f1 : ⌊(X : ℚ) - 1 / 2⌋ = X - 1 := by
    rw [Int.floor_eq_iff]
    push_cast
    constructor <;> linarith
  have f2 : ⌊(X : ℚ) + 1 / 2⌋ = X := by
    rw [Int.floor_eq_iff]
    constructor <;> linarith
  unfold roundHalfEven at r1 r2
  simp only [f1, f2] at r1 r2
  rw [if_neg (by push_cast; linarith), if_neg (by push_cast; linarith)] at r1 r2
  split_ifs at r1 r2 <;> omega

/-- If a multiple of `u` reads back, the nearest one or the next above does, and the first of them that does is the closest. -/
theorem candidate_reads {x u : ℚ} (hx : IsWide x) (h0 : 0 < x) (hu : 0 < u) {z : ℤ} (h : dbl (z * u) = x) :
    dbl (roundHalfEven (x / u) * u) = x ∨ x ≤ z * u ∧ (⌈x / u⌉ : ℚ) * u ≤ z * u ∧ dbl (⌈x / u⌉ * u) = x := by
  have hc : x ≤ (⌈x / u⌉ : ℚ) * u := by
    rw [← div_le_iff₀ hu]
    exact Int.le_ceil _
  have hfl : (⌊x / u⌋ : ℚ) * u ≤ x := by
    rw [← le_div_iff₀ hu]
    exact Int.floor_le _
  rcases le_total x (z * u) with hz | hz
  · right
    have h1 : (⌈x / u⌉ : ℚ) * u ≤ z * u := by
      refine mul_le_mul_of_nonneg_right ?_ hu.le
      have : ⌈x / u⌉ ≤ z := Int.ceil_le.2 ((div_le_iff₀ hu).2 hz)
      exact_mod_cast this
    exact ⟨hz, h1, squeeze h hx (Or.inr ⟨hc, h1⟩)⟩
  · left
    have h1 : (z : ℚ) * u ≤ ⌊x / u⌋ * u := by
      refine mul_le_mul_of_nonneg_right ?_ hu.le
      have : z ≤ ⌊x / u⌋ := Int.le_floor.2 ((le_div_iff₀ hu).2 hz)
      exact_mod_cast this
    have h2 : dbl (⌊x / u⌋ * u) = x := squeeze h hx (Or.inl ⟨h1, hfl⟩)
    have h3 := roundHalfEven_nearest (x / u) ⌊x / u⌋
    rw [abs_of_nonneg (show 0 ≤ x / u - (⌊x / u⌋ : ℚ) by linarith [Int.floor_le (x / u)])] at h3
    have h4 : ∀ r : ℚ, (x / u - r) * u = x - r * u := by intro r; field_simp
    rcases le_total ((roundHalfEven (x / u) : ℚ) * u) x with h5 | h5
    · refine squeeze h2 hx (Or.inl ⟨?_, h5⟩)
      refine mul_le_mul_of_nonneg_right ?_ hu.le
      have := (abs_le.1 h3).2
      linarith
    · refine squeeze (dbl_reflect hx h0 hfl h2) hx (Or.inr ⟨h5, ?_⟩)
      have h6 := (abs_le.1 h3).1
      have h7 := mul_le_mul_of_nonneg_right h6 hu.le
      rw [neg_mul, h4, h4] at h7
      linarith

theorem ten_zpow_pos (e : ℤ) : (0 : ℚ) < 10 ^ e := zpow_pos (by norm_num) e

theorem log_ten_le {x : ℚ} (h0 : 0 < x) : (10 : ℚ) ^ Int.log 10 x ≤ x := by
  have := Int.zpow_log_le_self (b := 10) (by norm_num) h0
  exact_mod_cast this

theorem lt_log_ten (x : ℚ) : x < 10 ^ (Int.log 10 x + 1) := by
  have := Int.lt_zpow_succ_log_self (b := 10) (by norm_num) x
  exact_mod_cast this

theorem scaled_bounds {x : ℚ} (h0 : 0 < x) (i : ℕ) :
    (10 : ℚ) ^ i ≤ x / 10 ^ (Int.log 10 x - i) ∧ x / 10 ^ (Int.log 10 x - i) ≤ 10 ^ (i + 1) := by
  have hp := ten_zpow_pos (Int.log 10 x - i)
  rw [le_div_iff₀ hp, div_le_iff₀ hp, ← zpow_natCast, ← zpow_natCast, ← zpow_add₀ (by norm_num), ← zpow_add₀ (by norm_num)]
  constructor
  · rw [show ((i : ℕ) : ℤ) + (Int.log 10 x - i) = Int.log 10 x by ring]
    exact log_ten_le h0
  · rw [show ((i + 1 : ℕ) : ℤ) + (Int.log 10 x - i) = Int.log 10 x + 1 by push_cast; ring]
    exact (lt_log_ten x).le

/-- The candidates have at most a digit more than the others, and then are powers of ten. -/
theorem candidate_bounds {x : ℚ} (h0 : 0 < x) (i : ℕ) {c : ℕ × ℤ} (hc : c = nearDecimal x i ∨ c = upDecimal x i) :
    0 < c.1 ∧ c.1 ≤ 10 ^ (i + 1) ∧ c.2 = Int.log 10 x - i := by
  obtain ⟨h1, h2⟩ := scaled_bounds h0 i
  have h3 : (1 : ℚ) ≤ x / 10 ^ (Int.log 10 x - i) := le_trans (one_le_pow₀ (by norm_num)) h1
  rcases hc with rfl | rfl
  · refine ⟨?_, ?_, rfl⟩
    · have : 1 ≤ roundHalfEven (x / 10 ^ (Int.log 10 x - i)) := le_roundHalfEven (by push_cast; exact h3)
      unfold nearDecimal
      simp only
      omega
    · have : roundHalfEven (x / 10 ^ (Int.log 10 x - i)) ≤ ((10 ^ (i + 1) : ℕ) : ℤ) := roundHalfEven_le (by push_cast; exact h2)
      exact Int.toNat_le.2 this
  · refine ⟨?_, ?_, rfl⟩
    · have : 0 < ⌈x / 10 ^ (Int.log 10 x - i)⌉ := Int.ceil_pos.2 (by linarith)
      unfold upDecimal
      simp only
      omega
    · have : ⌈x / 10 ^ (Int.log 10 x - i)⌉ ≤ ((10 ^ (i + 1) : ℕ) : ℤ) := Int.ceil_le.2 (by push_cast; exact h2)
      exact Int.toNat_le.2 this

theorem near_value {x : ℚ} (h0 : 0 < x) (i : ℕ) :
    decimalValue (nearDecimal x i) = roundHalfEven (x / 10 ^ (Int.log 10 x - i)) * 10 ^ (Int.log 10 x - i) := by
  have h1 := (candidate_bounds h0 i (Or.inl rfl)).1
  unfold decimalValue
  unfold nearDecimal at h1 ⊢
  simp only at h1 ⊢
  congr 1
  have : (((roundHalfEven (x / 10 ^ (Int.log 10 x - i))).toNat : ℤ) : ℚ) = roundHalfEven (x / 10 ^ (Int.log 10 x - i)) := by
    rw [Int.toNat_of_nonneg (by omega)]
  exact_mod_cast this

theorem up_value {x : ℚ} (h0 : 0 < x) (i : ℕ) :
    decimalValue (upDecimal x i) = ⌈x / 10 ^ (Int.log 10 x - i)⌉ * 10 ^ (Int.log 10 x - i) := by
  have h1 := (candidate_bounds h0 i (Or.inr rfl)).1
  unfold decimalValue
  unfold upDecimal at h1 ⊢
  simp only at h1 ⊢
  congr 1
  have : (((⌈x / 10 ^ (Int.log 10 x - i)⌉).toNat : ℤ) : ℚ) = (⌈x / 10 ^ (Int.log 10 x - i)⌉ : ℚ) := by
    rw [Int.toNat_of_nonneg (by omega)]
  exact_mod_cast this

theorem dropZeros_le : ∀ (k : ℕ) (c : ℕ × ℤ), 0 < c.1 → c.1 ≤ 10 ^ k →
    decimalValue (dropZeros k c) = decimalValue c ∧ (dropZeros k c).1 % 10 ≠ 0 ∧ (dropZeros k c).1 ≤ c.1
  | 0, c, h0, h1 => by
    have : c.1 = 1 := by rw [pow_zero] at h1; omega
    exact ⟨rfl, by unfold dropZeros; omega, le_rfl⟩
  | k + 1, c, h0, h1 => by
    unfold dropZeros
    split
    · rename_i h
      rw [pow_succ] at h1
      obtain ⟨a, b, d⟩ := dropZeros_le k (c.1 / 10, c.2 + 1) (by simp only; omega) (by simp only; omega)
      refine ⟨?_, b, by simp only at d; omega⟩
      rw [a]
      unfold decimalValue
      obtain ⟨m, hm⟩ := Nat.dvd_of_mod_eq_zero h
      simp only [hm, Nat.mul_div_cancel_left m (show 0 < 10 by norm_num)]
      rw [zpow_add₀ (by norm_num), zpow_one]
      push_cast
      ring
    · rename_i h
      exact ⟨rfl, h, le_rfl⟩

/-- The last candidate reads back. -/
theorem near_reads {x : ℚ} (hx : IsWide x) (h0 : 0 < x) : dbl (decimalValue (nearDecimal x 16)) = x := by
  refine dbl_close hx h0 ?_
  rw [near_value h0]
  have hp := ten_zpow_pos (Int.log 10 x - (16 : ℕ))
  have h1 := roundHalfEven_error (x / 10 ^ (Int.log 10 x - (16 : ℕ)))
  have h2 : ∀ r : ℚ, r * 10 ^ (Int.log 10 x - (16 : ℕ)) - x = (r - x / 10 ^ (Int.log 10 x - (16 : ℕ))) * 10 ^ (Int.log 10 x - (16 : ℕ)) := by
    intro r; field_simp
  rw [h2, abs_mul, abs_of_pos hp]
  have h3 : (10 : ℚ) ^ (Int.log 10 x - (16 : ℕ)) ≤ x / 10 ^ 16 := by
    rw [zpow_sub₀ (by norm_num), zpow_natCast]
    have := log_ten_le h0
    gcongr
  calc _ ≤ 1 / 2 * (10 : ℚ) ^ (Int.log 10 x - (16 : ℕ)) := mul_le_mul_of_nonneg_right h1 hp.le
    _ ≤ _ := by linarith

/-- What is found. -/
theorem shortDecimal_found {x : ℚ} (hx : IsWide x) (h0 : 0 < x) : ∃ (c : ℕ × ℤ) (j : ℕ), j < 17 ∧ shortDecimal x = dropZeros 17 c ∧
    dbl (decimalValue c) = x ∧ (c = nearDecimal x j ∨ c = upDecimal x j ∧ dbl (decimalValue (nearDecimal x j)) ≠ x) ∧
    ∀ i < j, dbl (decimalValue (nearDecimal x i)) ≠ x ∧ dbl (decimalValue (upDecimal x i)) ≠ x := by
  have key : ∀ n s : ℕ, (∃ i, s ≤ i ∧ i < s + n ∧ dbl (decimalValue (nearDecimal x i)) = x) →
      ∃ (c : ℕ × ℤ) (j : ℕ), s ≤ j ∧ j < s + n ∧ ((List.range' s n).flatMap fun i => [nearDecimal x i, upDecimal x i]).find?
          (fun c => decide (dbl (decimalValue c) = x)) = some c ∧
        dbl (decimalValue c) = x ∧ (c = nearDecimal x j ∨ c = upDecimal x j ∧ dbl (decimalValue (nearDecimal x j)) ≠ x) ∧
        ∀ i, s ≤ i → i < j → dbl (decimalValue (nearDecimal x i)) ≠ x ∧ dbl (decimalValue (upDecimal x i)) ≠ x := by
    intro n
    induction n with
    | zero => rintro s ⟨i, h1, h2, _⟩; omega
    | succ n ih =>
      rintro s ⟨i, h1, h2, h3⟩
      rw [List.range'_succ, List.flatMap_cons]
      by_cases hn : dbl (decimalValue (nearDecimal x s)) = x
      · refine ⟨nearDecimal x s, s, le_rfl, by omega, ?_, hn, Or.inl rfl, fun i h h' => by omega⟩
        rw [List.cons_append, List.find?_cons_of_pos (by simpa using hn)]
      by_cases hu : dbl (decimalValue (upDecimal x s)) = x
      · refine ⟨upDecimal x s, s, le_rfl, by omega, ?_, hu, Or.inr ⟨rfl, hn⟩, fun i h h' => by omega⟩
        rw [List.cons_append, List.find?_cons_of_neg (by simpa using hn), List.cons_append, List.find?_cons_of_pos (by simpa using hu)]
      · obtain ⟨c, j, a1, a2, a3, a4, a5, a6⟩ := ih (s + 1) ⟨i, by
          rcases Nat.eq_or_lt_of_le h1 with h | h
          · subst h; exact absurd h3 hn
          · exact h, by omega, h3⟩
        refine ⟨c, j, by omega, by omega, ?_, a4, a5, fun i h h' => ?_⟩
        · rw [List.cons_append, List.find?_cons_of_neg (by simpa using hn), List.cons_append, List.find?_cons_of_neg (by simpa using hu)]
          exact a3
        · rcases Nat.eq_or_lt_of_le h with h | h
          · subst h; exact ⟨hn, hu⟩
          · exact a6 i h h'
  obtain ⟨c, j, _, h2, h3, h4, h5, h6⟩ := key 17 0 ⟨16, by omega, by omega, near_reads hx h0⟩
  refine ⟨c, j, by omega, ?_, h4, h5, fun i hi => h6 i (Nat.zero_le _) hi⟩
  unfold shortDecimal
  rw [List.range_eq_range', h3]
  rfl

/-- A decimal that reads back, in the unit of the candidates. -/
theorem in_units {x : ℚ} (hx : IsWide x) (h0 : 0 < x) {n : ℕ} {k : ℤ} (h : dbl (n * 10 ^ k) = x) {i : ℕ} (hi : (decDigits n).length ≤ i + 1) :
    ∃ z : ℤ, dbl (z * 10 ^ (Int.log 10 x - i)) = x ∧ |x - z * 10 ^ (Int.log 10 x - i)| ≤ |x - n * 10 ^ k| := by
  have hn : 0 < n := by
    rcases Nat.eq_zero_or_pos n with rfl | hn
    · rw [Nat.cast_zero, zero_mul, dbl_zero] at h
      exact absurd h h0.ne
    · exact hn
  have hlo := log_ten_le h0
  have hhi := lt_log_ten x
  have hpow : ∀ a : ℕ, (((10 ^ a : ℕ) : ℤ) : ℚ) * 10 ^ (Int.log 10 x - i) = 10 ^ ((a : ℤ) + (Int.log 10 x - i)) := by
    intro a
    push_cast
    rw [← zpow_natCast, ← zpow_add₀ (by norm_num)]
  rcases le_or_gt ((10 : ℚ) ^ (Int.log 10 x + 1)) (n * 10 ^ k) with hc | hc
  · have e : (((10 ^ (i + 1) : ℕ) : ℤ) : ℚ) * 10 ^ (Int.log 10 x - i) = 10 ^ (Int.log 10 x + 1) := by
      rw [hpow]
      congr 1
      push_cast
      ring
    refine ⟨((10 ^ (i + 1) : ℕ) : ℤ), ?_, ?_⟩
    · rw [e]
      exact squeeze h hx (Or.inr ⟨hhi.le, hc⟩)
    · rw [e, abs_of_nonpos (by linarith), abs_of_nonpos (by linarith)]
      linarith
  rcases lt_or_ge ((n : ℚ) * 10 ^ k) (10 ^ Int.log 10 x) with hd | hd
  · have e : (((10 ^ i : ℕ) : ℤ) : ℚ) * 10 ^ (Int.log 10 x - i) = 10 ^ Int.log 10 x := by
      rw [hpow]
      congr 1
      ring
    refine ⟨((10 ^ i : ℕ) : ℤ), ?_, ?_⟩
    · rw [e]
      exact squeeze h hx (Or.inl ⟨hd.le, hlo⟩)
    · rw [e, abs_of_nonneg (by linarith), abs_of_nonneg (by linarith)]
      linarith
  · have hl : (decDigits n).length = (Nat.digits 10 n).length := by
      unfold decDigits
      rw [if_neg (by omega), List.length_reverse]
    have h1 : (n : ℚ) < 10 ^ (i + 1) := by
      have h2 : n < 10 ^ (Nat.digits 10 n).length := Nat.lt_base_pow_length_digits (by norm_num)
      have h3 : n < 10 ^ (i + 1) := lt_of_lt_of_le h2 (Nat.pow_le_pow_right (by norm_num) (by omega))
      exact_mod_cast h3
    have hk : Int.log 10 x - i ≤ k := by
      by_contra hcon
      have h2 : (n : ℚ) * 10 ^ k < 10 ^ (i + 1) * 10 ^ k := mul_lt_mul_of_pos_right h1 (ten_zpow_pos k)
      rw [← zpow_natCast, ← zpow_add₀ (by norm_num)] at h2
      have h3 : (10 : ℚ) ^ (((i + 1 : ℕ) : ℤ) + k) ≤ 10 ^ Int.log 10 x := zpow_le_zpow_right₀ (by norm_num) (by push_cast; omega)
      linarith
    have e : ((n * 10 ^ (k - (Int.log 10 x - i)).toNat : ℤ) : ℚ) * 10 ^ (Int.log 10 x - i) = n * 10 ^ k := by
      push_cast
      rw [mul_assoc, ← zpow_natCast, ← zpow_add₀ (by norm_num)]
      congr 2
      omega
    exact ⟨n * 10 ^ (k - (Int.log 10 x - i)).toNat, by rw [e]; exact h, by rw [e]⟩

/-- The shortest decimal: it reads back, has at most 17 digits, no decimal that reads back has fewer digits, and none with as many is closer. -/
theorem shortDecimal_spec {x : ℚ} (hx : IsWide x) (h0 : 0 < x) :
    dbl (decimalValue (shortDecimal x)) = x ∧ (shortDecimal x).1 % 10 ≠ 0 ∧ (decDigits (shortDecimal x).1).length ≤ 17 ∧
      ∀ (n : ℕ) (k : ℤ), dbl (n * 10 ^ k) = x → (decDigits (shortDecimal x).1).length ≤ (decDigits n).length ∧
        ((decDigits n).length ≤ (decDigits (shortDecimal x).1).length → |x - decimalValue (shortDecimal x)| ≤ |x - n * 10 ^ k|) := by
  obtain ⟨c, j, hj, hs, hc, hk, hfirst⟩ := shortDecimal_found hx h0
  have hkind : c = nearDecimal x j ∨ c = upDecimal x j := hk.imp id And.left
  obtain ⟨b1, b2, _⟩ := candidate_bounds h0 j hkind
  obtain ⟨d1, d2, d3⟩ := dropZeros_le 17 c b1 (b2.trans (Nat.pow_le_pow_right (by norm_num) (by omega)))
  have hlen : (decDigits (shortDecimal x).1).length ≤ j + 1 := by
    refine decDigits_length (by omega) (lt_of_le_of_ne ?_ ?_)
    · rw [hs]; exact d3.trans b2
    · intro h
      rw [hs] at h
      rw [h, pow_succ, Nat.mul_mod_left] at d2
      exact d2 rfl
  refine ⟨by rw [hs, d1]; exact hc, by rw [hs]; exact d2, by omega, fun n k h => ⟨?_, fun hle => ?_⟩⟩
  · by_contra hcon
    have hpos := decDigits_pos n
    obtain ⟨z, hz, _⟩ := in_units hx h0 h (i := (decDigits n).length - 1) (by omega)
    have hi : (decDigits n).length - 1 < j := by omega
    obtain ⟨f1, f2⟩ := hfirst _ hi
    rw [near_value h0] at f1
    rw [up_value h0] at f2
    rcases candidate_reads hx h0 (ten_zpow_pos _) hz with h1 | ⟨_, _, h1⟩
    · exact f1 h1
    · exact f2 h1
  · obtain ⟨z, hz, hzd⟩ := in_units hx h0 h (i := j) (by omega)
    refine le_trans ?_ hzd
    rw [hs, d1]
    rcases hk with rfl | ⟨rfl, hno⟩
    · rw [near_value h0]
      have hp := ten_zpow_pos (Int.log 10 x - j)
      have e : ∀ r : ℚ, x - r * 10 ^ (Int.log 10 x - j) = (x / 10 ^ (Int.log 10 x - j) - r) * 10 ^ (Int.log 10 x - j) := by
        intro r; field_simp
      rw [e, e, abs_mul, abs_mul]
      exact mul_le_mul_of_nonneg_right (roundHalfEven_nearest _ z) (abs_nonneg _)
    · rw [near_value h0] at hno
      rw [up_value h0]
      obtain ⟨h1, h2, _⟩ := (candidate_reads hx h0 (ten_zpow_pos _) hz).resolve_left hno
      have h3 : x ≤ (⌈x / 10 ^ (Int.log 10 x - j)⌉ : ℚ) * 10 ^ (Int.log 10 x - j) := by
        rw [← div_le_iff₀ (ten_zpow_pos _)]
        exact Int.le_ceil _
      rw [abs_of_nonpos (by linarith), abs_of_nonpos (by linarith)]
      linarith

end PythonDice
