import Verif.Model.Header
import Verif.Spec.Decimal
import Verif.Props.Output
import Mathlib.Data.Int.Log

/-!
# Lemmas for the header line: hundredths are shown as hundredths
-/

namespace PythonDice
open Spec

/-! ## Digits -/

theorem decDigits_small {n : ℕ} (h : n < 10) : decDigits n = [n] := by
  unfold decDigits
  interval_cases n <;> simp

theorem decDigits_step {n : ℕ} (h : 10 ≤ n) : decDigits n = decDigits (n / 10) ++ [n % 10] := by
  unfold decDigits
  rw [if_neg (by omega), if_neg (by omega), Nat.digits_def' (by norm_num) (by omega), List.reverse_cons]

theorem decDigits_pow {n : ℕ} (h : 0 < n) (k : ℕ) : decDigits (n * 10 ^ k) = decDigits n ++ List.replicate k 0 := by
  induction k with
  | zero => simp
  | succ k ih =>
    have hp : 0 < n * 10 ^ k := by positivity
    have e : n * 10 ^ (k + 1) = 10 * (n * 10 ^ k) := by ring
    rw [e, decDigits_step (by omega), Nat.mul_div_cancel_left _ (by norm_num), ih, Nat.mul_mod_right, List.replicate_succ', List.append_assoc]

theorem decDigits_pos (n : ℕ) : 0 < (decDigits n).length := by
  unfold decDigits
  split
  · simp
  · rename_i h
    rw [List.length_reverse]
    exact List.length_pos_iff.2 (Nat.digits_ne_nil_iff_ne_zero.2 h)

theorem decDigits_length {n k : ℕ} (hk : 0 < k) (h : n < 10 ^ k) : (decDigits n).length ≤ k := by
  unfold decDigits
  split
  · simpa using Nat.succ_le_of_lt hk
  · rw [List.length_reverse]
    exact (Nat.digits_length_le_iff (by norm_num) n).2 h

theorem digitText_append (a b : List ℕ) : digitText (a ++ b) = digitText a ++ digitText b := List.map_append

theorem digitText_eq (a : List ℕ) : digitText a = a.map digitChar := rfl

/-! ## The shortest decimal -/

theorem dropZeros_spec : ∀ (k : ℕ) (c : ℕ × ℤ), 0 < c.1 → c.1 < 10 ^ k →
    decimalValue (dropZeros k c) = decimalValue c ∧ (dropZeros k c).1 % 10 ≠ 0 ∧ c.2 ≤ (dropZeros k c).2
  | 0, c, h0, h1 => by rw [pow_zero] at h1; omega
  | k + 1, c, h0, h1 => by
    unfold dropZeros
    split
    · rename_i h
      rw [pow_succ] at h1
      obtain ⟨a, b, d⟩ := dropZeros_spec k (c.1 / 10, c.2 + 1) (by simp only; omega) (by simp only; omega)
      refine ⟨?_, b, by simp only at d; omega⟩
      rw [a]
      unfold decimalValue
      obtain ⟨m, hm⟩ := Nat.dvd_of_mod_eq_zero h
      simp only [hm, Nat.mul_div_cancel_left m (show 0 < 10 by norm_num)]
      rw [zpow_add₀ (by norm_num), zpow_one]
      push_cast
      ring
    · rename_i h
      exact ⟨rfl, h, le_rfl⟩

theorem tiny55 : (1 : ℚ) / 2 ^ 1075 ≤ 1 / 2 ^ 55 := by
  have := tiny
  norm_num at this ⊢
  linarith

/-- Two different numbers of hundredths are different doubles, up to `10 ^ 13`. -/
theorem hundredths_inj {m n : ℕ} (hn : n < 10 ^ 15) (h : dbl ((m : ℚ) / 100) = dbl ((n : ℚ) / 100)) : m = n := by
  have h1 := abs_le.1 (dbl_err' ((m : ℚ) / 100))
  have h2 := abs_le.1 (dbl_err' ((n : ℚ) / 100))
  rw [h] at h1
  rw [abs_of_nonneg (by positivity : (0 : ℚ) ≤ (m : ℚ) / 100)] at h1
  rw [abs_of_nonneg (by positivity : (0 : ℚ) ≤ (n : ℚ) / 100)] at h2
  have ht := tiny55
  generalize (1 : ℚ) / 2 ^ 1075 = t at *
  generalize dbl ((n : ℚ) / 100) = x at *
  have hn' : (n : ℚ) < 1000000000000000 := by exact_mod_cast hn
  norm_num at h1 h2 ht
  obtain ⟨h1, h1'⟩ := h1
  obtain ⟨h2, h2'⟩ := h2
  have h3 : (m : ℚ) < n + 1 := by linarith
  have h4 : (n : ℚ) < m + 1 := by linarith
  have h5 : m < n + 1 := by exact_mod_cast h3
  have h6 : n < m + 1 := by exact_mod_cast h4
  omega

theorem round_hundredths {n : ℕ} (hn : n < 10 ^ 15) : roundHalfEven (100 * dbl ((n : ℚ) / 100)) = n := by
  have h2 := abs_le.1 (dbl_err' ((n : ℚ) / 100))
  rw [abs_of_nonneg (by positivity : (0 : ℚ) ≤ (n : ℚ) / 100)] at h2
  have ht := tiny55
  have h3 := abs_le.1 (roundHalfEven_err (100 * dbl ((n : ℚ) / 100)))
  generalize (1 : ℚ) / 2 ^ 1075 = t at *
  generalize dbl ((n : ℚ) / 100) = x at *
  have hn' : (n : ℚ) < 1000000000000000 := by exact_mod_cast hn
  norm_num at h2 ht
  obtain ⟨h2, h2'⟩ := h2
  obtain ⟨h3, h3'⟩ := h3
  generalize roundHalfEven (100 * x) = z at *
  have h4 : (z : ℚ) < n + 1 := by linarith
  have h5 : (n : ℚ) < z + 1 := by linarith
  have h6 : z < n + 1 := by exact_mod_cast h4
  have h7 : (n : ℤ) < z + 1 := by exact_mod_cast h5
  omega

theorem dbl_hundredth : (1 : ℚ) / 100 ≤ dbl (1 / 100) := by decide +kernel

theorem log_hundredths {n : ℕ} (h0 : 0 < n) (hn : n < 10 ^ 15) :
    -2 ≤ Int.log 10 (dbl ((n : ℚ) / 100)) ∧ Int.log 10 (dbl ((n : ℚ) / 100)) < 14 := by
  have hn' : (n : ℚ) < 1000000000000000 := by exact_mod_cast hn
  have h0' : (1 : ℚ) ≤ n := by exact_mod_cast h0
  have hge : (1 : ℚ) / 100 ≤ dbl ((n : ℚ) / 100) :=
    le_trans dbl_hundredth (dbl_mono (by linarith))
  have h2 := abs_le.1 (dbl_err' ((n : ℚ) / 100))
  rw [abs_of_nonneg (by positivity : (0 : ℚ) ≤ (n : ℚ) / 100)] at h2
  have ht := tiny55
  generalize (1 : ℚ) / 2 ^ 1075 = t at *
  generalize dbl ((n : ℚ) / 100) = x at *
  have hx : 0 < x := by linarith
  constructor
  · rw [← Int.zpow_le_iff_le_log (by norm_num) hx]
    norm_num at hge ⊢
    linarith
  · rw [← Int.lt_zpow_iff_log_lt (by norm_num) hx]
    norm_num at h2 ht ⊢
    obtain ⟨h2, h2'⟩ := h2
    linarith

theorem decimalValue_hundredths (d : ℕ) {e : ℤ} (he : -2 ≤ e) : decimalValue (d, e) = ((d * 10 ^ (e + 2).toNat : ℕ) : ℚ) / 100 := by
  unfold decimalValue
  have : e = ((e + 2).toNat : ℤ) - 2 := by omega
  conv_lhs => rw [this]
  rw [zpow_sub₀ (by norm_num), zpow_natCast]
  push_cast
  norm_num
  ring

theorem candidates_sorted (x : ℚ) (k : ℕ) :
    ((List.range k).flatMap fun i => [nearDecimal x i, upDecimal x i]).Pairwise fun a b => b.2 ≤ a.2 := by
  rw [List.pairwise_flatMap]
  constructor
  · intro i _
    simp [nearDecimal, upDecimal]
  · refine List.pairwise_lt_range.imp ?_
    intro i j hij a ha b hb
    simp only [List.mem_cons, List.not_mem_nil, or_false] at ha hb
    have h1 : a.2 = Int.log 10 x - i := by rcases ha with rfl | rfl <;> rfl
    have h2 : b.2 = Int.log 10 x - j := by rcases hb with rfl | rfl <;> rfl
    omega

/-- The shortest decimal of a double of hundredths is that number of hundredths. -/
theorem shortDecimal_hundredths {n : ℕ} (h0 : 0 < n) (hn : n < 10 ^ 15) :
    -2 ≤ (shortDecimal (dbl ((n : ℚ) / 100))).2 ∧ (shortDecimal (dbl ((n : ℚ) / 100))).1 % 10 ≠ 0 ∧
      (shortDecimal (dbl ((n : ℚ) / 100))).1 * 10 ^ ((shortDecimal (dbl ((n : ℚ) / 100))).2 + 2).toNat = n := by
  obtain ⟨hl1, hl2⟩ := log_hundredths h0 hn
  have hround := round_hundredths hn
  have hinj : ∀ m : ℕ, dbl ((m : ℚ) / 100) = dbl ((n : ℚ) / 100) → m = n := fun m => hundredths_inj hn
  unfold shortDecimal
  generalize hx : dbl ((n : ℚ) / 100) = x at *
  have hw : nearDecimal x (Int.log 10 x + 2).toNat = (n, -2) := by
    unfold nearDecimal
    have e : Int.log 10 x - ((Int.log 10 x + 2).toNat : ℤ) = -2 := by omega
    rw [e]
    have e2 : x / 10 ^ (-2 : ℤ) = 100 * x := by norm_num; ring
    rw [e2, hround, Int.toNat_natCast]
  have hmem : (n, (-2 : ℤ)) ∈ (List.range 17).flatMap fun i => [nearDecimal x i, upDecimal x i] := by
    rw [List.mem_flatMap]
    exact ⟨(Int.log 10 x + 2).toNat, List.mem_range.2 (by omega), by rw [hw]; exact List.mem_cons_self⟩
  have hval : dbl (decimalValue (n, -2)) = x := by
    rw [decimalValue_hundredths n (le_refl _), ← hx]
    norm_num
  have hsorted := candidates_sorted x 17
  generalize (List.range 17).flatMap (fun i => [nearDecimal x i, upDecimal x i]) = L at *
  obtain ⟨c, hc⟩ : ∃ c, L.find? (fun c => decide (dbl (decimalValue c) = x)) = some c := by
    cases h : L.find? (fun c => decide (dbl (decimalValue c) = x)) with
    | some c => exact ⟨c, rfl⟩
    | none =>
      rw [List.find?_eq_none] at h
      exact absurd (decide_eq_true hval) (h _ hmem)
  obtain ⟨hc1, as, bs, hL, has⟩ := List.find?_eq_some_iff_append.1 hc
  have hc2 : -2 ≤ c.2 := by
    subst hL
    rw [List.mem_append] at hmem
    rcases hmem with h | h
    · have := has _ h
      rw [decide_eq_true hval] at this
      cases this
    · rcases List.mem_cons.1 h with h | h
      · rw [← h]
      · have := (List.pairwise_append.1 hsorted).2.1
        rw [List.pairwise_cons] at this
        exact this.1 _ h
  have hceq : decimalValue c = ((c.1 * 10 ^ (c.2 + 2).toNat : ℕ) : ℚ) / 100 := decimalValue_hundredths c.1 hc2
  have hcn : c.1 * 10 ^ (c.2 + 2).toNat = n := hinj _ (by rw [← hceq]; exact of_decide_eq_true hc1)
  have hc0 : 0 < c.1 := by
    rcases Nat.eq_zero_or_pos c.1 with h | h
    · rw [h, zero_mul] at hcn; omega
    · exact h
  have hclt : c.1 < 10 ^ 17 := by
    have : c.1 ≤ c.1 * 10 ^ (c.2 + 2).toNat := Nat.le_mul_of_pos_right _ (by positivity)
    omega
  rw [hc, Option.getD_some]
  obtain ⟨h1, h2, h3⟩ := dropZeros_spec 17 c hc0 hclt
  refine ⟨by omega, h2, ?_⟩
  refine hinj _ ?_
  rw [← decimalValue_hundredths _ (by omega), h1]
  exact of_decide_eq_true hc1

/-! ## Its text -/

theorem replicate_zero_text (k : ℕ) : List.replicate k '0' = digitText (List.replicate k 0) := by
  rw [digitText, List.map_replicate]; rfl

theorem floatText_hundredths (neg : Bool) {n : ℕ} (hn : n < 10 ^ 15) :
    SignedHundredths neg n (floatText neg (dbl ((n : ℚ) / 100))) := by
  refine ⟨_, rfl, ?_⟩
  rcases Nat.eq_zero_or_pos n with h0 | h0
  · subst h0
    rw [if_pos (by simp)]
    refine ⟨['0'], ?_, by decide⟩
    exact decDigits_text 0
  have hx : dbl ((n : ℚ) / 100) ≠ 0 := by
    have h0' : (1 : ℚ) ≤ n := by exact_mod_cast h0
    have : (1 : ℚ) / 100 ≤ dbl ((n : ℚ) / 100) := le_trans dbl_hundredth (dbl_mono (by linarith))
    intro h
    rw [h] at this
    norm_num at this
  rw [if_neg hx]
  obtain ⟨h1, h2, h3⟩ := shortDecimal_hundredths h0 hn
  generalize shortDecimal (dbl ((n : ℚ) / 100)) = c at *
  obtain ⟨d, e⟩ := c
  simp only at h1 h2 h3 ⊢
  have hd0 : 0 < d := by
    rcases Nat.eq_zero_or_pos d with h | h
    · rw [h] at h2; exact absurd rfl h2
    · exact h
  have hlen0 := decDigits_pos d
  refine ⟨(decDigits (n / 100)).map digitChar, decDigits_text _, ?_⟩
  have hcase : e = -2 ∨ e = -1 ∨ 0 ≤ e := by omega
  rcases hcase with rfl | rfl | he
  · simp only [Int.reduceNeg, Int.reduceAdd, Int.toNat_zero, pow_zero, mul_one] at h3
    subst h3
    rw [if_neg h2]
    have hlen : (decDigits d).length ≤ 15 := decDigits_length (by norm_num) hn
    rw [if_pos (by omega)]
    by_cases h10 : d < 10
    · rw [decDigits_small h10]
      have e1 : d / 100 = 0 := by omega
      have e2 : d % 100 / 10 = 0 := by omega
      have e3 : d % 10 = d := by omega
      rw [e1, e2, e3]
      rfl
    · have hs := decDigits_step (n := d) (by omega)
      by_cases h100 : d < 100
      · rw [decDigits_small (n := d / 10) (by omega)] at hs
        rw [hs]
        have e1 : d / 100 = 0 := by omega
        have e2 : d % 100 / 10 = d / 10 := by omega
        rw [e1, e2]
        rfl
      · rw [decDigits_step (n := d / 10) (by omega), Nat.div_div_eq_div_mul, List.append_assoc] at hs
        have hl : 0 < (decDigits (d / (10 * 10))).length := decDigits_pos _
        have hll : ((decDigits d).length : ℤ) = (decDigits (d / (10 * 10))).length + 2 := by
          rw [hs, List.length_append]; rfl
        rw [if_neg (by omega), if_neg (by omega), hll]
        have e1 : (((decDigits (d / (10 * 10))).length : ℤ) + 2 + -2).toNat = (decDigits (d / (10 * 10))).length := by omega
        rw [e1, hs, List.take_left', List.drop_left']
        · have e2 : d / 10 % 10 = d % 100 / 10 := by omega
          rw [e2]
          rfl
        · rfl
        · rfl
  · simp only [Int.reduceNeg, Int.reduceAdd, Int.toNat_one, pow_one] at h3
    subst h3
    rw [if_pos (show d * 10 % 10 = 0 by omega)]
    have hlen : (decDigits d).length ≤ 15 := decDigits_length (by norm_num) (by omega)
    rw [if_pos (by omega)]
    by_cases h10 : d < 10
    · rw [decDigits_small h10]
      have e1 : d * 10 / 100 = 0 := by omega
      have e2 : d * 10 % 100 / 10 = d := by omega
      rw [e1, e2]
      rfl
    · have hs := decDigits_step (n := d) (by omega)
      have hl : 0 < (decDigits (d / 10)).length := decDigits_pos _
      have hll : ((decDigits d).length : ℤ) = (decDigits (d / 10)).length + 1 := by
        rw [hs, List.length_append]; rfl
      rw [if_neg (by omega), if_neg (by omega), hll]
      have e1 : (((decDigits (d / 10)).length : ℤ) + 1 + -1).toNat = (decDigits (d / 10)).length := by omega
      rw [e1, hs, List.take_left', List.drop_left']
      · have e2 : d * 10 / 100 = d / 10 := by omega
        have e3 : d * 10 % 100 / 10 = d % 10 := by omega
        rw [e2, e3]
        rfl
      · rfl
      · rfl
  · have hk : (e + 2).toNat = e.toNat + 2 := by omega
    rw [hk, pow_add] at h3
    have e1 : n = 100 * (d * 10 ^ e.toNat) := by rw [← h3]; ring
    have e2 : n / 100 = d * 10 ^ e.toNat := by omega
    have hm : n % 100 / 10 = 0 := by omega
    have hm2 : n % 10 = 0 := by omega
    have hlen : (decDigits (d * 10 ^ e.toNat)).length ≤ 15 := decDigits_length (by norm_num) (by omega)
    rw [e2, hm, if_pos hm2, decDigits_pow hd0]
    rw [decDigits_pow hd0, List.length_append, List.length_replicate] at hlen
    rw [if_pos (by omega), if_neg (by omega), if_pos (by omega)]
    have e3 : (((decDigits d).length : ℤ) + e - (decDigits d).length).toNat = e.toNat := by omega
    rw [e3, replicate_zero_text, ← digitText_append]
    rfl

end PythonDice
