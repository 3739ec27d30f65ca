import Verif.Proofs.Expect
import Mathlib.Data.Nat.Choose.Sum
import Mathlib.Algebra.BigOperators.Fin
import Mathlib.Algebra.BigOperators.Field
import Mathlib.Logic.Equiv.Fin.Basic

/-!
# Lemmas: the binomial law
-/

namespace PythonDice.Enum
open Spec
open Spec.Naive (Law mean push andThen draws rolls sure)

/-- The mean over the number of successes of so many independent attempts. -/
theorem mean_draws_countP {b : Law} (tb : mean b (fun _ => 1) = 1) (P : ℤ → Prop) [DecidablePred P] (n : ℕ) (f : ℕ → ℚ) :
    mean (draws b n) (fun xs => f (xs.countP fun x => P x)) = ∑ i ∈ Finset.range (n + 1),
      (n.choose i : ℚ) * (mean b fun x => if P x then 1 else 0) ^ i * (1 - mean b fun x => if P x then 1 else 0) ^ (n - i) * f i := by
  generalize hp : (mean b fun x => if P x then 1 else 0) = p
  induction n generalizing f with
  | zero => rw [mean_draws_zero]; simp
  | succ n ih =>
    rw [mean_draws_succ]
    have e : ∀ x, (mean (draws b n) fun xs => f ((x :: xs).countP fun x => P x)) =
        (mean (draws b n) fun xs => f (xs.countP fun x => P x)) + (if P x then 1 else 0) *
          ((mean (draws b n) fun xs => f (xs.countP (fun x => P x) + 1)) - mean (draws b n) fun xs => f (xs.countP fun x => P x)) := by
      intro x
      by_cases h : P x
      · simp [h]
      · simp [h]
    simp only [e]
    rw [mean_add, mean_const, tb, show (fun x : ℤ => (if P x then (1 : ℚ) else 0) *
          ((mean (draws b n) fun xs => f (xs.countP (fun x => P x) + 1)) - mean (draws b n) fun xs => f (xs.countP fun x => P x))) =
        fun x => ((mean (draws b n) fun xs => f (xs.countP (fun x => P x) + 1)) - mean (draws b n) fun xs => f (xs.countP fun x => P x)) *
          (if P x then (1 : ℚ) else 0) by funext x; ring, mean_mul_left, hp, ih, ih fun i => f (i + 1)]
    have h1 : ∀ i ∈ Finset.range (n + 1), ((n + 1).choose (i + 1) : ℚ) * p ^ (i + 1) * (1 - p) ^ (n + 1 - (i + 1)) * f (i + 1) =
        p * ((n.choose i : ℚ) * p ^ i * (1 - p) ^ (n - i) * f (i + 1)) +
          (n.choose (i + 1) : ℚ) * p ^ (i + 1) * (1 - p) ^ (n + 1 - (i + 1)) * f (i + 1) := by
      intro i _
      rw [Nat.choose_succ_succ, Nat.add_sub_add_right]
      push_cast
      ring
    have h2 : ∑ i ∈ Finset.range (n + 1), (1 - p) * ((n.choose i : ℚ) * p ^ i * (1 - p) ^ (n - i) * f i) =
        ∑ i ∈ Finset.range (n + 1), (n.choose i : ℚ) * p ^ i * (1 - p) ^ (n + 1 - i) * f i := by
      refine Finset.sum_congr rfl fun i hi => ?_
      rw [Nat.succ_sub (by simpa [Nat.lt_succ_iff] using hi), pow_succ]
      ring
    rw [Finset.sum_range_succ' _ (n + 1), Finset.sum_congr rfl h1, Finset.sum_add_distrib, ← Finset.mul_sum]
    have h3 : ∑ i ∈ Finset.range (n + 1), (n.choose (i + 1) : ℚ) * p ^ (i + 1) * (1 - p) ^ (n + 1 - (i + 1)) * f (i + 1) +
        ((n + 1).choose 0 : ℚ) * p ^ 0 * (1 - p) ^ (n + 1 - 0) * f 0 =
        ∑ i ∈ Finset.range (n + 1), (n.choose i : ℚ) * p ^ i * (1 - p) ^ (n + 1 - i) * f i := by
      have := Finset.sum_range_succ' (fun i => (n.choose i : ℚ) * p ^ i * (1 - p) ^ (n + 1 - i) * f i) (n + 1)
      rw [Finset.sum_range_succ _ (n + 1), Nat.choose_succ_self] at this
      simp only [Nat.choose_zero_right] at this ⊢
      simpa using this.symm
    rw [add_assoc, h3, ← h2, ← Finset.mul_sum]
    ring

/-- The place `k` of the numbers in descending order is at least `t` when at least `k` of them are. -/
theorem elemAt_ge (xs : List ℤ) (t : ℤ) {i : ℕ} (hi : i < xs.length) :
    t ≤ Naive.elemAt (descending xs) (1 + i) ↔ i + 1 ≤ xs.countP fun x => t ≤ x := by
  have hp := Spec.descending_perm xs
  have hs := Spec.descending_sorted xs
  rw [← hp.countP_eq]
  have hl := hp.length_eq
  generalize descending xs = s at hp hs hl
  have hi' : i < s.length := by omega
  have e : Naive.elemAt s (1 + i) = s[i] := by
    unfold Naive.elemAt
    rw [if_pos (by omega)]
    have : ((1 + i : ℤ) - 1).toNat = i := by omega
    simp [hi']
  rw [e]
  clear e hp hl hi xs
  induction s generalizing i with
  | nil => simp at hi'
  | cons x s ih =>
    rw [List.pairwise_cons] at hs
    cases i with
    | zero =>
      rw [List.getElem_cons_zero, List.countP_cons]
      constructor
      · intro h; simp [h]
      · intro h
        by_contra hx
        rw [if_neg (by simpa using hx)] at h
        have : 0 < s.countP fun x => t ≤ x := by omega
        obtain ⟨y, hy, hy'⟩ := List.countP_pos_iff.1 this
        have := hs.1 y hy
        have h2 : t ≤ y := by simpa using hy'
        omega
    | succ i =>
      have hi : i < s.length := by simpa using hi'
      rw [List.getElem_cons_succ]
      refine (ih hs.2 hi).trans ?_
      rw [List.countP_cons]
      by_cases hx : t ≤ x
      · simp [hx]
      · rw [if_neg (by simpa using hx)]
        have : s.countP (fun x => decide (t ≤ x)) = 0 := by
          rw [List.countP_eq_zero]
          intro y hy
          have := hs.1 y hy
          simp; omega
        omega

/-! ## Fair dice -/

theorem mean_fair (m : ℕ) (f : ℤ → ℚ) : mean (Naive.uniform (Naive.interval 1 m)) f = (∑ x ∈ Finset.range m, f (x + 1)) / m := by
  have hl : (Naive.interval 1 m).length = m := by simp [Naive.interval]
  rw [Naive.uniform, hl]
  have : ∀ t : List ℤ, mean (t.map fun x => (x, 1 / (m : ℚ))) f = (t.map f).sum / m := by
    intro t
    induction t with
    | nil => simp [mean]
    | cons x t ih => rw [List.map_cons, mean_cons, ih, List.map_cons, List.sum_cons]; ring
  rw [this, Naive.interval, List.map_map]
  congr 1
  have e : ((m : ℤ) + 1 - 1).toNat = m := by omega
  rw [e]
  have : ∀ k : ℕ, ((List.range k).map (f ∘ fun i : ℕ => 1 + (i : ℤ))).sum = ∑ x ∈ Finset.range k, f (x + 1) := by
    intro k
    induction k with
    | zero => simp
    | succ k ih => rw [List.range_succ, List.map_append, List.sum_append, ih, Finset.sum_range_succ]; simp [add_comm]
  exact this m

theorem fair_total {m : ℕ} (hm : 0 < m) : mean (Naive.uniform (Naive.interval 1 m)) (fun _ => 1) = 1 := by
  have : (m : ℚ) ≠ 0 := by exact_mod_cast hm.ne'
  rw [mean_fair]
  simp [this]

/-- How often a sum comes up when all the rolls are listed. -/
theorem mean_draws_fair {m : ℕ} (hm : 0 < m) (n : ℕ) (f : ℤ → ℚ) : sumMean (Naive.uniform (Naive.interval 1 m)) n f =
    (∑ r : Fin n → Fin m, f (∑ i, ((r i : ℕ) + 1 : ℤ))) / (m : ℚ) ^ n := by
  have hm' : (m : ℚ) ≠ 0 := by exact_mod_cast hm.ne'
  induction n generalizing f with
  | zero => simp [sumMean_zero]
  | succ n ih =>
    rw [sumMean_succ, mean_fair]
    simp only [ih]
    rw [← (Fin.consEquiv fun _ => Fin m).sum_comp, Fintype.sum_prod_type, ← Fin.sum_univ_eq_sum_range
      (fun x => (∑ r : Fin n → Fin m, f ((x : ℤ) + 1 + ∑ i, ((r i : ℕ) + 1 : ℤ))) / (m : ℚ) ^ n) m, ← Finset.sum_div, div_div, ← pow_succ]
    simp [Fin.consEquiv, Fin.sum_univ_succ]

/-- `t` choose `n`, which is 0 if `t` is negative. -/
def choose (t : ℤ) (n : ℕ) : ℚ := if 0 ≤ t then t.toNat.choose n else 0

theorem choose_sub (t : ℤ) (n : ℕ) : choose t n = choose (t + 1) (n + 1) - choose t (n + 1) := by
  unfold choose
  rcases lt_trichotomy t (-1) with h | h | h
  · rw [if_neg (by omega), if_neg (by omega), if_neg (by omega)]; simp
  · subst h; simp
  · rw [if_pos (by omega), if_pos (by omega), if_pos (by omega)]
    have : (t + 1).toNat = t.toNat + 1 := by omega
    rw [this, Nat.choose_succ_succ]
    push_cast
    ring

theorem choose_hockey (m : ℕ) (t : ℤ) (n : ℕ) : ∑ x ∈ Finset.range m, choose (t - (x + 1)) n = choose t (n + 1) - choose (t - m) (n + 1) := by
  induction m with
  | zero => simp
  | succ m ih =>
    rw [Finset.sum_range_succ, ih, choose_sub (t - (m + 1))]
    have : t - (m + 1) + 1 = t - (m : ℤ) := by ring
    rw [this]
    push_cast
    ring

/-- The number of ways to get `s` with `n + 1` dice with `m` sides: de Moivre's formula. -/
def moivre (m n : ℕ) (s : ℤ) : ℚ := ∑ k ∈ Finset.range (n + 2), (-1) ^ k * ((n + 1).choose k : ℚ) * choose (s - m * k - 1) n

theorem moivre_succ (m n : ℕ) (s : ℤ) : ∑ x ∈ Finset.range m, moivre m n (s - (x + 1)) = moivre m (n + 1) s := by
  unfold moivre
  rw [Finset.sum_comm]
  have h : ∀ k ∈ Finset.range (n + 2), ∑ x ∈ Finset.range m, (-1) ^ k * ((n + 1).choose k : ℚ) * choose (s - (x + 1) - m * k - 1) n =
      (-1) ^ k * ((n + 1).choose k : ℚ) * choose (s - m * k - 1) (n + 1) +
      (-1) ^ (k + 1) * ((n + 1).choose k : ℚ) * choose (s - m * (k + 1 : ℕ) - 1) (n + 1) := by
    intro k _
    rw [← Finset.mul_sum]
    have : ∀ x ∈ Finset.range m, choose (s - (x + 1) - m * k - 1) n = choose (s - m * k - 1 - (x + 1)) n := by
      intro x _
      congr 1
      ring
    rw [Finset.sum_congr rfl this, choose_hockey]
    have : s - m * k - 1 - m = s - m * (k + 1 : ℕ) - 1 := by push_cast; ring
    rw [this]
    ring
  rw [Finset.sum_congr rfl h, Finset.sum_add_distrib, Finset.sum_range_succ' _ (n + 2), ]
  have h2 : ∀ k ∈ Finset.range (n + 2), (-1 : ℚ) ^ (k + 1) * ((n + 1 + 1).choose (k + 1) : ℚ) * choose (s - m * (k + 1 : ℕ) - 1) (n + 1) =
      (-1) ^ (k + 1) * ((n + 1).choose k : ℚ) * choose (s - m * (k + 1 : ℕ) - 1) (n + 1) +
      (-1) ^ (k + 1) * ((n + 1).choose (k + 1) : ℚ) * choose (s - m * (k + 1 : ℕ) - 1) (n + 1) := by
    intro k _
    rw [Nat.choose_succ_succ]
    push_cast
    ring
  rw [Finset.sum_congr rfl h2, Finset.sum_add_distrib]
  have h3 := Finset.sum_range_succ' (fun k : ℕ => (-1 : ℚ) ^ k * ((n + 1).choose k : ℚ) * choose (s - m * k - 1) (n + 1)) (n + 2)
  rw [Finset.sum_range_succ, Nat.choose_succ_self] at h3
  simp only [Nat.choose_zero_right, Nat.cast_zero, mul_zero, zero_mul, add_zero] at h3 ⊢
  rw [h3]
  ring

theorem sum_fair {m : ℕ} (hm : 0 < m) (n : ℕ) (s : ℤ) :
    sumMean (Naive.uniform (Naive.interval 1 m)) (n + 1) (fun x => if x = s then 1 else 0) = moivre m n s / (m : ℚ) ^ (n + 1) := by
  have hm' : (m : ℚ) ≠ 0 := by exact_mod_cast hm.ne'
  induction n generalizing s with
  | zero =>
    rw [sumMean_succ, mean_fair]
    simp only [sumMean_zero]
    have e : ∑ x ∈ Finset.range m, (if (x : ℤ) + 1 + 0 = s then (1 : ℚ) else 0) = if 1 ≤ s ∧ s ≤ m then 1 else 0 := by
      split_ifs with h
      · rw [Finset.sum_eq_single_of_mem (s - 1).toNat (by simp; omega)]
        · rw [if_pos (by omega)]
        · intro x _ hx
          rw [if_neg (by omega)]
      · refine Finset.sum_eq_zero fun x hx => if_neg ?_
        have := Finset.mem_range.1 hx
        omega
    rw [e]
    simp only [moivre, choose, Finset.sum_range_succ, Finset.sum_range_zero]
    simp only [Nat.choose_zero_right, zero_add, pow_one, pow_zero, Nat.choose_self, Nat.cast_one, mul_one, Nat.cast_zero, mul_zero, sub_zero]
    split_ifs <;> first | omega | simp
  | succ n ih =>
    rw [sumMean_succ, mean_fair, ← moivre_succ, Finset.sum_div, Finset.sum_div]
    refine Finset.sum_congr rfl fun x _ => ?_
    have : (fun y : ℤ => if (x : ℤ) + 1 + y = s then (1 : ℚ) else 0) = fun y => if y = s - (x + 1) then 1 else 0 := by
      funext y
      by_cases h : y = s - (x + 1)
      · rw [if_pos (by omega), if_pos h]
      · rw [if_neg (by omega), if_neg h]
    rw [this, ih, div_div, pow_succ _ (n + 1)]

/-! ## Exploding fair dice -/

theorem explode_fair_low {m : ℕ} (hm : 0 < m) (e : ℕ) {t : ℤ} (ht : t ≤ 0) :
    mean (Naive.explodeLaw (Naive.uniform (Naive.interval 1 m)) m e) (fun x => if x = t then 1 else 0) = 0 := by
  have base : ∀ t : ℤ, t ≤ 0 → mean (Naive.uniform (Naive.interval 1 m)) (fun x => if x = t then 1 else 0) = 0 := by
    intro t ht
    rw [mean_fair, Finset.sum_eq_zero fun x _ => if_neg (by omega), zero_div]
  induction e generalizing t with
  | zero => exact base t ht
  | succ e ih =>
    rw [Naive.explodeLaw, mean_andThen, mean_fair, Finset.sum_eq_zero, zero_div]
    intro x hx
    split_ifs with h
    · rw [mean_push]
      have : (fun y : ℤ => if (x : ℤ) + 1 + y = t then (1 : ℚ) else 0) = fun y => if y = t - (x + 1) then 1 else 0 := by
        funext y
        by_cases h : y = t - (x + 1)
        · rw [if_pos (by omega), if_pos h]
        · rw [if_neg (by omega), if_neg h]
      rw [this, ih (by omega)]
    · rw [mean_sure, if_neg (by omega)]

theorem explode_fair {m : ℕ} (hm : 0 < m) {e i v : ℕ} (hi : i ≤ e) (h1 : 1 ≤ v) (h2 : v < m ∨ v = m ∧ i = e) :
    mean (Naive.explodeLaw (Naive.uniform (Naive.interval 1 m)) m e) (fun x => if x = m * i + v then 1 else 0) = 1 / (m : ℚ) ^ (i + 1) := by
  induction e generalizing i with
  | zero =>
    obtain rfl : i = 0 := by omega
    rw [Naive.explodeLaw, mean_fair, Finset.sum_eq_single_of_mem (v - 1) (by simp; omega)]
    · rw [if_pos (by push_cast [h1]; ring)]; simp
    · intro x _ hx
      rw [if_neg (by push_cast; omega)]
  | succ e ih =>
    have shift : ∀ x t : ℤ, (fun y : ℤ => if x + y = t then (1 : ℚ) else 0) = fun y => if y = t - x then 1 else 0 := by
      intro x t
      funext y
      by_cases h : y = t - x
      · rw [if_pos (by omega), if_pos h]
      · rw [if_neg (by omega), if_neg h]
    rw [Naive.explodeLaw, mean_andThen, mean_fair]
    cases i with
    | zero =>
      have hv : v < m := by omega
      rw [Finset.sum_eq_single_of_mem (v - 1) (by simp; omega)]
      · rw [if_neg (by omega), mean_sure, if_pos (by push_cast [h1]; ring)]; simp
      · intro x _ hx
        split_ifs with h
        · rw [mean_push, shift, explode_fair_low hm e (by push_cast; omega)]
        · rw [mean_sure, if_neg (by push_cast; omega)]
    | succ i =>
      rw [Finset.sum_eq_single_of_mem (m - 1) (by simp; omega)]
      · rw [if_pos (by omega), mean_push, shift]
        have : (m : ℤ) * (i + 1 : ℕ) + v - (((m - 1 : ℕ) : ℤ) + 1) = m * i + v := by
          rw [Nat.cast_sub hm]; push_cast; ring
        rw [this, ih (by omega) (by omega), pow_succ _ (i + 1), div_div]
      · intro x hx hx'
        have := Finset.mem_range.1 hx
        rw [if_neg (by omega), mean_sure, if_neg]
        intro h
        have h3 : (m : ℤ) * (i + 1 : ℕ) = m * i + m := by push_cast; ring
        have h4 : (0 : ℤ) ≤ m * i := by positivity
        omega

end PythonDice.Enum
