import Mathlib.Data.Fintype.BigOperators
import Mathlib.Data.Fintype.Pi
import Mathlib.Data.List.OfFn
import Verif.Props.Display

/-!
# C105: how often `roller` returns what

`random()` returns each of the numbers `k / 2^53` equally often.  So the probability with which `roller` returns something is a number of `k` among
`2^53`.  It is compared with the probability according to the die.
-/

namespace PythonDice

open Spec

/-- Does `roller` return something with a property if `random()` returns `k / 2^53`? -/
def returns (o : Obj) (w : World) (p : ℤ → Bool) (k : ℕ) : Bool :=
  match (roller o ((k : ℚ) / 2 ^ 53) w).1 with
  | .ok v => p v
  | .error _ => false

/-- The share of the numbers `random()` can return for which `roller` returns something with a property. -/
def sampled (o : Obj) (w : World) (p : ℤ → Bool) : ℚ :=
  ((Finset.univ.filter fun k : Fin (2 ^ 53) => returns o w p k.val = true).card : ℚ) / 2 ^ 53

/-- Counting the numbers below a bound. -/
theorem card_le_of_lt {N : ℕ} (P : Fin N → Prop) [DecidablePred P] (x : ℚ) (hx : 0 ≤ x) (h : ∀ k, P k → (k.val : ℚ) < x) :
    ((Finset.univ.filter P).card : ℚ) ≤ x + 1 := by
  have h1 : ((Finset.univ.filter P).map Fin.valEmbedding) ⊆ Finset.range ⌈x⌉₊ := by
    intro k hk
    simp only [Finset.mem_map, Finset.mem_filter, Finset.mem_univ, true_and] at hk
    obtain ⟨i, hi, rfl⟩ := hk
    exact Finset.mem_range.2 (Nat.lt_ceil.2 (h i hi))
  have h2 := Finset.card_le_card h1
  rw [Finset.card_map, Finset.card_range] at h2
  have h3 := (Nat.ceil_lt_add_one hx).le
  have h4 : ((Finset.univ.filter P).card : ℚ) ≤ ⌈x⌉₊ := by exact_mod_cast h2
  linarith

theorem le_card_of_lt {N : ℕ} (P : Fin N → Prop) [DecidablePred P] (x : ℚ) (hx : x ≤ N) (h : ∀ k, (k.val : ℚ) < x → P k) :
    x ≤ ((Finset.univ.filter P).card : ℚ) := by
  have hN : ⌈x⌉₊ ≤ N := Nat.ceil_le.2 hx
  have h1 : Finset.range ⌈x⌉₊ ⊆ ((Finset.univ.filter P).map Fin.valEmbedding) := by
    intro k hk
    have hk := Finset.mem_range.1 hk
    simp only [Finset.mem_map, Finset.mem_filter, Finset.mem_univ, true_and]
    exact ⟨⟨k, lt_of_lt_of_le hk hN⟩, h _ (Nat.lt_ceil.1 hk), rfl⟩
  have h2 := Finset.card_le_card h1
  rw [Finset.card_map, Finset.card_range] at h2
  have h4 : (⌈x⌉₊ : ℚ) ≤ ((Finset.univ.filter P).card : ℚ) := by exact_mod_cast h2
  exact (Nat.le_ceil x).trans h4

theorem isUniform_fin (k : Fin (2 ^ 53)) : IsUniform ((k.val : ℚ) / 2 ^ 53) := ⟨k.val, k.isLt, rfl⟩

theorem pr_upTo_le_below {r : RV ℤ} (hr : r.Proper) {a b : ℤ} (hab : a < b) : Pr r.pairs (· ≤ a) ≤ Pr r.pairs (· < b) := by
  have hm : 0 ≤ mass r.pairs := by
    rw [← sumProbs_eq r hr.len]
    positivity
  unfold Pr Ex
  refine div_le_div_of_nonneg_right (wsum_mono fun x _ => ?_) hm
  by_cases h : x.1 ≤ a
  · rw [if_pos h, if_pos (lt_of_le_of_lt h hab)]
  · rw [if_neg h]; split <;> norm_num

theorem pr_upTo_mono {r : RV ℤ} (hr : r.Proper) {a b : ℤ} (hab : a ≤ b) : Pr r.pairs (· ≤ a) ≤ Pr r.pairs (· ≤ b) := by
  have hm : 0 ≤ mass r.pairs := by
    rw [← sumProbs_eq r hr.len]
    positivity
  unfold Pr Ex
  refine div_le_div_of_nonneg_right (wsum_mono fun x _ => ?_) hm
  by_cases h : x.1 ≤ a
  · rw [if_pos h, if_pos (h.trans hab)]
  · rw [if_neg h]; split <;> norm_num

variable {o : Obj} {w w1 : World} {r : RV ℤ}

/-- What `roller` returns for each of the numbers. -/
theorem roller_at (hg : getRv o w = (.ok r, w1)) (hr : r.Proper) (ho : r.sumProbs < RV.floatOverflow) (k : Fin (2 ^ 53)) :
    ∃ x, (∀ p, returns o w p k.val = p x) ∧ (roller o ((k.val : ℚ) / 2 ^ 53) w).1 = .ok x ∧
      Pr r.pairs (· < x) - 1 / 2 ^ 51 ≤ (k.val : ℚ) / 2 ^ 53 ∧ (k.val : ℚ) / 2 ^ 53 < Pr r.pairs (· ≤ x) + 1 / 2 ^ 51 := by
  obtain ⟨x, hx, -, h1, h2, -⟩ := C44_roller_partial o w w1 r hg hr ho _ (isUniform_fin k)
  refine ⟨x, fun p => ?_, by rw [hx], h1, h2⟩
  rw [returns, hx]

/-- **C105** (src/roller.py:122-127): the probability with which `roller` returns at most `v` is that of the die, up to `5 / 2^53`. -/
theorem C105_threshold (o : Obj) (w w1 : World) (r : RV ℤ) (hg : getRv o w = (.ok r, w1)) (hr : r.Proper)
    (ho : r.sumProbs < RV.floatOverflow) (v : ℤ) :
    |sampled o w (fun x => decide (x ≤ v)) - Pr r.pairs (· ≤ v)| ≤ 5 / 2 ^ 53 := by
  obtain ⟨hc0, hc1⟩ := pr_le_one r.pairs (· ≤ v)
  have hup := card_le_of_lt (N := 2 ^ 53) (fun k => returns o w (fun x => decide (x ≤ v)) k.val = true)
    ((Pr r.pairs (· ≤ v) + 1 / 2 ^ 51) * 2 ^ 53) (by positivity) (by
      intro k hk
      obtain ⟨x, hx, -, -, h2⟩ := roller_at hg hr ho k
      rw [hx, decide_eq_true_eq] at hk
      have := pr_upTo_mono hr hk
      rw [← div_lt_iff₀ (by positivity)]
      linarith)
  have hlo := le_card_of_lt (N := 2 ^ 53) (fun k => returns o w (fun x => decide (x ≤ v)) k.val = true)
    ((Pr r.pairs (· ≤ v) - 1 / 2 ^ 51) * 2 ^ 53) (by
      rw [Nat.cast_pow, Nat.cast_ofNat]
      have h : (Pr r.pairs (· ≤ v) - 1 / 2 ^ 51) ≤ 1 := by
        have : (0 : ℚ) ≤ 1 / 2 ^ 51 := by positivity
        linarith
      exact mul_le_of_le_one_left (by positivity) h) (by
      intro k hk
      obtain ⟨x, hx, -, h1, -⟩ := roller_at hg hr ho k
      rw [hx, decide_eq_true_eq]
      by_contra hlt
      have := pr_upTo_le_below hr (not_le.1 hlt)
      rw [← div_lt_iff₀ (by positivity)] at hk
      linarith)
  rw [sampled, abs_le, neg_le_sub_iff_le_add, sub_le_iff_le_add]
  constructor
  · rw [← sub_le_iff_le_add, le_div_iff₀ (by positivity)]
    refine le_trans ?_ hlo
    have : (1 : ℚ) / 2 ^ 51 ≤ 5 / 2 ^ 53 := by norm_num
    exact mul_le_mul_of_nonneg_right (by linarith) (by positivity)
  · rw [div_le_iff₀ (by positivity)]
    refine hup.trans (le_of_eq ?_)
    ring

theorem card_split {N : ℕ} (P Q R : Fin N → Prop) [DecidablePred P] [DecidablePred Q] [DecidablePred R] (h : ∀ k, R k ↔ P k ∨ Q k)
    (hd : ∀ k, P k → ¬ Q k) : (Finset.univ.filter P).card + (Finset.univ.filter Q).card = (Finset.univ.filter R).card := by
  rw [← Finset.card_union_of_disjoint]
  · congr 1
    ext k
    simp [h]
  · rw [Finset.disjoint_left]
    intro k
    simp only [Finset.mem_filter, Finset.mem_univ, true_and]
    exact hd k

theorem returns_iff (o : Obj) (w : World) (p : ℤ → Bool) (k : ℕ) :
    returns o w p k = true ↔ ∃ v, (roller o ((k : ℚ) / 2 ^ 53) w).1 = .ok v ∧ p v = true := by
  unfold returns
  generalize (roller o ((k : ℚ) / 2 ^ 53) w).1 = x
  cases x <;> simp

theorem sampled_split (o : Obj) (w : World) (a b : ℤ) (hab : a ≤ b + 1) :
    sampled o w (fun x => decide (a ≤ x ∧ x ≤ b)) = sampled o w (fun x => decide (x ≤ b)) - sampled o w (fun x => decide (x ≤ a - 1)) := by
  rw [sampled, sampled, sampled, ← sub_div, eq_comm]
  congr 1
  rw [sub_eq_iff_eq_add, ← Nat.cast_add, Nat.cast_inj, eq_comm]
  refine card_split _ _ _ (fun k => ?_) (fun k => ?_)
  · simp only [returns_iff, decide_eq_true_eq]
    constructor
    · rintro ⟨v, hv, h⟩
      by_cases ha : a ≤ v
      · exact .inl ⟨v, hv, ha, h⟩
      · exact .inr ⟨v, hv, by omega⟩
    · rintro (⟨v, hv, h⟩ | ⟨v, hv, h⟩)
      · exact ⟨v, hv, h.2⟩
      · exact ⟨v, hv, by omega⟩
  · simp only [returns_iff, decide_eq_true_eq]
    rintro ⟨v, hv, h⟩ ⟨v', hv', h'⟩
    rw [hv] at hv'
    cases hv'
    omega

theorem pr_between (r : RV ℤ) (a b : ℤ) (hab : a ≤ b + 1) :
    Pr r.pairs (fun x => a ≤ x ∧ x ≤ b) = Pr r.pairs (· ≤ b) - Pr r.pairs (· ≤ a - 1) := by
  unfold Pr Ex
  rw [← sub_div]
  congr 1
  induction r.pairs with
  | nil => simp [wsum]
  | cons x l ih =>
    simp only [wsum, List.map_cons, List.sum_cons] at ih ⊢
    have hx : (if a ≤ x.1 ∧ x.1 ≤ b then (1 : ℚ) else 0) = (if x.1 ≤ b then 1 else 0) - if x.1 ≤ a - 1 then 1 else 0 := by
      split_ifs <;> first | omega | norm_num
    rw [ih, hx]
    ring

/-- The probability that what `roller` returns lies in an interval. -/
theorem C105_between (o : Obj) (w w1 : World) (r : RV ℤ) (hg : getRv o w = (.ok r, w1)) (hr : r.Proper)
    (ho : r.sumProbs < RV.floatOverflow) (a b : ℤ) (hab : a ≤ b + 1) :
    |sampled o w (fun x => decide (a ≤ x ∧ x ≤ b)) - Pr r.pairs (fun x => a ≤ x ∧ x ≤ b)| ≤ 10 / 2 ^ 53 := by
  rw [sampled_split o w a b hab, pr_between r a b hab]
  have h1 := abs_le.1 (C105_threshold o w w1 r hg hr ho b)
  have h2 := abs_le.1 (C105_threshold o w w1 r hg hr ho (a - 1))
  rw [abs_le]
  constructor <;> linarith

/-- The probability of an outcome. -/
theorem C105_outcome (o : Obj) (w w1 : World) (r : RV ℤ) (hg : getRv o w = (.ok r, w1)) (hr : r.Proper)
    (ho : r.sumProbs < RV.floatOverflow) (v : ℤ) :
    |sampled o w (fun x => decide (x = v)) - Pr r.pairs (· = v)| ≤ 10 / 2 ^ 53 := by
  have h := C105_between o w w1 r hg hr ho v v (by omega)
  have e1 : (fun x : ℤ => decide (v ≤ x ∧ x ≤ v)) = fun x => decide (x = v) := by
    funext x
    exact decide_eq_decide.2 (by omega)
  have e2 : Pr r.pairs (fun x => v ≤ x ∧ x ≤ v) = Pr r.pairs (· = v) := by
    unfold Pr
    congr 1
    funext x
    exact if_congr (by omega) rfl rfl
  rwa [e1, e2] at h

/-! ## Several rolls -/

/-- Does `roller(o, n)` return these outcomes if the calls of `random()` return these multiples of `1 / 2^53`? -/
def returnsAll (o : Obj) (w : World) (vs : List ℤ) (ks : List ℕ) : Bool :=
  match (rollerN o (ks.map fun k : ℕ => (k : ℚ) / 2 ^ 53) w).1 with
  | .ok xs => decide (xs = vs)
  | .error _ => false

/-- The share of what `n` calls of `random()` can return for which `roller(o, n)` returns these outcomes. -/
def sampledAll (o : Obj) (w : World) {n : ℕ} (vs : Fin n → ℤ) : ℚ :=
  ((Finset.univ.filter fun k : Fin n → Fin (2 ^ 53) => returnsAll o w (List.ofFn vs) (List.ofFn fun i => (k i).val) = true).card : ℚ) / (2 ^ 53) ^ n

theorem choices_list (r : RV ℤ) (w : World) : ∀ (us : List ℚ) (vs : List ℤ),
    (M.forList (fun u => M.ofSettings fun _ => choices r u) us w).1 = .ok vs ↔ List.Forall₂ (fun u v => choices r u = .ok v) us vs
  | [], vs => by
    change Except.ok [] = Except.ok vs ↔ _
    cases vs <;> simp
  | u :: us, vs => by
    have e : M.forList (fun u => M.ofSettings fun _ => choices r u) (u :: us) w =
        (M.bind (M.ofSettings fun _ => choices r u) fun y => M.bind (M.forList (fun u => M.ofSettings fun _ => choices r u) us) fun ys =>
          M.pure (y :: ys)) w := rfl
    have ih := choices_list r w us
    rw [e]
    generalize hf : M.forList (fun u => M.ofSettings fun _ => choices r u) us = f at ih
    unfold M.bind M.ofSettings M.pure
    dsimp only
    cases hc : choices r u with
    | error e =>
      dsimp only
      constructor
      · intro h; cases h
      · intro h
        cases h with
        | cons h _ => rw [hc] at h; cases h
    | ok y =>
      dsimp only
      generalize hx : f w = x at ih
      obtain ⟨x, w'⟩ := x
      cases x with
      | error e =>
        dsimp only at ih ⊢
        constructor
        · intro h; cases h
        · intro h
          cases h with
          | cons _ h => exact absurd ((ih _).2 h) (by simp)
      | ok ys =>
        dsimp only at ih ⊢
        constructor
        · intro h
          cases h
          exact .cons hc ((ih ys).1 rfl)
        · intro h
          cases h with
          | cons h1 h2 =>
            rw [hc] at h1
            cases h1
            cases (ih _).2 h2
            rfl

theorem forall_ofFn {α β : Type} (R : α → β → Prop) : ∀ {n : ℕ} (f : Fin n → α) (g : Fin n → β),
    List.Forall₂ R (List.ofFn f) (List.ofFn g) ↔ ∀ i, R (f i) (g i)
  | 0, f, g => by simp
  | n + 1, f, g => by
    rw [List.ofFn_succ, List.ofFn_succ, List.forall₂_cons, forall_ofFn R, Fin.forall_fin_succ]

theorem card_all {N n : ℕ} (P : Fin n → Fin N → Prop) [∀ i, DecidablePred (P i)] (Q : (Fin n → Fin N) → Prop) [DecidablePred Q]
    (h : ∀ k, Q k ↔ ∀ i, P i (k i)) : (Finset.univ.filter Q).card = ∏ i, (Finset.univ.filter (P i)).card := by
  rw [← Fintype.card_piFinset]
  congr 1
  ext k
  simp [h]

/-- Several rolls are independent: the probability of outcomes in this order is the product of their probabilities in single rolls. -/
theorem C105_independent (o : Obj) (w w1 : World) (r : RV ℤ) (hg : getRv o w = (.ok r, w1)) {n : ℕ} (vs : Fin n → ℤ) :
    sampledAll o w vs = ∏ i, sampled o w (fun x => decide (x = vs i)) := by
  unfold sampledAll sampled
  rw [Finset.prod_div_distrib, Finset.prod_const, Finset.card_univ, Fintype.card_fin, ← Nat.cast_prod]
  congr 2
  refine card_all _ _ fun k => ?_
  have h1 : ∀ (u : ℚ), roller o u w = (choices r u, w1) := by
    intro u
    unfold roller
    rw [M.bind_ok hg]
    rfl
  have h2 : ∀ us : List ℚ, rollerN o us w = M.forList (fun u => M.ofSettings fun _ => choices r u) us w1 := by
    intro us
    unfold rollerN
    rw [M.bind_ok hg]
  have h3 : returnsAll o w (List.ofFn vs) (List.ofFn fun i => (k i).val) = true ↔
      (rollerN o ((List.ofFn fun i => (k i).val).map fun k : ℕ => (k : ℚ) / 2 ^ 53) w).1 = .ok (List.ofFn vs) := by
    unfold returnsAll
    generalize (rollerN o ((List.ofFn fun i => (k i).val).map fun k : ℕ => (k : ℚ) / 2 ^ 53) w).1 = x
    cases x <;> simp
  rw [h3, h2, choices_list, List.map_ofFn, forall_ofFn]
  refine forall_congr' fun i => ?_
  rw [returns_iff, h1]
  simp

/-- A die with an outcome that is twice as frequent. -/
example (w : World) : |sampled (.rv ⟨[1, 2, 4], [1, 2, 1], none⟩) w (fun x => decide (x = 2)) - 1 / 2| ≤ 10 / 2 ^ 53 := by
  have h := C105_outcome (.rv ⟨[1, 2, 4], [1, 2, 1], none⟩) w w ⟨[1, 2, 4], [1, 2, 1], none⟩ rfl
    ⟨rfl, by simp, by simp, by norm_num [mass, wsum, RV.pairs]⟩ (show ([1, 2, 1] : List ℕ).sum < RV.floatOverflow by decide +kernel) 2
  rwa [show Pr (RV.pairs ⟨[1, 2, 4], [1, 2, 1], none⟩) (· = (2 : ℤ)) = 1 / 2 by decide +kernel] at h

/-- Three rolls of it giving 1, 2 and 4. -/
example (w : World) : sampledAll (.rv ⟨[1, 2, 4], [1, 2, 1], none⟩) w (fun i : Fin 3 => 2 ^ (i : ℕ)) =
    ∏ i : Fin 3, sampled (.rv ⟨[1, 2, 4], [1, 2, 1], none⟩) w (fun x => decide (x = 2 ^ (i : ℕ))) :=
  C105_independent _ w w _ rfl _

end PythonDice
