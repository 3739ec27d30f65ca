import Verif.Proofs.Sorted
import Verif.Props.Mix

/-!
# C28 (probability reduction), C29 (filter), C49 (cdf), C50 (unary operators)
-/

namespace PythonDice
open Spec

variable {α : Type} [LinearOrder α] [PyVal α]

/-! ## C28 -/

omit [PyVal α] in
theorem reduce_split (l : List (α × ℕ)) (N : ℕ) (hN : 0 < N) (A : α → Prop) [DecidablePred A] :
    (N : ℚ) * wsum (l.map fun x => (x.1, x.2 / N)) (fun v => if A v then 1 else 0) ≤
        wsum l (fun v => if A v then 1 else 0) ∧
      wsum l (fun v => if A v then 1 else 0) ≤
        N * wsum (l.map fun x => (x.1, x.2 / N)) (fun v => if A v then 1 else 0) +
          N * ((l.filter fun x => A x.1).length : ℚ) := by
  induction l with
  | nil => simp
  | cons x l ih =>
    obtain ⟨h1, h2⟩ := ih
    simp only [List.map_cons, wsum_cons]
    by_cases hA : A x.1
    · have e1 : N * (x.2 / N) ≤ x.2 := Nat.mul_div_le _ _
      have e2 : x.2 < N * (x.2 / N) + N := by
        have := Nat.lt_div_mul_add (a := x.2) hN; rw [mul_comm] at this; exact this
      have e1' : (N : ℚ) * ((x.2 / N : ℕ) : ℚ) ≤ x.2 := by exact_mod_cast e1
      have e2' : (x.2 : ℚ) ≤ N * ((x.2 / N : ℕ) : ℚ) + N := by exact_mod_cast e2.le
      simp only [hA, if_true, decide_true, List.filter_cons_of_pos, List.length_cons]
      push_cast at *
      constructor <;> linarith
    · simp only [hA, if_false, decide_false, mul_zero, zero_add]
      rw [List.filter_cons_of_neg (by simpa using hA)]
      exact ⟨h1, h2⟩

omit [PyVal α] in
theorem ind_compl (l : List (α × ℕ)) (A : α → Prop) [DecidablePred A] :
    wsum l (fun v => if A v then 1 else 0) + wsum l (fun v => if ¬ A v then 1 else 0) = mass l := by
  rw [← wsum_add, mass]
  apply wsum_congr
  intro x _ _
  by_cases h : A x.1 <;> simp [h]

omit [PyVal α] in
theorem Pr_compl {l : List (α × ℕ)} (hm : mass l ≠ 0) (A : α → Prop) [DecidablePred A] :
    Pr l (fun v => ¬ A v) = 1 - Pr l A := by
  have := ind_compl l A
  simp only [Pr, Ex]
  rw [eq_sub_iff_add_eq, ← add_div, add_comm, this, div_self hm]

omit [PyVal α] in
/-- Dividing all weights by `N` (rounding down) changes the probability of any event by at most
`n * N / total`. -/
theorem reduce_event (l : List (α × ℕ)) (N : ℕ) (hN : 0 < N) (hm : mass l ≠ 0)
    (hn : (l.length : ℚ) ^ 2 * N ≤ mass l) (hn2 : (l.length : ℚ) * N * 2 ≤ mass l) (A : α → Prop) [DecidablePred A] :
    mass (l.map fun x => (x.1, x.2 / N)) ≠ 0 ∧
    Pr (l.map fun x => (x.1, x.2 / N)) A - Pr l A ≤ l.length * N / mass l := by
  have hNq : (0 : ℚ) < N := by exact_mod_cast hN
  have hs : 0 < mass l := mass_pos_of_ne hm
  obtain ⟨a1, a2⟩ := reduce_split l N hN A
  obtain ⟨b1, b2⟩ := reduce_split l N hN fun v => ¬ A v
  have c1 := ind_compl l A
  have c2 := ind_compl (l.map fun x => (x.1, x.2 / N)) A
  have hlen : (l.filter fun x => A x.1).length + (l.filter fun x => ¬ A x.1).length = l.length := by
    have := List.length_eq_length_filter_add (l := l) fun x => decide (A x.1)
    rw [this]
    congr 2
    apply List.filter_congr
    intro x _; simp
  have hlenq : ((l.filter fun x => A x.1).length : ℚ) + ((l.filter fun x => ¬ A x.1).length : ℚ) = l.length := by
    exact_mod_cast hlen
  have pA0 : 0 ≤ wsum l (fun v => if A v then 1 else 0) := wsum_nonneg (by intros; split <;> norm_num)
  have pB0 : 0 ≤ wsum l (fun v => if ¬ A v then 1 else 0) := wsum_nonneg (by intros; split <;> norm_num)
  have hAempty : (l.filter fun x => A x.1).length = 0 → wsum l (fun v => if A v then 1 else 0) = 0 := by
    intro h0
    rw [wsum_congr (g := fun _ => 0)]
    · simp [wsum_const]
    · intro x hx _
      rw [if_neg]
      intro hA
      have : x ∈ l.filter fun x => A x.1 := List.mem_filter.2 ⟨hx, by simpa using hA⟩
      rw [List.length_eq_zero_iff.1 h0] at this
      simp at this
  set n : ℚ := (l.length : ℚ) with hn'
  set m' := mass (l.map fun x => (x.1, x.2 / N)) with hm'
  set pA := wsum l (fun v => if A v then 1 else 0) with hpA
  set pB := wsum l (fun v => if ¬ A v then 1 else 0)
  set qA := wsum (l.map fun x => (x.1, x.2 / N)) (fun v => if A v then 1 else 0) with hqA
  set qB := wsum (l.map fun x => (x.1, x.2 / N)) (fun v => if ¬ A v then 1 else 0)
  set a : ℚ := ((l.filter fun x => A x.1).length : ℚ) with ha
  set b : ℚ := ((l.filter fun x => ¬ A x.1).length : ℚ) with hb
  have ha0 : 0 ≤ a := by positivity
  have hb0 : 0 ≤ b := by positivity
  have hn0 : 0 ≤ n := by positivity
  have hsum : mass l ≤ N * m' + N * n := by rw [← c1, ← c2, ← hlenq]; linarith
  have hm'pos : 0 < m' := by
    have h1 : 0 < N * m' := by
      have : n * N < mass l := by
        have : 0 ≤ n * N := by positivity
        linarith
      linarith
    exact (mul_pos_iff_of_pos_left hNq).1 h1
  refine ⟨hm'pos.ne', ?_⟩
  have hPr1 : Pr (l.map fun x => (x.1, x.2 / N)) A = qA / m' := rfl
  have hPr2 : Pr l A = pA / mass l := rfl
  rw [hPr1, hPr2, div_sub_div _ _ hm'pos.ne' hm, div_le_div_iff₀ (mul_pos hm'pos hs) hs]
  have key : qA * mass l - m' * pA ≤ n * N * m' := by
    have e : qA * mass l - m' * pA = qA * pB - pA * qB := by rw [← c1, ← c2]; ring
    rw [e]
    -- N * (qA pB - pA qB) ≤ N * pA * b
    have f1 : N * (qA * pB - pA * qB) ≤ N * (pA * b) := by nlinarith
    have f2 : qA * pB - pA * qB ≤ pA * b := le_of_mul_le_mul_left f1 hNq
    refine f2.trans ?_
    by_cases hz : (l.filter fun x => A x.1).length = 0
    · rw [hAempty hz]
      have : 0 ≤ n * N * m' := by positivity
      linarith
    · have ha1 : 1 ≤ a := by rw [ha]; exact_mod_cast Nat.one_le_iff_ne_zero.2 hz
      have hb1 : b ≤ n - 1 := by linarith
      have hpAs : pA ≤ mass l := by linarith
      calc pA * b ≤ mass l * (n - 1) := by nlinarith
        _ ≤ n * (mass l - N * n) := by nlinarith
        _ ≤ n * (N * m') := by nlinarith
        _ = n * N * m' := by ring
  have := mul_le_mul_of_nonneg_right key hs.le
  calc (qA * mass l - m' * pA) * mass l ≤ n * N * m' * mass l := this
    _ = n * N * (m' * mass l) := by ring

/-- C28. At or below the limit (the double 1e31) nothing is changed; above it (and below the largest
double) the warning is logged. -/
theorem C28_reduction_threshold (X : RV α) :
    (X.probs.sum ≤ RV.sumLimit → RV.probLimit X = .ok (X, false)) ∧
    (RV.sumLimit < X.probs.sum → X.probs.sum < RV.floatOverflow → ∃ X', RV.probLimit X = .ok (X', true)) ∧
    (RV.floatOverflow ≤ X.probs.sum → RV.probLimit X = .error .overflow) := by
  refine ⟨RV.probLimit_le, ?_, ?_⟩
  · intro h1 h2
    unfold RV.probLimit RV.sumProbs
    rw [if_neg (by omega)]
    cases hN : RV.normConst X.probs.sum with
    | error e =>
      unfold RV.normConst at hN
      rw [if_neg (by omega)] at hN
      simp at hN
    | ok N =>
      have hb := (normConst_bounds h1 hN).1
      simp only [bind, Except.bind]
      rw [if_neg (by omega)]
      exact ⟨_, rfl⟩
  · intro h
    have h1 : RV.sumLimit < X.probs.sum := lt_of_lt_of_le (by decide +kernel) h
    unfold RV.probLimit RV.sumProbs RV.normConst
    rw [if_neg (by omega), if_pos h]
    rfl

theorem reduction_bound (X X' : RV α) (hl : X.vals.length = X.probs.length)
    (h : RV.probLimit X = .ok (X', true)) :
    X'.vals = X.vals ∧ ∃ N : ℕ, RV.normConst X.probs.sum = .ok N ∧ 0 < N ∧ (N : ℚ) ≤ 11 / 10 / 10 ^ 20 * X.probs.sum ∧
      X'.probs = X.probs.map (· / N) ∧
      (X.vals.length ≤ 9 * 10 ^ 9 → mass X'.pairs ≠ 0 ∧ ∀ (A : α → Prop) [DecidablePred A],
        |Pr X'.pairs A - Pr X.pairs A| ≤ X.vals.length * N / X.probs.sum) := by
  unfold RV.probLimit RV.sumProbs at h
  split at h
  · cases h
  rename_i hlim
  push Not at hlim
  cases hN : RV.normConst X.probs.sum with
  | error e => rw [hN] at h; cases h
  | ok N =>
    obtain ⟨hb1, hb2⟩ := normConst_bounds hlim hN
    rw [hN] at h
    simp only [bind, Except.bind] at h
    rw [if_neg (by omega)] at h
    cases h
    have hs0 : (0 : ℚ) ≤ (X.probs.sum : ℕ) := by positivity
    refine ⟨rfl, N, rfl, by omega, hb2.trans ?_, rfl, ?_⟩
    · apply mul_le_mul_of_nonneg_right _ hs0; norm_num
    intro hn9
    have hmass : mass X.pairs = (X.probs.sum : ℕ) := by rw [mass_eq_sum, RV.pairs_map_snd X hl]
    have hm : mass X.pairs ≠ 0 := by
      rw [hmass]
      have : 0 < RV.sumLimit := by norm_num [RV.sumLimit]
      have : X.probs.sum ≠ 0 := by omega
      exact_mod_cast this
    have hplen : X.pairs.length = X.vals.length := by rw [RV.pairs, List.length_zip]; omega
    have hpairs : ({ X with probs := X.probs.map (· / N) } : RV α).pairs = X.pairs.map fun x => (x.1, x.2 / N) := by
      simp only [RV.pairs, List.zip_map_right]
      rfl
    have hsq : (X.pairs.length : ℚ) ^ 2 * N ≤ mass X.pairs := by
      rw [hplen, hmass]
      have h9 : (X.vals.length : ℚ) ≤ 9 * 10 ^ 9 := by exact_mod_cast hn9
      have h81 : (X.vals.length : ℚ) ^ 2 ≤ 81 * 10 ^ 18 := by
        have : (0 : ℚ) ≤ X.vals.length := by positivity
        nlinarith
      calc (X.vals.length : ℚ) ^ 2 * N ≤ 81 * 10 ^ 18 * (101 / 100 / 10 ^ 20 * X.probs.sum) := by
            apply mul_le_mul h81 hb2 (by positivity) (by norm_num)
        _ ≤ ((X.probs.sum : ℕ) : ℚ) := by linarith
    have hpl2 : (X.pairs.length : ℚ) * N * 2 ≤ mass X.pairs := by
      rw [hplen, hmass]
      have h9 : (X.vals.length : ℚ) ≤ 9 * 10 ^ 9 := by exact_mod_cast hn9
      calc (X.vals.length : ℚ) * N * 2 ≤ 9 * 10 ^ 9 * (101 / 100 / 10 ^ 20 * X.probs.sum) * 2 := by
            apply mul_le_mul_of_nonneg_right _ (by norm_num)
            apply mul_le_mul h9 hb2 (by positivity) (by norm_num)
        _ ≤ ((X.probs.sum : ℕ) : ℚ) := by linarith
    rw [hpairs]
    refine ⟨(reduce_event X.pairs N (by omega) hm hsq hpl2 fun _ => True).1, ?_⟩
    intro A _
    obtain ⟨g1, g2⟩ := reduce_event X.pairs N (by omega) hm hsq hpl2 A
    obtain ⟨_, g3⟩ := reduce_event X.pairs N (by omega) hm hsq hpl2 fun v => ¬ A v
    rw [Pr_compl g1, Pr_compl hm] at g3
    rw [hplen, hmass] at g2 g3
    rw [abs_le]
    constructor <;> linarith

/-- C28. When weights are reduced, outcomes keep their identity and order, the normalising constant `N`
is the logged one, at least 1e10 and at most 1.01e-20 of the total weight, each weight is divided by `N` rounding down, and (for dice of at
most 9·10^9 outcomes) the probability of every event, in particular of every outcome, changes by at
most (number of outcomes)·N/total. -/
theorem C28_reduction_bound (X X' : RV α) (hl : X.vals.length = X.probs.length)
    (h : RV.probLimit X = .ok (X', true)) :
    X'.vals = X.vals ∧ ∃ N : ℕ, RV.normConst X.probs.sum = .ok N ∧ 10 ^ 10 ≤ N ∧ (N : ℚ) ≤ 101 / 100 / 10 ^ 20 * X.probs.sum ∧
      X'.probs = X.probs.map (· / N) ∧
      (X.vals.length ≤ 9 * 10 ^ 9 → mass X'.pairs ≠ 0 ∧ ∀ (A : α → Prop) [DecidablePred A],
        |Pr X'.pairs A - Pr X.pairs A| ≤ X.vals.length * N / X.probs.sum) := by
  obtain ⟨h1, N, hN, -, -, h2⟩ := reduction_bound X X' hl h
  have hlim : RV.sumLimit < X.probs.sum := by
    by_contra hc
    rw [(C28_reduction_threshold X).1 (not_lt.1 hc)] at h
    cases h
  exact ⟨h1, N, hN, (normConst_bounds hlim hN).1, (normConst_bounds hlim hN).2, h2⟩

example : RV.probLimit (⟨[0, 1], [8 * 10 ^ 30, 8 * 10 ^ 30 + 1], none⟩ : RV ℤ) =
    .ok (⟨[0, 1], [8 * 10 ^ 19, 8 * 10 ^ 19], none⟩, true) := by decide +kernel
example : (RV.sumLimit : ℕ) < 2 * 10 ^ 31 ∧ 2 * 10 ^ 31 < RV.floatOverflow := by decide +kernel

/-! ## C29 -/

/-- C29. `X.filter(vs)` is `X` conditioned on not being in `vs`, if that has positive probability. -/
theorem C29_filter_law (st : Settings) (ht : ∀ v : α, st.rvTrunc = true → PyVal.trunc v = .ok v)
    (X r : RV α) (vs : List α) (hpos : Pr X.pairs (fun v => v ∉ vs) ≠ 0)
    (h : RV.filter st X vs = .ok r) (f : α → ℚ) :
    Ex r.pairs f = Ex X.pairs (fun v => if v ∉ vs then f v else 0) / Pr X.pairs (fun v => v ∉ vs) := by
  have hm : mass X.pairs ≠ 0 := by
    intro h0; apply hpos; simp [Pr, Ex, h0]
  have hw : ∀ f : α → ℚ, wsum (X.pairs.filter fun x => decide (x.1 ∉ vs)) f =
      wsum X.pairs fun v => if v ∉ vs then f v else 0 := by
    intro f
    rw [wsum_filter X.pairs (fun v => decide (v ∉ vs))]
    simp
  have hmf : mass (X.pairs.filter fun x => decide (x.1 ∉ vs)) ≠ 0 := by
    intro h0
    apply hpos
    rw [Pr, Ex, ← hw, ← mass, h0, zero_div]
  unfold RV.filter at h
  simp only at h
  split at h
  · rename_i h0
    rw [List.length_eq_zero_iff] at h0
    rw [h0] at hmf
    exact absurd rfl hmf
  · rw [RV.mk'_Ex_nat h hmf]
    simp only [truncFn_of st ht]
    rw [Ex, mass, hw, hw, Ex, Pr, Ex, div_div_div_cancel_right₀ hm]

/-- C29. When all outcomes are removed the result is the constant 0. -/
theorem C29_filter_empty (st : Settings) (X : RV ℤ) (vs : List ℤ)
    (h : ∀ v ∈ X.vals, v ∈ vs) : RV.filter st X vs = .ok { vals := [0], probs := [1] } := by
  have : X.pairs.filter (fun x => decide (x.1 ∉ vs)) = [] := by
    rw [List.filter_eq_nil_iff]
    intro x hx
    simpa using h _ (RV.mem_vals_of_pairs hx)
  unfold RV.filter
  rw [this]
  simp only [List.length_nil, if_true, RV.fromConst]
  have := RV.mk'_sorted (α := ℤ) (st := st) (vals := [0]) (probs := [1]) (fun _ _ => rfl) rfl (by simp) (by simp) (by simp)
  exact this

/-- C29. Filtering an int die always succeeds, and no removed outcome is listed in the result. -/
theorem C29_filter_support (st : Settings) (X : RV ℤ) (vs : List ℤ) (hne : ∃ x ∈ X.pairs, x.1 ∉ vs ∧ x.2 ≠ 0) :
    ∃ r, RV.filter st X vs = .ok r ∧ ∀ v ∈ r.vals, v ∈ X.vals ∧ v ∉ vs := by
  obtain ⟨x, hx, hxv, hx2⟩ := hne
  have hmem : x ∈ X.pairs.filter fun x => decide (x.1 ∉ vs) := List.mem_filter.2 ⟨hx, by simpa using hxv⟩
  have hmass : mass (X.pairs.filter fun x => decide (x.1 ∉ vs)) ≠ 0 := (mass_ne_zero_iff _).2 ⟨x, hmem, hx2⟩
  unfold RV.filter
  simp only
  rw [if_neg (by rw [List.length_eq_zero_iff]; intro h0; rw [h0] at hmem; simp at hmem)]
  obtain ⟨r, hr⟩ := RV.mk'_int_ok st (X.pairs.filter fun x => decide (x.1 ∉ vs))
  refine ⟨r, hr, fun v hv => ?_⟩
  have hv' : v ∈ (X.pairs.filter fun x => decide (x.1 ∉ vs)).map (·.1) := by
    cases hi : st.rvIgnoreZeroProbs with
    | false => exact ((RV.mk'_mem_any hr).1 hi (fun h0 => by rw [h0] at hmem; simp at hmem) v).1 hv
    | true =>
      have := ((RV.mk'_mem_any hr).2 hi hmass v).1 hv
      by_contra hc
      exact this (RV.wsum_eq_zero_of_notMem _ _ hc)
  obtain ⟨y, hy, rfl⟩ := List.mem_map.1 hv'
  rw [List.mem_filter] at hy
  exact ⟨RV.mem_vals_of_pairs hy.1, by simpa using hy.2⟩

example : RV.filter {} (⟨[1, 2, 3, 4], [1, 2, 3, 4], none⟩ : RV ℤ) [2, 7] = .ok ⟨[1, 3, 4], [1, 3, 4], none⟩ := by
  decide +kernel

/-! ## C49 -/

omit [PyVal α] in
theorem weightOf_cons (x : α × ℕ) (l : List (α × ℕ)) (v : α) :
    weightOf (x :: l) v = (if x.1 = v then x.2 else 0) + weightOf l v := by
  unfold weightOf
  by_cases h : x.1 = v <;> simp [h]

omit [PyVal α] in
theorem weightOf_notMem {l : List (α × ℕ)} {v : α} (h : v ∉ l.map (·.1)) : weightOf l v = 0 := by
  induction l with
  | nil => rfl
  | cons x l ih =>
    simp only [List.map_cons, List.mem_cons, not_or] at h
    rw [weightOf_cons, ih h.2, if_neg (fun e => h.1 e.symm)]

omit [PyVal α] in
theorem weightUpTo_cons (x : α × ℕ) (l : List (α × ℕ)) (v : α) :
    weightUpTo (x :: l) v = (if x.1 ≤ v then x.2 else 0) + weightUpTo l v := by
  unfold weightUpTo
  by_cases h : x.1 ≤ v <;> simp [h]

omit [PyVal α] in
theorem weightUpTo_zero {l : List (α × ℕ)} {v : α} (h : ∀ x ∈ l, v < x.1) : weightUpTo l v = 0 := by
  induction l with
  | nil => rfl
  | cons x l ih =>
    rw [weightUpTo_cons, ih fun y hy => h y (List.mem_cons_of_mem _ hy),
      if_neg (not_le.2 (h x List.mem_cons_self))]

omit [PyVal α] in
theorem accum_weight {vals : List α} {probs : List ℕ} (hl : vals.length = probs.length)
    (hs : vals.Pairwise (· < ·)) (t : ℕ) {v : α} (hv : v ∈ vals) :
    weightOf (vals.zip (RV.accumFrom t probs)) v = t + weightUpTo (vals.zip probs) v := by
  induction vals generalizing probs t with
  | nil => simp at hv
  | cons u us ih =>
    cases probs with
    | nil => simp at hl
    | cons p ps =>
      simp only [List.length_cons, Nat.add_right_cancel_iff] at hl
      rw [List.pairwise_cons] at hs
      simp only [RV.accumFrom, List.zip_cons_cons, weightOf_cons, weightUpTo_cons]
      rcases List.mem_cons.1 hv with rfl | hv
      · rw [if_pos rfl, if_pos le_rfl, weightOf_notMem, weightUpTo_zero]
        · ring
        · intro x hx; exact hs.1 _ (List.of_mem_zip hx).1
        · intro hc
          obtain ⟨x, hx, hxe⟩ := List.mem_map.1 hc
          have := hs.1 _ (List.of_mem_zip hx).1
          rw [hxe] at this
          exact lt_irrefl _ this
      · have hlt := hs.1 v hv
        rw [if_neg hlt.ne, if_pos hlt.le, ih hl hs.2 (t + p) hv]
        ring

omit [PyVal α] in
theorem weightUpTo_eq_wsum (l : List (α × ℕ)) (v : α) :
    (weightUpTo l v : ℚ) = wsum l fun x => if x ≤ v then 1 else 0 := by
  induction l with
  | nil => rfl
  | cons x l ih =>
    rw [weightUpTo_cons, wsum_cons, ← ih]
    by_cases h : x.1 ≤ v <;> simp [h]

omit [PyVal α] in
theorem weightOf_map_div (vals : List α) (ps : List ℕ) (g : ℕ) (h : ∀ p ∈ ps, g ∣ p) (v : α) :
    g * weightOf (vals.zip (ps.map (· / g))) v = weightOf (vals.zip ps) v := by
  induction vals generalizing ps with
  | nil => simp [weightOf]
  | cons u us ih =>
    cases ps with
    | nil => simp [weightOf]
    | cons p ps =>
      simp only [List.map_cons, List.zip_cons_cons, weightOf_cons, mul_add,
        ih ps fun q hq => h q (List.mem_cons_of_mem _ hq)]
      congr 1
      split
      · exact Nat.mul_div_cancel' (h p List.mem_cons_self)
      · simp

/-- C49. `X.get_cdf()` lists the same outcomes, and its weight at each listed outcome `v` is, up to one
common factor `g`, the total weight of the outcomes up to `v`, i.e. `P(X ≤ v)` times the total weight;
`g = 1` for coprime weights. -/
theorem C49_cdf (st : Settings) (ht : ∀ v : α, st.rvTrunc = true → PyVal.trunc v = .ok v) (X : RV α)
    (hl : X.vals.length = X.probs.length) (hs : X.vals.Pairwise (· < ·)) (hne : X.vals ≠ [])
    (hz : st.rvIgnoreZeroProbs = true → ∀ p ∈ X.probs, p ≠ 0) :
    ∃ c g, RV.getCdf st X = .ok c ∧ 0 < g ∧ c.vals = X.vals ∧ (Coprime X.probs → g = 1) ∧
      ∀ v ∈ X.vals, g * weightOf c.pairs v = weightUpTo X.pairs v ∧
        (mass X.pairs ≠ 0 → (g * weightOf c.pairs v : ℚ) = mass X.pairs * Pr X.pairs (· ≤ v)) := by
  refine ⟨_, RV.normFactor X.probs, RV.getCdf_eq ht hl hs hne hz, RV.normFactor_pos _, rfl,
    RV.normFactor_of_coprime, ?_⟩
  intro v hv
  have h1 : RV.normFactor X.probs *
      weightOf (X.vals.zip ((RV.accumFrom 0 X.probs).map (· / RV.normFactor X.probs))) v = weightUpTo X.pairs v := by
    rw [weightOf_map_div, accum_weight hl hs 0 hv, zero_add]
    · rfl
    · exact (RV.dvd_accumFrom _ 0 _ (dvd_zero _)).2 fun p hp => RV.normFactor_dvd _ p hp
  refine ⟨h1, fun hm => ?_⟩
  have h2 : ((RV.normFactor X.probs *
      weightOf (X.vals.zip ((RV.accumFrom 0 X.probs).map (· / RV.normFactor X.probs))) v : ℕ) : ℚ) =
      (weightUpTo X.pairs v : ℕ) := by rw [h1]
  rw [Pr, Ex, mul_div_cancel₀ _ hm, ← weightUpTo_eq_wsum, ← h2]
  push_cast
  rfl

example : RV.getCdf {} (⟨[1, 2, 5], [1, 2, 3], none⟩ : RV ℤ) = .ok ⟨[1, 2, 5], [1, 3, 6], none⟩ := by decide +kernel
example : RV.getCdf {} (⟨[1, 2], [2, 2], none⟩ : RV ℤ) = .ok ⟨[1, 2], [1, 2], none⟩ := by decide +kernel

/-- C49, when zero weights are ignored: only the outcomes below every possible outcome are no longer listed, and everything else is the same. -/
theorem C49_cdf_zeros (st : Settings) (ht : ∀ v : α, st.rvTrunc = true → PyVal.trunc v = .ok v) (X : RV α)
    (hl : X.vals.length = X.probs.length) (hs : X.vals.Pairwise (· < ·)) (hm : mass X.pairs ≠ 0) (hi : st.rvIgnoreZeroProbs = true) :
    ∃ c g, RV.getCdf st X = .ok c ∧ 0 < g ∧ c.vals.Pairwise (· < ·) ∧ (∀ v, v ∈ c.vals ↔ v ∈ X.vals ∧ Pr X.pairs (· ≤ v) ≠ 0) ∧
      (Coprime X.probs → g = 1) ∧ ∀ v ∈ X.vals, g * weightOf c.pairs v = weightUpTo X.pairs v := by
  set ps := RV.accumFrom 0 X.probs with hps
  have hpl : X.vals.length = ps.length := by rw [hps, RV.accumFrom_length]; exact hl
  set l := (X.vals.zip ps).filter (fun x => decide (x.2 ≠ 0)) with hldef
  have hzf : (X.vals.zip ps).map (·.1) = X.vals := List.map_fst_zip (by omega)
  have hsl : (l.map (·.1)).Pairwise (· < ·) := by
    have : (l.map (·.1)).Sublist ((X.vals.zip ps).map (·.1)) := List.filter_sublist.map _
    rw [hzf] at this
    exact hs.sublist this
  have hzip : (l.map (·.1)).zip (l.map (·.2)) = l := (List.zip_of_prod rfl rfl).symm
  have hnd : ((X.vals.zip ps).map (·.1)).Nodup := by rw [hzf]; exact hs.imp ne_of_lt
  have hkey : ∀ x ∈ X.vals.zip ps, x.2 = weightUpTo X.pairs x.1 := by
    intro x hx
    have h1 : x.1 ∈ X.vals := (List.of_mem_zip hx).1
    rw [← RV.weightOf_of_mem hnd hx, hps, accum_weight hl hs 0 h1, zero_add]
    rfl
  have hmeml : ∀ v, v ∈ l.map (·.1) ↔ v ∈ X.vals ∧ weightUpTo X.pairs v ≠ 0 := by
    intro v
    constructor
    · intro h
      obtain ⟨x, hx, rfl⟩ := List.mem_map.1 h
      obtain ⟨h1, h2⟩ := List.mem_filter.1 hx
      refine ⟨(List.of_mem_zip h1).1, ?_⟩
      rw [← hkey x h1]
      simpa using h2
    · rintro ⟨h1, h2⟩
      rw [← hzf] at h1
      obtain ⟨x, hx, rfl⟩ := List.mem_map.1 h1
      refine List.mem_map.2 ⟨x, List.mem_filter.2 ⟨hx, ?_⟩, rfl⟩
      rw [← hkey x hx] at h2
      simpa using h2
  have hup : ∀ v, Pr X.pairs (· ≤ v) ≠ 0 ↔ weightUpTo X.pairs v ≠ 0 := by
    intro v
    have : (weightUpTo X.pairs v : ℚ) = mass X.pairs * Pr X.pairs (· ≤ v) := by
      rw [Pr, Ex, mul_div_cancel₀ _ hm, ← weightUpTo_eq_wsum]
    constructor
    · intro h h0
      rw [h0] at this
      rcases mul_eq_zero.1 this.symm with h1 | h1
      · exact hm h1
      · exact h h1
    · intro h h0
      rw [h0, mul_zero] at this
      exact h (by exact_mod_cast this)
  have hlne : l.map (·.1) ≠ [] := by
    obtain ⟨x, hx, hx0⟩ := (mass_ne_zero_iff _).1 hm
    have h1 : x.1 ∈ X.vals := (List.of_mem_zip hx).1
    have h2 : x.1 ∈ l.map (·.1) := by
      refine (hmeml x.1).2 ⟨h1, fun h0 => hx0 ?_⟩
      rw [weightUpTo, List.sum_eq_zero_iff] at h0
      exact h0 _ (List.mem_map.2 ⟨x, List.mem_filter.2 ⟨hx, by simp⟩, rfl⟩)
    exact List.ne_nil_of_mem h2
  have hcast : ∀ qs : List ℕ, (qs.map fun p : ℕ => (p : ℤ)).map Int.toNat = qs := by
    intro qs; rw [List.map_map]; simp [Function.comp_def]
  have hcore : RV.core st X.vals (ps.map fun p : ℕ => (p : ℤ)) = l := by
    rw [RV.core, hcast, hi, RV.newZipped_true, RV.grouped_sorted_id hpl hs]
  have hcore' : RV.core st (l.map (·.1)) ((l.map (·.2)).map fun p : ℕ => (p : ℤ)) = l := by
    rw [RV.core, hcast, hi, RV.newZipped_true, RV.grouped_sorted_id (by simp) hsl, hzip, hldef, List.filter_filter]
    simp only [Bool.and_self]
  have htr : ∀ vs : List α, RV.truncated st none vs = .ok vs := by
    intro vs
    unfold RV.truncated
    split
    · rename_i h
      rw [RV.mapM_eq_map (f := PyVal.trunc) (F := id) fun v _ => ht v h]; simp
    · rfl
  have hmk : RV.getCdf st X = RV.mk' st (l.map (·.1)) ((l.map (·.2)).map fun p : ℕ => (p : ℤ)) := by
    rw [RV.getCdf, ← hps, RV.mk'_eq, RV.mk'_eq, if_neg (by simpa using hpl), if_neg (by simp), htr, htr]
    have hall : ∀ qs : List ℕ, (qs.map fun p : ℕ => (p : ℤ)).all (fun p => decide (0 ≤ p)) = true := fun qs => by simp
    simp only [hcore, hcore', hall]
  rw [RV.mk'_sorted ht (by simp) hsl hlne] at hmk
  swap
  · intro _ p hp
    obtain ⟨x, hx, rfl⟩ := List.mem_map.1 hp
    simpa using (List.mem_filter.1 hx).2
  refine ⟨_, RV.normFactor (l.map (·.2)), hmk, RV.normFactor_pos _, hsl, fun v => by rw [hup]; exact hmeml v, ?_, ?_⟩
  · intro hc
    refine RV.normFactor_of_coprime ?_
    intro d hd
    apply hc d
    refine (RV.dvd_accumFrom d 0 X.probs (dvd_zero _)).1 ?_
    intro p hp
    by_cases h0 : p = 0
    · rw [h0]; exact dvd_zero _
    · have : p ∈ (X.vals.zip ps).map (·.2) := by rw [List.map_snd_zip (by omega)]; exact hp
      obtain ⟨x, hx, rfl⟩ := List.mem_map.1 this
      exact hd _ (List.mem_map.2 ⟨x, List.mem_filter.2 ⟨hx, by simpa using h0⟩, rfl⟩)
  · intro v hv
    rw [RV.pairs]
    simp only
    rw [weightOf_map_div _ _ _ (fun p hp => RV.normFactor_dvd _ p hp), hzip]
    by_cases h0 : weightUpTo X.pairs v = 0
    · rw [h0, weightOf_notMem]
      exact fun h => ((hmeml v).1 h).2 h0
    · obtain ⟨x, hx, rfl⟩ := List.mem_map.1 ((hmeml v).2 ⟨hv, h0⟩)
      rw [RV.weightOf_of_mem (hsl.imp ne_of_lt) hx, hkey x (List.mem_filter.1 hx).1]

example : RV.getCdf { rvIgnoreZeroProbs := true } (⟨[1, 2, 4, 5], [0, 2, 0, 3], none⟩ : RV ℤ) = .ok ⟨[2, 4, 5], [2, 2, 5], none⟩ := by
  decide +kernel

/-! ## C50 -/

/-- C50. `-X` is distributed as `-x`; it always succeeds. -/
theorem C50_neg_law (st : Settings) (X : RV ℤ) (hl : X.vals.length = X.probs.length) (hm : mass X.pairs ≠ 0) :
    ∃ r, RV.neg st X = .ok r ∧ ∀ f : ℤ → ℚ, Ex r.pairs f = Ex X.pairs fun x => f (-x) := by
  obtain ⟨h1, h2⟩ := C06_number_binop st .sub X 0 hl
  obtain ⟨r, hr⟩ := h1.2 fun x _ => ⟨_, .sub 0 x⟩
  refine ⟨r, hr, fun f => ?_⟩
  rw [h2 r hr hm (fun x => 0 - x) (fun x _ => .sub 0 x)]
  simp

/-- C50. `abs(X)` is distributed as `|x|`; it always succeeds. -/
theorem C50_abs_law (st : Settings) (X : RV ℤ) (hl : X.vals.length = X.probs.length) (hm : mass X.pairs ≠ 0) :
    ∃ r, RV.abs st X = .ok r ∧ ∀ f : ℤ → ℚ, Ex r.pairs f = Ex X.pairs fun x => f |x| := by
  have hF : ∀ x ∈ X.vals, (fun v : ℤ => (Except.ok |v| : Except Err ℤ)) x = .ok ((fun v : ℤ => |v|) x) := fun _ _ => rfl
  have hok : ∃ r, RV.abs st X = .ok r := by
    rw [RV.abs, RV.mapVals_ok hF, RV.mk'_eq, if_neg (by simpa using hl), RV.truncated_int]
    simp only
    rw [if_pos (by simp)]
    split <;> exact ⟨_, rfl⟩
  obtain ⟨r, hr⟩ := hok
  refine ⟨r, hr, fun f => ?_⟩
  have := RV.mapVals_Ex hF hr hm f
  simpa using this

/-- C50. `+X` is `X`. -/
theorem C50_pos (X : RV ℤ) : RV.pos X = X := rfl

theorem fromConst_int (st : Settings) (v : ℤ) : RV.fromConst st v = .ok { vals := [v], probs := [1] } := by
  have := RV.mk'_sorted (α := ℤ) (st := st) (vals := [v]) (probs := [1]) (fun _ _ => rfl) rfl (by simp) (by simp) (by simp)
  exact this

/-- C50. `~X` is the constant 1 if `X` is the die `RV.from_const(0)`, which lists 0 only, and the constant 0 for every other die. -/
theorem C50_invert_listed (st : Settings) (X : RV ℤ) (hl : X.vals.length = X.probs.length) (hc : Coprime X.probs) :
    RV.invert st X = .ok { vals := [if X.vals = [0] then 1 else 0], probs := [1] } := by
  unfold RV.invert
  by_cases h : X.vals = [0]
  · rw [h] at hl
    have h1 : X.probs = [1] := by
      cases hp : X.probs with
      | nil => rw [hp] at hl; simp at hl
      | cons p ps =>
        cases ps with
        | nil => rw [hc p (by rw [hp]; simp)]
        | cons q qs => rw [hp] at hl; simp at hl
    rw [if_pos ⟨h, h1⟩, if_pos h]
    exact fromConst_int st 1
  · rw [if_neg fun hh => h hh.1, if_neg h]
    exact fromConst_int st 0

/-- C50. For a canonical die with positive weights, `~X` is the constant 1 if `X` is always 0, and the
constant 0 otherwise. -/
theorem C50_invert (st : Settings) (X : RV ℤ) (hl : X.vals.length = X.probs.length)
    (hs : X.vals.Pairwise (· < ·)) (hne : X.vals ≠ []) (hc : Coprime X.probs) (hz : ∀ p ∈ X.probs, p ≠ 0) :
    (Pr X.pairs (· = 0) = 1 → RV.invert st X = .ok { vals := [1], probs := [1] }) ∧
    (Pr X.pairs (· = 0) ≠ 1 → RV.invert st X = .ok { vals := [0], probs := [1] }) := by
  have hmass : mass X.pairs ≠ 0 := by
    rw [mass_ne_zero_iff]
    cases hv : X.vals with
    | nil => exact absurd hv hne
    | cons v vs =>
      cases hp : X.probs with
      | nil => rw [hv, hp] at hl; simp at hl
      | cons p ps =>
        refine ⟨(v, p), by simp [RV.pairs, hv, hp], hz p (by simp [hp])⟩
  have hiff : Pr X.pairs (· = 0) = 1 ↔ X.vals = [0] ∧ X.probs = [1] := by
    constructor
    · intro h1
      have hall : ∀ v ∈ X.vals, v = 0 := by
        by_contra hcon
        push Not at hcon
        obtain ⟨v, hv, hv0⟩ := hcon
        have h2 := Pr_compl hmass (fun x => x = 0)
        rw [h1, sub_self] at h2
        rw [Pr, Ex, div_eq_zero_iff] at h2
        rcases h2 with h2 | h2
        · rw [← RV.pairs_map_fst X hl] at hv
          obtain ⟨x, hx, rfl⟩ := List.mem_map.1 hv
          have hx2 : x.2 ≠ 0 := hz _ (List.of_mem_zip hx).2
          have h3 : mass (X.pairs.filter fun y => decide (¬ y.1 = 0)) = 0 := by
            rw [mass, wsum_filter X.pairs (fun v => decide (¬ v = 0))]
            simpa using h2
          exact (mass_ne_zero_iff _).2 ⟨x, List.mem_filter.2 ⟨hx, by simpa using hv0⟩, hx2⟩ h3
        · exact hmass h2
      have hv0 : X.vals = [0] := by
        cases hv : X.vals with
        | nil => exact absurd hv hne
        | cons v vs =>
          have e1 := hall v (by simp [hv])
          cases hvs : vs with
          | nil => rw [e1]
          | cons w ws =>
            have e2 := hall w (by simp [hv, hvs])
            rw [hv, hvs] at hs
            simp [e1, e2] at hs
      refine ⟨hv0, ?_⟩
      rw [hv0] at hl
      cases hp : X.probs with
      | nil => rw [hp] at hl; simp at hl
      | cons p ps =>
        cases ps with
        | nil =>
          have := hc p (by rw [hp]; simp)
          rw [this]
        | cons q qs => rw [hp] at hl; simp at hl
    · rintro ⟨h1, h2⟩
      simp [Pr, Ex, mass, RV.pairs, h1, h2]
  unfold RV.invert
  constructor
  · intro h
    rw [if_pos (hiff.1 h)]; exact fromConst_int st 1
  · intro h
    rw [if_neg fun hh => h (hiff.2 hh)]; exact fromConst_int st 0

example : RV.neg {} (⟨[-1, 2], [1, 2], none⟩ : RV ℤ) = .ok ⟨[-2, 1], [2, 1], none⟩ := by decide +kernel
example : RV.abs {} (⟨[-1, 1], [1, 2], none⟩ : RV ℤ) = .ok ⟨[1], [1], none⟩ := by decide +kernel
example : RV.invert {} (⟨[0], [1], none⟩ : RV ℤ) = .ok ⟨[1], [1], none⟩ := by decide +kernel
example : RV.invert {} (⟨[0, 1], [1, 1], none⟩ : RV ℤ) = .ok ⟨[0], [1], none⟩ := by decide +kernel

/-- C50 is about distributions: a die that is 0 with probability 1 but lists another outcome with
weight 0 is not treated as the constant 0. -/
theorem C50_invert_counterexample :
    RV.mk' {} ([0, 1] : List ℤ) [1, 0] = .ok ⟨[0, 1], [1, 0], none⟩ ∧
    Pr (⟨[0, 1], [1, 0], none⟩ : RV ℤ).pairs (· = 0) = 1 ∧
    RV.invert {} (⟨[0, 1], [1, 0], none⟩ : RV ℤ) = .ok ⟨[0], [1], none⟩ := by
  refine ⟨by decide +kernel, by decide +kernel, by decide +kernel⟩

end PythonDice
