import Verif.Props.Ctor

/-!
# C05–C07, C50: operators of dice

`PyOp op x y z` is the independent description of what each operator means on ints.
-/

namespace PythonDice
open Spec

/-- Meaning of the operators on ints: `PyOp op x y z` says that `x op y` is `z`. -/
inductive PyOp : BinOp → ℤ → ℤ → ℤ → Prop
  | add (x y) : PyOp .add x y (x + y)
  | sub (x y) : PyOp .sub x y (x - y)
  | mul (x y) : PyOp .mul x y (x * y)
  /-- `x // y` is the largest integer `q` with `q * y ≤ x` (y > 0), resp. `q * y ≥ x` (y < 0). -/
  | floordivPos (x y q) (hy : 0 < y) (h1 : q * y ≤ x) (h2 : x < (q + 1) * y) : PyOp .floordiv x y q
  | floordivNeg (x y q) (hy : y < 0) (h1 : x ≤ q * y) (h2 : (q + 1) * y < x) : PyOp .floordiv x y q
  /-- `x % y = x - y * (x // y)`. -/
  | mod (x y q) (h : PyOp .floordiv x y q) : PyOp .mod x y (x - y * q)
  | pow (x) (n : ℕ) : PyOp .pow x n (x ^ n)
  | eqT (x) : PyOp .eq x x 1
  | eqF (x y) (h : x ≠ y) : PyOp .eq x y 0
  | neT (x y) (h : x ≠ y) : PyOp .ne x y 1
  | neF (x) : PyOp .ne x x 0
  | ltT (x y) (h : x < y) : PyOp .lt x y 1
  | ltF (x y) (h : y ≤ x) : PyOp .lt x y 0
  | leT (x y) (h : x ≤ y) : PyOp .le x y 1
  | leF (x y) (h : y < x) : PyOp .le x y 0
  | gtT (x y) (h : y < x) : PyOp .gt x y 1
  | gtF (x y) (h : x ≤ y) : PyOp .gt x y 0
  | geT (x y) (h : y ≤ x) : PyOp .ge x y 1
  | geF (x y) (h : x < y) : PyOp .ge x y 0
  | orT1 (x y) (h : x ≠ 0) : PyOp .or_ x y 1
  | orT2 (x y) (h : y ≠ 0) : PyOp .or_ x y 1
  | orF : PyOp .or_ 0 0 0
  | andT (x y) (hx : x ≠ 0) (hy : y ≠ 0) : PyOp .and_ x y 1
  | andF1 (y) : PyOp .and_ 0 y 0
  | andF2 (x) : PyOp .and_ x 0 0

theorem pyOp_floordiv (x y : ℤ) (hy : y ≠ 0) : PyOp .floordiv x y (x.fdiv y) := by
  have h := Int.mul_fdiv_add_fmod x y
  rcases lt_or_gt_of_ne hy with hy' | hy'
  · have h1 : x.fmod y ≤ 0 := by
      have := Int.fmod_nonneg_of_pos (-x) (b := -y) (by omega)
      rw [Int.neg_fmod_neg] at this; omega
    have h2 : y < x.fmod y := by
      have := Int.fmod_lt_of_pos (-x) (b := -y) (by omega)
      rw [Int.neg_fmod_neg] at this; omega
    exact .floordivNeg _ _ _ hy' (by nlinarith) (by nlinarith)
  · have h1 := Int.fmod_nonneg_of_pos x hy'
    have h2 := Int.fmod_lt_of_pos x hy'
    exact .floordivPos _ _ _ hy' (by nlinarith) (by nlinarith)

/-- The model's operators have the described meaning, and it is unique. -/
theorem eval_iff (op : BinOp) (x y z : ℤ) : op.eval x y = .ok z ↔ PyOp op x y z := by
  constructor
  · intro h
    cases op <;> simp only [BinOp.eval] at h
    case add => cases h; exact .add _ _
    case sub => cases h; exact .sub _ _
    case mul => cases h; exact .mul _ _
    case floordiv => split at h <;> cases h; exact pyOp_floordiv x y ‹_›
    case truediv => split at h <;> cases h
    case mod =>
      split at h <;> cases h
      have e : x.fmod y = x - y * x.fdiv y := by have := Int.mul_fdiv_add_fmod x y; omega
      rw [e]; exact .mod _ _ _ (pyOp_floordiv x y ‹_›)
    case pow =>
      split at h
      · cases h
        have : y = (y.toNat : ℤ) := by omega
        conv => arg 3; rw [this]
        exact .pow _ _
      · split at h <;> cases h
    all_goals
      cases h
      unfold ofBool
      split <;> rename_i hc <;> simp only [decide_eq_true_eq] at hc
    · subst hc; exact .eqT _
    · exact .eqF _ _ hc
    · exact .neT _ _ hc
    · rw [not_not] at hc; subst hc; exact .neF _
    · exact .ltT _ _ hc
    · exact .ltF _ _ (not_lt.1 hc)
    · exact .leT _ _ hc
    · exact .leF _ _ (not_le.1 hc)
    · exact .gtT _ _ hc
    · exact .gtF _ _ (not_lt.1 hc)
    · exact .geT _ _ hc
    · exact .geF _ _ (not_le.1 hc)
    · rcases hc with hc | hc
      · exact .orT1 _ _ hc
      · exact .orT2 _ _ hc
    · push Not at hc; obtain ⟨rfl, rfl⟩ := hc; exact .orF
    · exact .andT _ _ hc.1 hc.2
    · by_cases hx : x = 0
      · subst hx; exact .andF1 _
      · have : y = 0 := by by_contra hy; exact hc ⟨hx, hy⟩
        subst this; exact .andF2 _
  · have fd : ∀ x y q, PyOp .floordiv x y q → y ≠ 0 ∧ x.fdiv y = q := by
      intro x y q h
      cases h with
      | floordivPos _ _ _ hy h1 h2 =>
        refine ⟨by omega, ?_⟩
        rw [Int.fdiv_eq_ediv_of_nonneg _ hy.le]
        exact (Int.ediv_eq_iff_of_pos hy).2 ⟨h1, by nlinarith⟩
      | floordivNeg _ _ _ hy h1 h2 =>
        refine ⟨by omega, ?_⟩
        rw [← Int.neg_fdiv_neg, Int.fdiv_eq_ediv_of_nonneg _ (by omega)]
        exact (Int.ediv_eq_iff_of_pos (by omega)).2 ⟨by nlinarith, by nlinarith⟩
    intro h
    cases h <;> simp only [BinOp.eval, ofBool]
    case floordivPos hy h1 h2 =>
      have := fd _ _ _ (.floordivPos _ _ _ hy h1 h2)
      rw [if_neg this.1, this.2]
    case floordivNeg hy h1 h2 =>
      have := fd _ _ _ (.floordivNeg _ _ _ hy h1 h2)
      rw [if_neg this.1, this.2]
    case mod q h =>
      have := fd _ _ _ h
      rw [if_neg this.1, ← this.2]
      have := Int.mul_fdiv_add_fmod x y
      congr 1; omega
    all_goals simp_all

/-- C05. If no warning was logged, `X op Y` is distributed as `x op y` for independent `x ~ X`,
`y ~ Y`: for the function `F` that computes `op` on the outcomes, every expectation over the result is
the iterated expectation. -/
theorem C05_binop_law (st : Settings) (op : BinOp) (X Y r : RV ℤ) (F : ℤ → ℤ → ℤ)
    (hF : ∀ x ∈ X.vals, ∀ y ∈ Y.vals, PyOp op x y (F x y))
    (hr : X.binop st op Y = .ok (r, false)) (hX : mass X.pairs ≠ 0) (hY : mass Y.pairs ≠ 0)
    (f : ℤ → ℚ) :
    Ex r.pairs f = Ex X.pairs fun x => Ex Y.pairs fun y => f (F x y) := by
  have := RV.convolveRV_Ex (F := F) (fun x hx y hy => (eval_iff _ _ _ _).2
    (hF _ (RV.mem_vals_of_pairs hx) _ (RV.mem_vals_of_pairs hy))) hr hX hY f
  simpa using this

/-- C05. The operator is defined on all pairs of outcomes if the operation succeeds; if it raises on
one pair, `X op Y` raises. -/
theorem C05_binop_raises (st : Settings) (op : BinOp) (X Y : RV ℤ)
    (hX : X.vals.length = X.probs.length) (hY : Y.vals.length = Y.probs.length)
    (x y : ℤ) (hx : x ∈ X.vals) (hy : y ∈ Y.vals) (h : ¬ ∃ z, PyOp op x y z) :
    ∃ e, X.binop st op Y = .error e := by
  cases hb : X.binop st op Y with
  | error e => exact ⟨e, rfl⟩
  | ok r =>
    exfalso
    rw [← RV.pairs_map_fst X hX] at hx
    rw [← RV.pairs_map_fst Y hY] at hy
    obtain ⟨px, hpx, rfl⟩ := List.mem_map.1 hx
    obtain ⟨py, hpy, rfl⟩ := List.mem_map.1 hy
    obtain ⟨z, hz⟩ := RV.convolveRV_inv hb px hpx py hpy
    exact h ⟨z, (eval_iff _ _ _ _).1 hz⟩

/-- C05. If the operation is defined on all pairs and the product of the total weights is at most the
limit, `X op Y` succeeds and no warning is logged. -/
theorem C05_binop_succeeds (st : Settings) (op : BinOp) (X Y : RV ℤ)
    (h : ∀ x ∈ X.vals, ∀ y ∈ Y.vals, ∃ z, PyOp op x y z)
    (hlen : X.vals.length = X.probs.length) (hlen' : Y.vals.length = Y.probs.length)
    (hs : X.probs.sum * Y.probs.sum ≤ RV.sumLimit) : ∃ r, X.binop st op Y = .ok (r, false) := by
  have hF : ∀ x ∈ X.pairs, ∀ y ∈ Y.pairs, op.eval x.1 y.1 = .ok (RV.valueOf op.eval x.1 y.1) := by
    intro x hx y hy
    obtain ⟨z, hz⟩ := h _ (RV.mem_vals_of_pairs hx) _ (RV.mem_vals_of_pairs hy)
    exact RV.valueOf_ok ⟨z, (eval_iff _ _ _ _).2 hz⟩
  rw [RV.binop, RV.convolveRV_ok hF]
  obtain ⟨r, hr⟩ := RV.mk'_int_ok st (RV.toTuples (RV.rdictOf (RV.prodPairs X.pairs Y.pairs (RV.valueOf op.eval))))
  refine ⟨r, ?_⟩
  rw [hr]
  apply RV.probLimit_le
  refine (RV.mk'_sum_le hr).trans (max_le (by simp [RV.sumLimit]) (le_trans (le_of_eq ?_) hs))
  have : (((((RV.toTuples (RV.rdictOf (RV.prodPairs X.pairs Y.pairs (RV.valueOf op.eval)))).map
      fun x => (x.2 : ℤ)).map Int.toNat).sum : ℕ) : ℚ) = (X.probs.sum * Y.probs.sum : ℕ) := by
    rw [List.map_map]
    simp only [Function.comp_def, Int.toNat_natCast]
    rw [← mass_eq_sum, mass, RV.tuples_wsum, ← mass, RV.prodPairs_mass, mass_eq_sum, mass_eq_sum,
      RV.pairs_map_snd X hlen, RV.pairs_map_snd Y hlen']
    push_cast; rfl
  exact_mod_cast this

example : (⟨[1, 2], [1, 1], none⟩ : RV ℤ).binop {} .mul ⟨[3, 4], [1, 2], none⟩ =
    .ok (⟨[3, 4, 6, 8], [1, 2, 1, 2], none⟩, false) := by decide +kernel

/-- C06. `X op n` is distributed as `x op n` (no warning is ever logged), and it raises exactly when
the operation is undefined for some outcome. -/
theorem C06_binop_number (st : Settings) (op : BinOp) (X : RV ℤ) (n : ℤ)
    (hl : X.vals.length = X.probs.length) :
    ((∃ r, X.binopNum st op n = .ok r) ↔ ∀ x ∈ X.vals, ∃ z, PyOp op x n z) ∧
    ∀ r, X.binopNum st op n = .ok r → mass X.pairs ≠ 0 →
      ∀ F : ℤ → ℤ, (∀ x ∈ X.vals, PyOp op x n (F x)) → ∀ f : ℤ → ℚ,
        Ex r.pairs f = Ex X.pairs fun x => f (F x) := by
  refine ⟨⟨?_, ?_⟩, ?_⟩
  · rintro ⟨r, hr⟩ x hx
    obtain ⟨z, hz⟩ := RV.mapVals_inv hr x hx
    exact ⟨z, (eval_iff _ _ _ _).1 hz⟩
  · intro h
    have hF : ∀ x ∈ X.vals, op.eval x n = .ok (RV.valueOf op.eval x n) := fun x hx =>
      RV.valueOf_ok ((h x hx).imp fun z hz => (eval_iff _ _ _ _).2 hz)
    rw [RV.binopNum, RV.mapVals_ok hF, RV.mk'_eq, if_neg (by simpa using hl), RV.truncated_int]
    simp only
    rw [if_pos (by simp)]
    split <;> exact ⟨_, rfl⟩
  · intro r hr hm F hF f
    have := RV.mapVals_Ex (F := F) (fun x hx => (eval_iff _ _ _ _).2 (hF x hx)) hr hm f
    simpa using this

/-- C06. `n op X` is distributed as `n op x`. -/
theorem C06_number_binop (st : Settings) (op : BinOp) (X : RV ℤ) (n : ℤ)
    (hl : X.vals.length = X.probs.length) :
    ((∃ r, RV.rbinopNum st op n X = .ok r) ↔ ∀ x ∈ X.vals, ∃ z, PyOp op n x z) ∧
    ∀ r, RV.rbinopNum st op n X = .ok r → mass X.pairs ≠ 0 →
      ∀ F : ℤ → ℤ, (∀ x ∈ X.vals, PyOp op n x (F x)) → ∀ f : ℤ → ℚ,
        Ex r.pairs f = Ex X.pairs fun x => f (F x) := by
  refine ⟨⟨?_, ?_⟩, ?_⟩
  · rintro ⟨r, hr⟩ x hx
    obtain ⟨z, hz⟩ := RV.mapVals_inv hr x hx
    exact ⟨z, (eval_iff _ _ _ _).1 hz⟩
  · intro h
    have hF : ∀ x ∈ X.vals, op.eval n x = .ok (RV.valueOf op.eval n x) := fun x hx =>
      RV.valueOf_ok ((h x hx).imp fun z hz => (eval_iff _ _ _ _).2 hz)
    rw [RV.rbinopNum, RV.mapVals_ok hF, RV.mk'_eq, if_neg (by simpa using hl), RV.truncated_int]
    simp only
    rw [if_pos (by simp)]
    split <;> exact ⟨_, rfl⟩
  · intro r hr hm F hF f
    have := RV.mapVals_Ex (F := F) (fun x hx => (eval_iff _ _ _ _).2 (hF x hx)) hr hm f
    simpa using this

example : (⟨[1, 2, 3], [1, 1, 1], none⟩ : RV ℤ).binopNum {} .floordiv (-2) =
    .ok ⟨[-2, -1], [1, 2], none⟩ := by decide +kernel
example : RV.rbinopNum {} .mod (-7) (⟨[2, 3], [1, 1], none⟩ : RV ℤ) =
    .ok ⟨[1, 2], [1, 1], none⟩ := by decide +kernel
example : ∃ e, RV.rbinopNum {} .mod 1 (⟨[0, 3], [1, 1], none⟩ : RV ℤ) = .error e := ⟨.zeroDivision, by decide +kernel⟩

end PythonDice
