import Verif.Proofs.Expect
import Verif.Props.Identities

/-!
# C75: means and variances of what the library makes
-/

namespace PythonDice
open Spec
open Spec.Naive (Law mean push andThen draws rolls)
open Enum

/-- Begun in any state with such settings, a computation gives a die like this, unless probabilities were rounded (which is logged) or the limiter of
probabilities overflowed. -/
def GivesDie (I : Settings → Prop) (m : M Obj) (P : RV ℤ → Prop) : Prop :=
  ∀ w, Reachable w → I w.settings → (m w).2.warns = 0 → (m w).1 = .error .overflow ∨ ∃ x : RV ℤ, (m w).1 = .ok (.rv x) ∧ P x

/-- The mean of the die that a computation gives; `mean()` shows it, to the nearest double. -/
def HasMean (I : Settings → Prop) (m : M Obj) (q : ℚ) : Prop := GivesDie I m fun x =>
  Mean x.pairs = q ∧ (∀ y, x.mean = .ok (some y) → NearestDouble q y) ∧ (|q| < RV.floatOverflow → ∃ y, x.mean = .ok (some y))

/-- The variance of the die that a computation gives. -/
def HasVariance (I : Settings → Prop) (m : M Obj) (v : ℚ) : Prop := GivesDie I m fun x => Variance x.pairs = v

theorem Enum.gives {I : Settings → Prop} {m : M Obj} {l : Law} {p : Option (ℕ × Law)} (h : Full I m fun o => Rep o (.die l p)) :
    GivesDie I m fun x => DieRep x l := by
  intro w hw hi h0
  rcases h.2 w hw hi h0 with ⟨o, ho⟩ | ho
  · obtain ⟨x, rfl, hx, _⟩ := (((h.1 w hw hi).2.2 o ho).2 h0).die_inv
    exact .inr ⟨x, ho, hx⟩
  · exact .inl ho

theorem GivesDie.mono {I : Settings → Prop} {m : M Obj} {P Q : RV ℤ → Prop} (h : GivesDie I m P) (hPQ : ∀ x, P x → Q x) : GivesDie I m Q := by
  intro w hw hi h0
  rcases h w hw hi h0 with h | ⟨x, h1, h2⟩
  · exact .inl h
  · exact .inr ⟨x, h1, hPQ x h2⟩

theorem Enum.has_mean {I : Settings → Prop} {m : M Obj} {l : Law} {p : Option (ℕ × Law)} (h : Full I m fun o => Rep o (.die l p)) {q : ℚ}
    (hq : mean l (fun x => (x : ℚ)) = q) : HasMean I m q := by
  refine (gives h).mono fun x hx => ?_
  have e : Mean x.pairs = q := by rw [← hq, ← hx.law]; rfl
  obtain ⟨_, h2, h3⟩ := C26_mean x hx.proper.len
  rw [e] at h2 h3
  exact ⟨e, h2, h3 hx.proper.pos⟩

theorem Enum.has_variance {I : Settings → Prop} {m : M Obj} {l : Law} {p : Option (ℕ × Law)} (h : Full I m fun o => Rep o (.die l p)) {v : ℚ}
    (hv : mean l (fun x => (x : ℚ) ^ 2) - (mean l fun x => (x : ℚ)) ^ 2 = v) : HasVariance I m v := by
  refine (gives h).mono fun x hx => ?_
  rw [← (C26_variance x.pairs hx.proper.pos).1, ← hv, ← hx.law, ← hx.law]
  rfl

theorem Enum.lawOf_var {X : RV ℤ} (hX : GoodDie X) :
    mean (lawOf X) (fun x => (x : ℚ) ^ 2) - (mean (lawOf X) fun x => (x : ℚ)) ^ 2 = Variance X.pairs := by
  rw [mean_lawOf, mean_lawOf, ← (C26_variance X.pairs (GoodDie.proper hX).pos).1]
  rfl

theorem Enum.lawOf_mean' (X : RV ℤ) : (mean (lawOf X) fun x => (x : ℚ)) = Mean X.pairs := mean_lawOf _ _

theorem Enum.lawOf_total {X : RV ℤ} (hX : GoodDie X) : mean (lawOf X) (fun _ => 1) = 1 := (rep_good hX).law.2

/-- **C75** (src/roller.py `roll`, src/randvar.py `RV.mean`): `ndX` has mean `n*μ`. -/
theorem C75_roll_mean (n : ℤ) {X : RV ℤ} (hX : GoodDie X) : HasMean AnySettings (roll (.num n) (.rv X)) (n * Mean X.pairs) :=
  has_mean (full_rolls n (rep_good hX)) (by rw [rolls_linear (lawOf_total hX), lawOf_mean'])

/-- **C75** (src/roller.py `roll`, src/randvar.py `RV.std`): `ndX` has variance `|n|*σ²`. -/
theorem C75_roll_variance (n : ℤ) {X : RV ℤ} (hX : GoodDie X) : HasVariance AnySettings (roll (.num n) (.rv X)) (|(n : ℚ)| * Variance X.pairs) :=
  has_variance (full_rolls n (rep_good hX)) (by rw [rolls_linear (lawOf_total hX), rolls_square (lawOf_total hX), lawOf_var hX]; ring)

/-- **C75** (src/roller.py `roll` with a die for the number of dice): `Y dX` has mean `E[Y]*μ`. -/
theorem C75_random_count_mean {X Y : RV ℤ} (hX : GoodDie X) (hY : GoodDie Y) :
    HasMean AnySettings (roll (.rv Y) (.rv X)) (Mean Y.pairs * Mean X.pairs) := by
  refine has_mean (l := andThen (lawOf Y) fun k => rolls k (lawOf X)) (p := none) (full_roll (rep_good hY) (rep_good hX)) ?_
  rw [mean_andThen]
  simp only [rolls_linear (lawOf_total hX), lawOf_mean']
  rw [show (fun k : ℤ => (k : ℚ) * Mean X.pairs) = fun k : ℤ => Mean X.pairs * (k : ℚ) by funext k; ring, mean_mul_left, lawOf_mean', mul_comm]

/-- **C75** (src/roller.py `roll` with a die for the number of dice): `Y dX` has variance `E|Y|*σ² + Var(Y)*μ²`. -/
theorem C75_random_count_variance {X Y : RV ℤ} (hX : GoodDie X) (hY : GoodDie Y) : HasVariance AnySettings (roll (.rv Y) (.rv X))
    ((Ex Y.pairs fun y => |(y : ℚ)|) * Variance X.pairs + Variance Y.pairs * Mean X.pairs ^ 2) := by
  refine has_variance (l := andThen (lawOf Y) fun k => rolls k (lawOf X)) (p := none) (full_roll (rep_good hY) (rep_good hX)) ?_
  rw [mean_andThen, mean_andThen]
  simp only [rolls_linear (lawOf_total hX), rolls_square (lawOf_total hX), lawOf_var hX]
  simp only [lawOf_mean']
  rw [mean_add, show (fun k : ℤ => |(k : ℚ)| * Variance X.pairs) = fun k : ℤ => Variance X.pairs * |(k : ℚ)| by funext k; ring,
    show (fun k : ℤ => (k : ℚ) ^ 2 * Mean X.pairs ^ 2) = fun k : ℤ => Mean X.pairs ^ 2 * (k : ℚ) ^ 2 by funext k; ring,
    show (fun k : ℤ => (k : ℚ) * Mean X.pairs) = fun k : ℤ => Mean X.pairs * (k : ℚ) by funext k; ring, mean_mul_left, mean_mul_left, mean_mul_left,
    ← lawOf_var hY, mean_lawOf Y fun k => |(k : ℚ)|]
  ring

/-- **C75** (src/randvar.py `RV.__mul__`): the mean of a product of dice is the product of the means. -/
theorem C75_product_mean {X Y : RV ℤ} (hX : GoodDie X) (hY : GoodDie Y) :
    HasMean AnySettings (binop .mul (.rv X) (.rv Y)) (Mean X.pairs * Mean Y.pairs) := by
  refine has_mean (p := some (1, _)) (full_op (op := .mul) (by decide) (fun _ _ => rfl) (rep_good hX) (rep_good hY)) ?_
  simp only [mean_andThen, mean_push, Naive.arith, Int.cast_mul, mean_mul_left, lawOf_mean']
  rw [show (fun x : ℤ => (x : ℚ) * Mean Y.pairs) = fun x : ℤ => Mean Y.pairs * (x : ℚ) by funext x; ring, mean_mul_left, lawOf_mean', mul_comm]

/-- **C75** (src/randvar.py comparisons): the mean of a comparison is the probability that it holds. -/
theorem C75_comparison_mean {X Y : RV ℤ} (hX : GoodDie X) (hY : GoodDie Y) :
    HasMean AnySettings (binop .lt (.rv X) (.rv Y)) (Ex X.pairs fun x => Pr Y.pairs fun y => x < y) ∧
    HasMean AnySettings (binop .le (.rv X) (.rv Y)) (Ex X.pairs fun x => Pr Y.pairs fun y => x ≤ y) ∧
    HasMean AnySettings (binop .eq (.rv X) (.rv Y)) (Ex X.pairs fun x => Pr Y.pairs fun y => x = y) := by
  have bit : ∀ p : Prop, ∀ [Decidable p], ((Naive.bit (decide p) : ℤ) : ℚ) = if p then 1 else 0 := by
    intro p _
    by_cases h : p <;> simp [Naive.bit, h]
  refine ⟨has_mean (p := some (1, _)) (full_op (op := .lt) (by decide) (fun _ _ => rfl) (rep_good hX) (rep_good hY)) ?_,
    has_mean (p := some (1, _)) (full_op (op := .le) (by decide) (fun _ _ => rfl) (rep_good hX) (rep_good hY)) ?_,
    has_mean (p := some (1, _)) (full_op (op := .eq) (by decide) (fun _ _ => rfl) (rep_good hX) (rep_good hY)) ?_⟩ <;>
  · simp only [mean_andThen, mean_push, Naive.arith, Naive.test, bit, mean_lawOf]
    rfl

/-- **C75** (src/randvar.py `RV.__rmatmul__`, `RV.kth_order_statistic`): the means of the `k`-th highest of `n` dice, for `k = 1, …, n`, do not
increase, and together they are `n*μ`. -/
theorem C75_places {n : ℕ} (hn : 2 ≤ n) {X : RV ℤ} (hX : GoodDie X) : ∃ q : ℕ → ℚ,
    (∀ i < n, HasMean HighestFirst (do let a ← roll (.num n) (.rv X); matmul (.num (1 + i)) a) (q i)) ∧
    (∀ i j, i ≤ j → j < n → q j ≤ q i) ∧ ∑ i ∈ Finset.range n, q i = n * Mean X.pairs := by
  have hr := rep_good hX
  refine ⟨fun i => mean (draws (lawOf X) n) fun xs => (Naive.elemAt (descending xs) (1 + i) : ℚ), fun i hi => ?_, fun i j hij hj => ?_, ?_⟩
  · exact has_mean (p := some (1, _)) (Full.next (full_pool hn hr) (fun a ha => full_matmul (low := false) (ints := false) (fun st h => h)
      (a := .num (1 + i)) (u := .num (1 + i)) rfl ha (if_pos ⟨by omega, by omega⟩) (fun _ _ _ => by simp)) fun a => Calm.matmul _ _)
      (by rw [mean_push]; rfl)
  · refine mean_le (hr.law.1.draws n) fun xs hxs => ?_
    exact_mod_cast descending_antitone xs.1 (mem_fst_draws.1 (List.mem_map_of_mem (f := Prod.fst) hxs)).1 hij hj
  · rw [← mean_sum, ← lawOf_mean', ← sumMean_linear (lawOf_total hX), sumMean]
    refine mean_congr fun xs hxs => ?_
    rw [← sum_places xs.1 (mem_fst_draws.1 (List.mem_map_of_mem (f := Prod.fst) hxs)).1]
    push_cast
    rfl

/-- **C75** (src/funclib.py:64-71): `[highest k of ndX]` and `[lowest n-k of ndX]` together have mean `n*μ`. -/
theorem C75_highest_lowest {n k : ℕ} (hn : 2 ≤ n) (hk : k ≤ n) {X : RV ℤ} (hX : GoodDie X) : ∃ q q' : ℚ,
    HasMean HighestFirst (do let a ← roll (.num n) (.rv X); highestN (.num k) a) q ∧
    HasMean HighestFirst (do let a ← roll (.num n) (.rv X); lowestN (.num (n - k : ℕ)) a) q' ∧ q + q' = n * Mean X.pairs := by
  have hr := rep_good hX
  have hp := hr.law.1
  refine ⟨_, _, has_mean (p := none) (Full.next (full_pool hn hr) (fun a ha => full_highestN hk (fun _ h => h) ha hp) fun a => Calm.highestN _ _) rfl,
    has_mean (p := none) (Full.next (full_pool hn hr) (fun a ha => full_lowestN (k := n - k) (by omega) (fun _ h => h) ha hp)
      fun a => Calm.lowestN _ _) rfl, ?_⟩
  rw [mean_push, mean_push, ← mean_add, ← lawOf_mean', ← sumMean_linear (lawOf_total hX), sumMean]
  refine mean_congr fun xs hxs => ?_
  rw [← high_low xs.1 (mem_fst_draws.1 (List.mem_map_of_mem (f := Prod.fst) hxs)).1 hk]
  push_cast
  rfl

/-- **C75** (src/funclib.py:87-98): `[highest of X and Y]` and `[lowest of X and Y]` together have the mean of `X + Y`. -/
theorem C75_highest_of_mean {X Y : RV ℤ} (hX : GoodDie X) (hY : GoodDie Y) : ∃ q q' : ℚ,
    HasMean AnySettings (highestOf (.rv X) (.rv Y)) q ∧ HasMean AnySettings (lowestOf (.rv X) (.rv Y)) q' ∧
    q + q' = Mean X.pairs + Mean Y.pairs ∧ q' ≤ Mean X.pairs ∧ Mean X.pairs ≤ q := by
  have hr := rep_good hX
  have hs := rep_good hY
  have ty := lawOf_total hY
  have left : (mean (lawOf X) fun x => mean (lawOf Y) fun _ => (x : ℚ)) = Mean X.pairs := by
    rw [← lawOf_mean']
    congr 1
    funext x
    rw [mean_const, ty, mul_one]
  refine ⟨_, _, has_mean (p := none) (full_highestOf hr hs) rfl, has_mean (p := none) (full_lowestOf hr hs) rfl, ?_, ?_, ?_⟩ <;>
    simp only [mean_andThen, mean_push]
  · rw [← left, ← mean_add, ← lawOf_mean' Y]
    have : (mean (lawOf Y) fun y => (y : ℚ)) = mean (lawOf X) fun _ => mean (lawOf Y) fun y => (y : ℚ) := by
      rw [mean_const (lawOf X), lawOf_total hX, mul_one]
    rw [this, ← mean_add]
    congr 1
    funext x
    rw [← mean_add, ← mean_add]
    congr 1
    funext y
    have := max_add_min x y
    exact_mod_cast this
  · rw [← left]
    exact mean_le hr.law.1 fun x _ => mean_le hs.law.1 fun y _ => by exact_mod_cast min_le_left _ _
  · rw [← left]
    exact mean_le hr.law.1 fun x _ => mean_le hs.law.1 fun y _ => by exact_mod_cast le_max_left _ _

/-- **C75** (src/funclib.py `count`): `[count vs in ndX]` has mean `n` times the sum of the probabilities of the numbers in `vs`. -/
theorem C75_count_mean (vs : List ℤ) {n : ℕ} (hn : 2 ≤ n) {X : RV ℤ} (hX : GoodDie X) :
    HasMean AnySettings (do let a ← roll (.num n) (.rv X); countIn (.seq vs) a) (n * (vs.map fun v => Pr X.pairs fun x => x = v).sum) := by
  have hr := rep_good hX
  refine has_mean (p := none) (Full.next (full_pool hn hr) (fun a ha => full_countIn vs ha hr.law.1 hr.law.2) fun a => Calm.countIn _ _) ?_
  rw [mean_push]
  induction vs with
  | nil => simp only [List.map_nil, List.sum_nil, Nat.cast_zero, Int.cast_zero]; rw [mean_const]; simp
  | cons v vs ih =>
    have e : (fun xs : List ℤ => (((((v :: vs).map fun v => xs.count v).sum : ℕ) : ℤ) : ℚ)) =
        fun xs : List ℤ => (xs.count v : ℚ) + ((((vs.map fun v => xs.count v).sum : ℕ) : ℤ) : ℚ) := by
      funext xs
      simp
    rw [e, mean_add, ih, mean_count hr.law.2, mean_lawOf, List.map_cons, List.sum_cons, mul_add]
    rfl

/-- **C75** (src/funclib.py `explode`): with `explode depth` `e`, `[explode X]` has mean `μ*(1 + p + … + p^e)`, where `p` is the probability of the
highest outcome. -/
theorem C75_explode_mean (e : ℕ) {X : RV ℤ} (hX : GoodDie X) {mx : ℤ} (h1 : mx ∈ X.vals) (h2 : ∀ v ∈ X.vals, v ≤ mx) :
    HasMean (fun st => st.explodeDepth = e) (explode (.rv X))
      (Mean X.pairs * ∑ i ∈ Finset.range (e + 1), (Pr X.pairs fun x => x = mx) ^ i) := by
  refine has_mean (p := some (1, _)) (full_explode (e := e) (fun st h => by rw [h]; rfl) (rep_good hX)) ?_
  rw [highest_max hX h1 h2, explode_mean (lawOf_total hX), lawOf_mean', mean_lawOf]
  rfl

/-- **C75** (src/funclib.py:11-15 `absolute`): the mean of `[absolute X]` is `E|X|`, at least the mean of `X`, and at least minus it. -/
theorem C75_absolute_mean {X : RV ℤ} (hX : GoodDie X) :
    HasMean AnySettings (absolute (.rv X)) (Ex X.pairs fun x => |(x : ℚ)|) ∧ |Mean X.pairs| ≤ Ex X.pairs fun x => |(x : ℚ)| := by
  have hr := rep_good hX
  constructor
  · refine has_mean (p := none) (full_absolute hr) ?_
    rw [mean_push, mean_lawOf]
    push_cast
    rfl
  · rw [← mean_lawOf, ← lawOf_mean', abs_le]
    constructor
    · have := mean_le (f := fun x : ℤ => -1 * |(x : ℚ)|) (g := fun x : ℤ => (x : ℚ)) hr.law.1 fun x _ => by
        rw [neg_one_mul]; exact neg_abs_le _
      rw [mean_mul_left] at this
      linarith
    · exact mean_le hr.law.1 fun x _ => le_abs_self _

/-! ## Cases -/

/-- The mean of what is given in the initial state. -/
def givenMean (m : M Obj) : Option ℚ := (given m).map fun d => Mean (d.1.zip d.2)

/-- The variance of what is given in the initial state. -/
def givenVariance (m : M Obj) : Option ℚ := (given m).map fun d => Variance (d.1.zip d.2)

example : givenMean (pure (.rv loaded)) = some (13 / 6) ∧ givenMean (roll (.num (-2)) (.rv loaded)) = some (-13 / 3) ∧
    givenVariance (pure (.rv loaded)) = some (77 / 36) ∧ givenVariance (roll (.num (-2)) (.rv loaded)) = some (77 / 18) := by decide +kernel

example : givenMean (pure (.rv coin)) = some (2 / 3) ∧ givenVariance (pure (.rv coin)) = some (2 / 9) ∧
    givenMean (roll (.rv coin) (.rv loaded)) = some (2 / 3 * (13 / 6)) ∧
    givenVariance (roll (.rv coin) (.rv loaded)) = some (2 / 3 * (77 / 36) + 2 / 9 * (13 / 6) ^ 2) := by decide +kernel

example : givenMean (binop .mul (.rv coin) (.rv loaded)) = some (2 / 3 * (13 / 6)) ∧ givenMean (binop .lt (.rv coin) (.rv loaded)) = some (5 / 6) := by
  decide +kernel

/-- The two places of two loaded dice, and their sum `2 * 13 / 6`. -/
example : givenMean (do let a ← roll (.num 2) (.rv loaded); matmul (.num (1 + 0)) a) = some (101 / 36) ∧
    givenMean (do let a ← roll (.num 2) (.rv loaded); matmul (.num (1 + 1)) a) = some (55 / 36) ∧ (101 / 36 : ℚ) + 55 / 36 = 2 * (13 / 6) := by
  refine ⟨by decide +kernel, by decide +kernel, by norm_num⟩

example : givenMean (do let a ← roll (.num 3) (.rv coin); highestN (.num 2) a) = some (46 / 27) ∧
    givenMean (do let a ← roll (.num 3) (.rv coin); lowestN (.num 1) a) = some (8 / 27) := by decide +kernel

example : givenMean (highestOf (.rv coin) (.rv loaded)) = some (22 / 9) ∧ givenMean (lowestOf (.rv coin) (.rv loaded)) = some (7 / 18) := by
  decide +kernel

example : givenMean (do let a ← roll (.num 2) (.rv loaded); countIn (.seq [3, -1, 3]) a) = some (2 * (2 / 3 + 1 / 6 + 2 / 3)) := by decide +kernel

example : givenMean (explode (.rv coin)) = some (2 / 3 * (1 + 2 / 3 + (2 / 3) ^ 2)) ∧ ({} : Settings).explodeDepth = 2 := by decide +kernel

example : givenMean (absolute (.rv loaded)) = some (5 / 2) := by decide +kernel

end PythonDice
