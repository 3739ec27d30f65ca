import Verif.Proofs.Formulas
import Verif.Spec.Formulas
import Verif.Props.Expect

/-!
# C83: the probabilities are those of the textbook formulas
-/

namespace PythonDice
open Spec
open Spec.Naive (Law mean push andThen draws rolls)
open Enum

/-- The probability that the die that a computation gives has such an outcome. -/
def HasProb (I : Settings → Prop) (m : M Obj) (P : ℤ → Prop) [DecidablePred P] (q : ℚ) : Prop := GivesDie I m fun x => Pr x.pairs P = q

theorem Enum.has_prob {I : Settings → Prop} {m : M Obj} {l : Law} {p : Option (ℕ × Law)} (h : Full I m fun o => Rep o (.die l p))
    (P : ℤ → Prop) [DecidablePred P] {q : ℚ} (hq : (mean l fun x => if P x then 1 else 0) = q) : HasProb I m P q := by
  refine (gives h).mono fun x hx => ?_
  rw [← hq, ← hx.law]
  rfl

/-- **C83** (src/randvar.py `RV.__rmatmul__`, `RV.kth_order_statistic`): the `k`-th highest of `n` dice is at least `t` with the probability that at
least `k` of `n` independent dice are. -/
theorem C83_place {n k : ℕ} (hn : 2 ≤ n) (h1 : 1 ≤ k) (hk : k ≤ n) (t : ℤ) {X : RV ℤ} (hX : GoodDie X) :
    HasProb HighestFirst (do let a ← roll (.num n) (.rv X); matmul (.num k) a) (t ≤ ·)
      (∑ i ∈ Finset.Icc k n, binomial n (Pr X.pairs (t ≤ ·)) i) := by
  have hr := rep_good hX
  refine has_prob (p := some (1, _)) (Full.next (full_pool hn hr) (fun a ha => full_matmul (low := false) (ints := false) (fun st h => h)
    (a := .num k) (u := .num k) rfl ha (if_pos ⟨by omega, by omega⟩) (fun _ _ _ => by simp)) fun a => Calm.matmul _ _) _ ?_
  rw [mean_push]
  have e : mean (draws (lawOf X) n) (fun xs => if t ≤ Naive.elemAt (descending xs) k then (1 : ℚ) else 0) =
      mean (draws (lawOf X) n) fun xs => (fun i : ℕ => if k ≤ i then (1 : ℚ) else 0) (xs.countP fun x => t ≤ x) := by
    refine mean_congr fun xs hxs => ?_
    have hl := (mem_fst_draws.1 (List.mem_map_of_mem (f := Prod.fst) hxs)).1
    have := elemAt_ge xs.1 t (i := k - 1) (by omega)
    rw [show (1 + (k - 1 : ℕ) : ℤ) = k by omega, show k - 1 + 1 = k by omega] at this
    simp only [this]
  have e2 := mean_draws_countP (lawOf_total hX) (fun x => t ≤ x) n fun i : ℕ => if k ≤ i then (1 : ℚ) else 0
  refine (e.trans e2).trans ?_
  rw [mean_lawOf]
  simp only [mul_ite, mul_one, mul_zero]
  rw [← Finset.sum_filter]
  refine Finset.sum_congr ?_ fun i _ => rfl
  ext i
  simp only [Finset.mem_filter, Finset.mem_range, Finset.mem_Icc]
  omega

/-- **C83**: the highest of `n` dice is below `t` with the probability that all of them are. -/
theorem C83_highest {n : ℕ} (hn : 2 ≤ n) (t : ℤ) {X : RV ℤ} (hX : GoodDie X) :
    HasProb HighestFirst (do let a ← roll (.num n) (.rv X); matmul (.num 1) a) (t ≤ ·) (1 - (1 - Pr X.pairs (t ≤ ·)) ^ n) := by
  have h := C83_place (k := 1) hn le_rfl (by omega) t hX
  have e : ∑ i ∈ Finset.Icc 1 n, binomial n (Pr X.pairs (t ≤ ·)) i = 1 - (1 - Pr X.pairs (t ≤ ·)) ^ n := by
    generalize Pr X.pairs (t ≤ ·) = p
    have h2 : ∑ i ∈ Finset.range (n + 1), binomial n p i = 1 := by
      have := (add_pow p (1 - p) n).symm
      rw [add_sub_cancel, one_pow] at this
      rw [← this]
      exact Finset.sum_congr rfl fun i _ => by rw [binomial]; ring
    rw [Finset.range_eq_Ico, Finset.sum_eq_sum_Ico_succ_bot (by omega)] at h2
    have h3 : binomial n p 0 = (1 - p) ^ n := by simp [binomial]
    have h4 : Finset.Ico (0 + 1) (n + 1) = Finset.Icc 1 n := rfl
    rw [h3, h4] at h2
    linarith
  rw [← e]
  exact h

/-- **C83**: the lowest of `n` dice is at least `t` with the probability that all of them are. -/
theorem C83_lowest {n : ℕ} (hn : 2 ≤ n) (t : ℤ) {X : RV ℤ} (hX : GoodDie X) :
    HasProb HighestFirst (do let a ← roll (.num n) (.rv X); matmul (.num n) a) (t ≤ ·) (Pr X.pairs (t ≤ ·) ^ n) := by
  have h := C83_place (k := n) hn (by omega) le_rfl t hX
  have e : ∑ i ∈ Finset.Icc n n, binomial n (Pr X.pairs (t ≤ ·)) i = Pr X.pairs (t ≤ ·) ^ n := by simp [binomial]
  rw [← e]
  exact h

/-- **C83** (src/funclib.py:87-98): `[highest of X and Y]` is at most `t` when both are, and `[lowest of X and Y]` at least `t` when both are. -/
theorem C83_highest_of (t : ℤ) {X Y : RV ℤ} (hX : GoodDie X) (hY : GoodDie Y) :
    HasProb AnySettings (highestOf (.rv X) (.rv Y)) (· ≤ t) (Pr X.pairs (· ≤ t) * Pr Y.pairs (· ≤ t)) ∧
    HasProb AnySettings (lowestOf (.rv X) (.rv Y)) (t ≤ ·) (Pr X.pairs (t ≤ ·) * Pr Y.pairs (t ≤ ·)) := by
  have hr := rep_good hX
  have hs := rep_good hY
  have key : ∀ (P : ℤ → Prop) [DecidablePred P] (g : ℤ → ℤ → ℤ), (∀ x y, P (g x y) ↔ P x ∧ P y) →
      (mean (lawOf X) fun x => mean (lawOf Y) fun y => if P (g x y) then (1 : ℚ) else 0) = Pr X.pairs P * Pr Y.pairs P := by
    intro P _ g hg
    have e : ∀ x y, (if P (g x y) then (1 : ℚ) else 0) = (if P x then 1 else 0) * if P y then 1 else 0 := by
      intro x y
      by_cases h1 : P x <;> by_cases h2 : P y <;> simp [hg, h1, h2]
    simp only [e, mean_mul_left]
    rw [show (fun x : ℤ => (if P x then (1 : ℚ) else 0) * mean (lawOf Y) fun y => if P y then 1 else 0) =
      fun x : ℤ => (mean (lawOf Y) fun y => if P y then 1 else 0) * if P x then (1 : ℚ) else 0 by funext x; ring, mean_mul_left, mean_lawOf, mean_lawOf,
      mul_comm]
    rfl
  refine ⟨has_prob (p := none) (full_highestOf hr hs) _ ?_, has_prob (p := none) (full_lowestOf hr hs) _ ?_⟩ <;>
    simp only [mean_andThen, mean_push]
  · exact key (· ≤ t) max fun x y => max_le_iff
  · exact key (t ≤ ·) min fun x y => le_min_iff

/-- **C83** (src/funclib.py `count`): the number of dice of `ndX` that show `v` is binomially distributed. -/
theorem C83_count (v : ℤ) {n : ℕ} (hn : 2 ≤ n) {i : ℕ} (hi : i ≤ n) {X : RV ℤ} (hX : GoodDie X) :
    HasProb AnySettings (do let a ← roll (.num n) (.rv X); countIn (.seq [v]) a) (· = i) (binomial n (Pr X.pairs (· = v)) i) := by
  have hr := rep_good hX
  refine has_prob (p := none) (Full.next (full_pool hn hr) (fun a ha => full_countIn [v] ha hr.law.1 hr.law.2) fun a => Calm.countIn _ _) _ ?_
  rw [mean_push]
  have e : ∀ xs : List ℤ, (if ((([v].map fun v => xs.count v).sum : ℕ) : ℤ) = i then (1 : ℚ) else 0) =
      (fun j : ℕ => if j = i then (1 : ℚ) else 0) (xs.countP fun x => x = v) := by
    intro xs
    have : xs.count v = xs.countP fun x => x = v := by
      rw [List.count]
      refine List.countP_congr fun x _ => ?_
      simp
    simp only [List.map_cons, List.map_nil, List.sum_cons, List.sum_nil, add_zero, Nat.cast_inj, this]
  simp only [e]
  have e2 := mean_draws_countP (lawOf_total hX) (fun x => x = v) n fun j : ℕ => if j = i then (1 : ℚ) else 0
  refine e2.trans ?_
  rw [mean_lawOf, Finset.sum_eq_single_of_mem i (by simp; omega)]
  · rw [if_pos rfl, mul_one]; rfl
  · intro j _ hj
    rw [if_neg hj, mul_zero]

/-! ## Fair dice -/

theorem Enum.pos_fair {m : ℕ} (hm : 0 < m) : Pos (Naive.uniform (Naive.interval 1 m)) :=
  pos_uniform _ (fun h => by simpa [Naive.interval, hm.ne'] using congrArg List.length h)

theorem Enum.full_fair {I : Settings → Prop} (n : ℤ) {m : ℕ} (hm : 0 < m) : Full I (roll (.num n) (.num m)) fun y =>
    Rep y (.die (rolls n (Naive.uniform (Naive.interval 1 m))) none) := by
  have hl : Pos (Naive.uniform (Naive.interval 1 m)) := pos_fair hm
  refine Full.mono (full_roll (n := .num n) (u := .num n) (d := .num m) (v := .num m) rfl rfl) fun y hy => ?_
  have hv : Naive.rollVal (.num n) (.num m) = Naive.rollNum n (.num m) (Naive.uniform (Naive.interval 1 m)) := by
    simp [Naive.rollVal, Naive.faces, hm]
  rw [hv] at hy
  unfold Naive.rollNum at hy
  split_ifs at hy with h1 h2
  · subst h1
    refine hy.to (pos_rolls hl 1) fun f => ?_
    rw [mean_rolls]
    simp [sumMean_succ, sumMean_zero]
  · exact hy.to (pos_rolls hl n) fun f => rfl
  · exact hy.to (pos_rolls hl n) fun f => rfl

theorem Enum.fair_mem {m : ℕ} {x : ℤ} : x ∈ (Naive.uniform (Naive.interval 1 m)).map Prod.fst ↔ 1 ≤ x ∧ x ≤ m := by
  have : (Naive.uniform (Naive.interval 1 m)).map Prod.fst = Naive.interval 1 m := by
    unfold Naive.uniform
    rw [List.map_map]
    exact List.map_id _
  rw [this, mem_interval]

theorem Enum.highest_eq {s : List ℤ} {mx : ℤ} (h1 : mx ∈ s) (h2 : ∀ v ∈ s, v ≤ mx) : Naive.highest s = mx := by
  rw [Naive.highest]
  have hp := Spec.descending_perm s
  have hs := Spec.descending_sorted s
  match h : descending s with
  | [] => rw [h] at hp; rw [← hp.mem_iff] at h1; cases h1
  | x :: xs =>
    rw [h] at hp hs
    have a := h2 x (hp.mem_iff.1 (by simp))
    have b : mx ≤ x := by
      rcases List.mem_cons.1 (hp.mem_iff.2 h1) with rfl | hm
      · exact le_rfl
      · exact List.rel_of_pairwise_cons hs hm
    exact le_antisymm a b

theorem Enum.mean_rolls_nat (n : ℕ) (b : Law) (f : ℤ → ℚ) : mean (rolls n b) f = sumMean b n f := by
  rw [mean_rolls]
  cases n with
  | zero => simp [sumMean_zero]
  | succ n =>
    rw [Int.sign_eq_one_of_pos (by omega), Int.natAbs_natCast]
    simp only [one_mul]

/-- **C83** (src/roller.py `roll`): `n` dice with `m` sides show `s` in total with probability the number of ways to do so, over `m^n`. -/
theorem C83_ways (n : ℕ) {m : ℕ} (hm : 0 < m) (s : ℤ) : HasProb AnySettings (roll (.num n) (.num m)) (· = s) (ways n m s / (m : ℚ) ^ n) := by
  refine has_prob (full_fair n hm) _ ?_
  rw [mean_rolls_nat, mean_draws_fair hm, ways, Finset.card_filter]
  push_cast
  rfl

/-- **C83** (src/roller.py `roll`), de Moivre's formula: `n` dice with `m` sides show `s` in total with probability
`∑ k, (-1)^k * choose n k * choose (s - m*k - 1) (n - 1)`, over `m^n`. -/
theorem C83_moivre {n m : ℕ} (hn : 0 < n) (hm : 0 < m) (s : ℤ) : HasProb AnySettings (roll (.num n) (.num m)) (· = s)
    ((∑ k ∈ (Finset.range (n + 1)).filter fun k : ℕ => (m * k + 1 : ℤ) ≤ s, (-1) ^ k * (n.choose k : ℚ) * ((s - m * k - 1).toNat.choose (n - 1) : ℚ)) /
      (m : ℚ) ^ n) := by
  refine has_prob (full_fair n hm) _ ?_
  obtain ⟨n, rfl⟩ : ∃ k, n = k + 1 := ⟨n - 1, by omega⟩
  rw [mean_rolls_nat, sum_fair hm, moivre, Finset.sum_filter]
  congr 1
  refine Finset.sum_congr rfl fun k _ => ?_
  rw [Enum.choose]
  by_cases h : (m : ℤ) * k + 1 ≤ s
  · rw [if_pos h, if_pos (by omega)]; rfl
  · rw [if_neg h, if_neg (by omega), mul_zero]

/-- **C83** (src/funclib.py `explode`): with `explode depth` `e`, `[explode dM]` shows `M*i + v` with probability `1/M^(i+1)`, for `i` up to `e`,
and `v` below `M`, or `M` the last time. -/
theorem C83_explode {m : ℕ} (hm : 0 < m) {e i v : ℕ} (hi : i ≤ e) (h1 : 1 ≤ v) (h2 : v < m ∨ v = m ∧ i = e) :
    HasProb (fun st => st.explodeDepth = e) (do let a ← roll (.num 1) (.num m); explode a) (· = m * i + v) (1 / (m : ℚ) ^ (i + 1)) := by
  have hu : Full (fun st => st.explodeDepth = e) (roll (.num 1) (.num m)) fun y => Rep y (.die (Naive.uniform (Naive.interval 1 m)) none) := by
    refine Full.mono (full_fair 1 hm) fun y hy => hy.to (pos_fair hm) fun f => ?_
    rw [mean_rolls]
    simp [sumMean_succ, sumMean_zero]
  refine has_prob (p := some (1, _)) (Full.next hu (fun a ha => full_explode (e := e) (fun st h => by rw [h]; rfl) ha) fun a => Calm.explode _) _ ?_
  have hmax : Naive.highest (Naive.support (Naive.uniform (Naive.interval 1 m))) = m := by
    refine highest_eq ?_ fun x hx => ?_
    · rw [Naive.support, (Spec.ascending_perm _).mem_iff, List.mem_dedup, fair_mem]; omega
    · rw [Naive.support, (Spec.ascending_perm _).mem_iff, List.mem_dedup, fair_mem] at hx; omega
  rw [hmax]
  exact explode_fair hm hi h1 h2

/-! ## Cases -/

/-- The probability of an outcome of what is given in the initial state. -/
def givenProb (m : M Obj) (P : ℤ → Prop) [DecidablePred P] : Option ℚ := (given m).map fun d => Pr (d.1.zip d.2) P

/-- `Pr(loaded ≥ 3) = 2/3`, for the dice of the places. -/
example : givenProb (pure (.rv loaded)) (3 ≤ ·) = some (2 / 3) ∧
    givenProb (do let a ← roll (.num 3) (.rv loaded); matmul (.num 1) a) (3 ≤ ·) = some (1 - (1 / 3) ^ 3) ∧
    givenProb (do let a ← roll (.num 3) (.rv loaded); matmul (.num 2) a) (3 ≤ ·) = some (3 * (2 / 3) ^ 2 * (1 / 3) + (2 / 3) ^ 3) ∧
    givenProb (do let a ← roll (.num 3) (.rv loaded); matmul (.num 3) a) (3 ≤ ·) = some ((2 / 3) ^ 3) := by decide +kernel

example : givenProb (highestOf (.rv coin) (.rv loaded)) (· ≤ 0) = some (1 / 3 * (1 / 6)) ∧
    givenProb (lowestOf (.rv coin) (.rv loaded)) (1 ≤ ·) = some (2 / 3 * (5 / 6)) := by decide +kernel

example : givenProb (do let a ← roll (.num 4) (.rv loaded); countIn (.seq [3]) a) (· = 2) = some (6 * (2 / 3) ^ 2 * (1 / 3) ^ 2) ∧
    binomial 4 (2 / 3) 2 = 6 * (2 / 3) ^ 2 * (1 / 3) ^ 2 := by decide +kernel

/-- `3d6` shows 9 in 25 ways, which are `choose 8 2 - 3*choose 2 2`. -/
example : givenProb (roll (.num 3) (.num 6)) (· = 9) = some (25 / 6 ^ 3) ∧ ways 3 6 9 = 25 ∧ Nat.choose 8 2 - 3 * Nat.choose 2 2 = 25 := by
  decide +kernel

example : givenProb (do let a ← roll (.num 1) (.num 6); explode a) (· = 6 * 1 + 4) = some (1 / 6 ^ 2) ∧
    givenProb (do let a ← roll (.num 1) (.num 6); explode a) (· = 6 * 2 + 6) = some (1 / 6 ^ 3) ∧ ({} : Settings).explodeDepth = 2 := by decide +kernel

/-- The case that `C83_explode` leaves out: a 6 explodes unless it was the last time, so 12 is never shown. -/
example : givenProb (do let a ← roll (.num 1) (.num 6); explode a) (· = 6 * 1 + 6) = some 0 := by decide +kernel

end PythonDice
