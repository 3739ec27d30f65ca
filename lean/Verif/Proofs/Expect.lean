import Verif.Proofs.Identities
import Verif.Props.Stats

/-! Means and variances of laws. -/

namespace PythonDice
open Spec
open Spec.Naive (Law Val mean sure push andThen uniform draws support rolls)

namespace Enum

theorem mean_lawOf (d : RV ℤ) (f : ℤ → ℚ) : mean (lawOf d) f = Ex d.pairs f := lawOf_mean _ _ _

theorem mean_sub {α : Type} (l : List (α × ℚ)) (f g : α → ℚ) : mean l (fun x => f x - g x) = mean l f - mean l g := by
  have := mean_add l f fun x => -1 * g x
  rw [mean_mul_left] at this
  rw [show (fun x => f x - g x) = fun x => f x + -1 * g x by funext x; ring, this]
  ring

theorem total_draws {b : Law} (h : mean b (fun _ => 1) = 1) (n : ℕ) (c : ℚ) : mean (draws b n) (fun _ => c) = c := by
  induction n with
  | zero => rw [mean_draws_zero]
  | succ n ih => rw [mean_draws_succ]; simp only [ih]; rw [mean_const, h, mul_one]

theorem sumMean_const {b : Law} (h : mean b (fun _ => 1) = 1) (n : ℕ) (c : ℚ) : sumMean b n (fun _ => c) = c := total_draws h n c

theorem sumMean_linear {b : Law} (h : mean b (fun _ => 1) = 1) (n : ℕ) :
    sumMean b n (fun x => (x : ℚ)) = n * mean b fun x => (x : ℚ) := by
  induction n with
  | zero => rw [sumMean_zero]; simp
  | succ n ih =>
    rw [sumMean_succ]
    have e : ∀ x : ℤ, (sumMean b n fun y => ((x + y : ℤ) : ℚ)) = (x : ℚ) + n * mean b fun x => (x : ℚ) := by
      intro x
      have : (fun y : ℤ => ((x + y : ℤ) : ℚ)) = fun y : ℤ => (x : ℚ) + (y : ℚ) := by funext y; push_cast; ring
      rw [this, ← ih]
      exact (mean_add _ _ _).trans (by rw [total_draws h]; rfl)
    simp only [e]
    rw [mean_add, mean_const, h]
    push_cast
    ring

theorem sumMean_square {b : Law} (h : mean b (fun _ => 1) = 1) (n : ℕ) :
    sumMean b n (fun x => (x : ℚ) ^ 2) =
      n * (mean b fun x => (x : ℚ) ^ 2) + n * (n - 1) * (mean b fun x => (x : ℚ)) ^ 2 := by
  induction n with
  | zero => rw [sumMean_zero]; simp
  | succ n ih =>
    rw [sumMean_succ]
    have e : ∀ x : ℤ, (sumMean b n fun y => ((x + y : ℤ) : ℚ) ^ 2) =
        (x : ℚ) ^ 2 + ((2 * (n * mean b fun x => (x : ℚ))) * (x : ℚ) + sumMean b n fun y => (y : ℚ) ^ 2) := by
      intro x
      have : (fun y : ℤ => ((x + y : ℤ) : ℚ) ^ 2) = fun y : ℤ => (x : ℚ) ^ 2 + ((2 * x) * (y : ℚ) + (y : ℚ) ^ 2) := by
        funext y; push_cast; ring
      rw [this, sumMean, mean_add, mean_add, mean_mul_left, total_draws h]
      have := sumMean_linear h n
      rw [sumMean] at this
      rw [this]
      rw [sumMean]
      ring
    simp only [e]
    rw [mean_add, mean_add, mean_mul_left, mean_const b (sumMean b n fun y => (y : ℚ) ^ 2), h, ih]
    push_cast
    ring

theorem rolls_linear {b : Law} (h : mean b (fun _ => 1) = 1) (k : ℤ) : mean (rolls k b) (fun x => (x : ℚ)) = k * mean b fun x => (x : ℚ) := by
  rw [mean_rolls]
  have : (fun x : ℤ => ((k.sign * x : ℤ) : ℚ)) = fun x : ℤ => (k.sign : ℚ) * (x : ℚ) := by funext x; push_cast; rfl
  rw [this, sumMean, mean_mul_left]
  have e := sumMean_linear h k.natAbs
  rw [sumMean] at e
  rw [e, ← mul_assoc]
  congr 1
  have e2 : ((k.sign * (k.natAbs : ℤ) : ℤ) : ℚ) = k := by rw [Int.sign_mul_natAbs]
  rw [Int.cast_mul, Int.cast_natCast] at e2
  exact e2

theorem rolls_square {b : Law} (h : mean b (fun _ => 1) = 1) (k : ℤ) : mean (rolls k b) (fun x => (x : ℚ) ^ 2) =
    |(k : ℚ)| * ((mean b fun x => (x : ℚ) ^ 2) - (mean b fun x => (x : ℚ)) ^ 2) + (k : ℚ) ^ 2 * (mean b fun x => (x : ℚ)) ^ 2 := by
  rw [mean_rolls]
  have hk : ((k.natAbs : ℕ) : ℚ) = |(k : ℚ)| := by rw [Nat.cast_natAbs]; push_cast; rfl
  have hs : (k : ℚ) ^ 2 = |(k : ℚ)| ^ 2 := (sq_abs _).symm
  have e := sumMean_square h k.natAbs
  rw [hk] at e
  rcases eq_or_ne k 0 with rfl | h0
  · simp [sumMean_zero]
  have : (fun x : ℤ => ((k.sign * x : ℤ) : ℚ) ^ 2) = fun x : ℤ => (x : ℚ) ^ 2 := by
    funext x
    push_cast
    rw [mul_pow]
    rcases lt_or_gt_of_ne h0 with h0 | h0
    · rw [Int.sign_eq_neg_one_of_neg h0]; norm_num
    · rw [Int.sign_eq_one_of_pos h0]; norm_num
  rw [this, e, hs]
  ring

/-- The mean over one of the places. -/
theorem mean_sum {α ι : Type} (l : List (α × ℚ)) (s : Finset ι) (f : ι → α → ℚ) : mean l (fun x => ∑ i ∈ s, f i x) = ∑ i ∈ s, mean l (f i) := by
  classical
  induction s using Finset.induction_on with
  | empty =>
    simp only [Finset.sum_empty]
    rw [mean_const, zero_mul]
  | insert a s ha ih =>
    simp only [Finset.sum_insert ha]
    rw [mean_add, ih]

theorem mean_le {α : Type} {l : List (α × ℚ)} (h : Pos l) {f g : α → ℚ} (hf : ∀ x ∈ l, f x.1 ≤ g x.1) : mean l f ≤ mean l g := by
  have := mean_nonneg h (f := fun x => g x - f x) fun x hx => sub_nonneg.2 (hf x hx)
  rw [mean_sub] at this
  linarith

theorem sum_places (xs : List ℤ) {n : ℕ} (h : xs.length = n) : ∑ i ∈ Finset.range n, Naive.elemAt (descending xs) (1 + i) = xs.sum := by
  have := sumAt_interval (descending xs) 1 n
  rw [show (1 : ℤ) + n - 1 = n by ring, sumAt_all xs h] at this
  exact this.symm

/-- The highest and the rest. -/
theorem high_low (xs : List ℤ) {n k : ℕ} (h : xs.length = n) (hk : k ≤ n) :
    Naive.sumAt (descending xs) (Naive.interval 1 k) + Naive.sumAt (descending xs) (Naive.interval (n - (n - k : ℕ) + 1) n) = xs.sum := by
  have e1 := sumAt_interval (descending xs) 1 k
  rw [show ((1 : ℤ) + k - 1) = k by ring] at e1
  have e2 := sumAt_interval (descending xs) (n - (n - k : ℕ) + 1) (n - k)
  rw [show ((n : ℤ) - (n - k : ℕ) + 1 + (n - k : ℕ) - 1) = n by ring] at e2
  rw [e1, e2, ← sum_places xs h]
  obtain ⟨j, rfl⟩ := Nat.exists_eq_add_of_le hk
  rw [Finset.sum_range_add, show k + j - k = j by omega]
  congr 1
  refine Finset.sum_congr rfl fun i _ => ?_
  congr 1
  push_cast
  ring

theorem descending_antitone (xs : List ℤ) {i j n : ℕ} (h : xs.length = n) (hij : i ≤ j) (hj : j < n) :
    Naive.elemAt (descending xs) (1 + j) ≤ Naive.elemAt (descending xs) (1 + i) := by
  have hl : (descending xs).length = n := by rw [(Spec.descending_perm xs).length_eq, h]
  rw [Naive.elemAt, Naive.elemAt, if_pos (by omega), if_pos (by omega), show ((1 : ℤ) + j - 1).toNat = j by omega,
    show ((1 : ℤ) + i - 1).toNat = i by omega, List.getD_eq_getElem?_getD, List.getD_eq_getElem?_getD, List.getElem?_eq_getElem (by omega),
    List.getElem?_eq_getElem (by omega)]
  simp only [Option.getD_some]
  rcases hij.lt_or_eq with hij | rfl
  · exact List.pairwise_iff_getElem.1 (Spec.descending_sorted xs) i j (by omega) (by omega) hij
  · exact le_rfl

/-! ## Counting -/

variable {I : Settings → Prop}

theorem cast_count (vs : List ℤ) {n : ℕ} {l b : Law} (hb : Pos b) (tb : mean b (fun _ => 1) = 1) {F : List Val → Option (Option Val)}
    {g : List ℤ → ℤ} (hF : ∀ s, F [.seq vs, .seq s] = some (some (.num (g s)))) :
    ∃ r, Naive.cast F [(some .S, .seq vs), (some .S, .die l (some (n, b)))] = some (Naive.one r) ∧ Pos r ∧
      ∀ f, mean r f = mean (draws b n) fun xs => f (g (descending xs)) := by
  let cs := andThen (sure (Val.seq vs)) fun v => push (v :: ·) (andThen (push (fun xs => Val.seq (descending xs)) (draws b n)) fun v =>
    push (v :: ·) (sure []))
  have hcs : Pos cs := (pos_sure _).andThen fun _ _ => (((hb.draws n).push _).andThen fun _ _ => (pos_sure _).push _).push _
  let G : List Val → ℤ := fun
    | [_, .seq s] => g s
    | _ => 0
  have hmean : ∀ f : List Val → ℚ, mean cs f = mean (draws b n) fun xs => f [.seq vs, .seq (descending xs)] := by
    intro f
    simp only [cs, mean_andThen, mean_push, mean_sure]
  obtain ⟨r, h1, h2, h3⟩ := mixed_sure hcs (g := G) (by rw [hmean, total_draws tb])
  refine ⟨r, ?_, h2, fun f => by rw [h3, hmean]⟩
  have hall : Naive.callAll F cs = some (push (fun vs => some (Val.num (G vs))) cs) := by
    refine callAll_total fun c hc => ?_
    obtain ⟨x, hx, z, hz, rfl⟩ := mem_andThen.1 hc
    rw [sure, List.mem_singleton] at hx
    subst hx
    obtain ⟨z, hz', rfl⟩ := List.mem_map.1 hz
    obtain ⟨y, hy, u, hu, rfl⟩ := mem_andThen.1 hz'
    obtain ⟨y, _, rfl⟩ := List.mem_map.1 hy
    obtain ⟨u, hu', rfl⟩ := List.mem_map.1 hu
    rw [sure, List.mem_singleton] at hu'
    subst hu'
    exact hF _
  change (if false = true then _ else if true = true then _ else _) = _
  rw [if_neg (by simp), if_pos rfl]
  change (Naive.callAll F cs).bind (fun rs => some (Naive.mixed rs)) = _
  rw [hall, Option.bind_some, h1]

theorem full_countIn (vs : List ℤ) {n : ℕ} {o : Obj} {l b : Law} (h : Rep o (.die l (some (n, b)))) (hb : Pos b)
    (tb : mean b (fun _ => 1) = 1) : Full I (countIn (.seq vs) o) fun y =>
      Rep y (.die (push (fun xs => ((vs.map fun v => xs.count v).sum : ℕ)) (draws b n)) none) := by
  obtain ⟨r, h1, _, h3⟩ := cast_count (l := l) (n := n) vs hb tb (g := fun s => ((vs.map fun v => s.count v).sum : ℕ))
    (F := fun | [a, b] => (Naive.countVal a b).map some | _ => none) fun s => rfl
  refine Full.mono (countIn_rep (e := ⟨0, false⟩) [.seq vs, o] [.seq vs, .die l (some (n, b))] (Naive.one r) (.cons rfl (.cons h .nil)) h1)
    fun y hy => hy.to ((hb.draws n).push _) fun f => ?_
  rw [h3, mean_push]
  congr 1
  funext xs
  simp only [(Spec.descending_perm xs).count_eq]

theorem mean_count {b : Law} (tb : mean b (fun _ => 1) = 1) (v : ℤ) (n : ℕ) :
    mean (draws b n) (fun xs => (xs.count v : ℚ)) = n * mean b fun x => if x = v then 1 else 0 := by
  induction n with
  | zero => rw [mean_draws_zero]; simp
  | succ n ih =>
    rw [mean_draws_succ]
    have : ∀ x, (mean (draws b n) fun xs => ((x :: xs).count v : ℚ)) = (if x = v then 1 else 0) + n * mean b fun x => if x = v then 1 else 0 := by
      intro x
      rw [← ih, ← total_draws tb n (if x = v then 1 else 0), ← mean_add]
      congr 1
      funext xs
      rw [List.count_cons]
      by_cases h : x = v
      · simp [h]; ring
      · simp [h]
    simp only [this]
    rw [mean_add, mean_const, tb]
    push_cast
    ring

/-! ## Exploding -/

theorem explode_mean {b : Law} (tb : mean b (fun _ => 1) = 1) (mx : ℤ) (e : ℕ) : mean (Naive.explodeLaw b mx e) (fun x => (x : ℚ)) =
    (mean b fun x => (x : ℚ)) * ∑ i ∈ Finset.range (e + 1), (mean b fun x => if x = mx then 1 else 0) ^ i := by
  induction e with
  | zero => simp [Naive.explodeLaw]
  | succ e ih =>
    have ht := explodeLaw_total tb mx e
    rw [Naive.explodeLaw, mean_andThen]
    have : ∀ x : ℤ, mean (if x = mx then push (x + ·) (Naive.explodeLaw b mx e) else sure x) (fun x => (x : ℚ)) =
        (x : ℚ) + (mean (Naive.explodeLaw b mx e) fun x => (x : ℚ)) * if x = mx then 1 else 0 := by
      intro x
      split_ifs
      · rw [mean_push]
        have : (fun y : ℤ => ((x + y : ℤ) : ℚ)) = fun y : ℤ => (x : ℚ) + (y : ℚ) := by funext y; push_cast; rfl
        rw [this, mean_add, mean_const, ht]
        ring
      · rw [mean_sure]; ring
    simp only [this]
    rw [mean_add, mean_mul_left, ih, Finset.sum_range_succ' _ (e + 1)]
    simp only [pow_succ, pow_zero, ← Finset.sum_mul]
    ring

theorem full_explode {e : ℕ} (hI : ∀ st, I st → st.explodeDepth.toNat = e) {o : Obj} {l : Law} {p : Option (ℕ × Law)} (h : Rep o (.die l p)) :
    Full I (explode o) fun y => Rep y (Naive.one (Naive.explodeLaw l (Naive.highest (support l)) e)) :=
  explode_rep (e := ⟨e, false⟩) hI [o] [.die l p] _ (.cons h .nil) rfl

theorem highest_max {d : RV ℤ} (hd : GoodDie d) {mx : ℤ} (h1 : mx ∈ d.vals) (h2 : ∀ v ∈ d.vals, v ≤ mx) :
    Naive.highest (support (lawOf d)) = mx := by
  obtain ⟨r, e, hr, _⟩ := (rep_good hd).die_inv
  cases e
  rw [← hr.vals_eq, Naive.highest]
  have hp := Spec.descending_perm d.vals
  have hs := Spec.descending_sorted d.vals
  match h : descending d.vals with
  | [] => rw [h] at hp; rw [← hp.mem_iff] at h1; cases h1
  | x :: xs =>
    rw [h] at hp hs
    have a := h2 x (hp.mem_iff.1 (by simp))
    have b : mx ≤ x := by
      rcases List.mem_cons.1 (hp.mem_iff.2 h1) with rfl | hm
      · exact le_rfl
      · exact List.rel_of_pairwise_cons hs hm
    exact le_antisymm a b

end Enum
end PythonDice
