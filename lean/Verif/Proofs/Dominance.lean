import Verif.Proofs.Formulas
import Verif.Spec.Dominance

/-! Better laws: means of functions that grow. -/

namespace PythonDice.Enum
open Spec
open Spec.Naive (Law mean sure push andThen uniform draws rolls)

/-- Functions that grow have at least the same mean. -/
def Dom (l m : Law) : Prop := ∀ f : ℤ → ℚ, Monotone f → mean m f ≤ mean l f

theorem bounded (s : List ℤ) : ∃ B : ℕ, ∀ x ∈ s, -(B : ℤ) ≤ x ∧ x ≤ B := by
  induction s with
  | nil => exact ⟨0, by simp⟩
  | cons x s ih =>
    obtain ⟨B, hB⟩ := ih
    refine ⟨B + x.natAbs, fun y hy => ?_⟩
    rcases List.mem_cons.1 hy with rfl | hy
    · omega
    · have := hB y hy
      omega

/-- A function is the sum of its steps. -/
theorem steps (f : ℤ → ℚ) (a : ℤ) (N : ℕ) {x : ℤ} (h1 : a ≤ x) (h2 : x ≤ a + N) :
    f x = f a + ∑ i ∈ Finset.range N, (f (a + i + 1) - f (a + i)) * if a + i + 1 ≤ x then 1 else 0 := by
  obtain ⟨k, rfl⟩ : ∃ k : ℕ, x = a + k := ⟨(x - a).toNat, by omega⟩
  have hk : k ≤ N := by omega
  simp only [mul_ite, mul_one, mul_zero]
  rw [← Finset.sum_filter]
  have e : (Finset.range N).filter (fun i : ℕ => a + i + 1 ≤ a + k) = Finset.range k := by
    ext i
    simp only [Finset.mem_filter, Finset.mem_range]
    omega
  have := Finset.sum_range_sub (fun i : ℕ => f (a + i)) k
  rw [e]
  push_cast at this
  simp only [← add_assoc, add_zero] at this
  rw [this]
  ring

/-- It is enough to compare the probabilities of reaching numbers. -/
theorem dom_of_tails {l m : Law} (tl : mean l (fun _ => 1) = 1) (tm : mean m (fun _ => 1) = 1)
    (h : ∀ t : ℤ, (mean m fun x => if t ≤ x then 1 else 0) ≤ mean l fun x => if t ≤ x then 1 else 0) : Dom l m := by
  intro f hf
  obtain ⟨B, hB⟩ := bounded ((l ++ m).map Prod.fst)
  have key : ∀ k : Law, (∀ x ∈ k, x ∈ l ++ m) → mean k (fun _ => 1) = 1 → mean k f = f (-B) + ∑ i ∈ Finset.range (2 * B),
      (f (-B + i + 1) - f (-B + i)) * mean k fun x => if -(B : ℤ) + i + 1 ≤ x then 1 else 0 := by
    intro k hk tk
    have e : mean k f = mean k fun x => f (-B) + ∑ i ∈ Finset.range (2 * B), (f (-B + i + 1) - f (-B + i)) * if -(B : ℤ) + i + 1 ≤ x then 1 else 0 := by
      refine mean_congr fun x hx => ?_
      have := hB x.1 (List.mem_map_of_mem (hk x hx))
      exact steps f (-B) (2 * B) (by omega) (by push_cast; omega)
    rw [e, mean_add, mean_const, tk, mean_sum]
    simp only [mean_mul_left, mul_one]
  rw [key l (fun x hx => by simp [hx]) tl, key m (fun x hx => by simp [hx]) tm]
  refine add_le_add le_rfl (Finset.sum_le_sum fun i _ => mul_le_mul_of_nonneg_left (h _) (sub_nonneg.2 (hf (by omega))))

theorem step_mono (t : ℤ) : Monotone fun x : ℤ => if t ≤ x then (1 : ℚ) else 0 := by
  intro x y h
  dsimp only
  split_ifs with h1 h2 h2
  · exact le_rfl
  · exact absurd (h1.trans h) h2
  · exact zero_le_one
  · exact le_rfl

theorem Dom.tails {l m : Law} (h : Dom l m) (t : ℤ) : (mean m fun x => if t ≤ x then 1 else 0) ≤ mean l fun x => if t ≤ x then 1 else 0 :=
  h _ (step_mono t)

theorem Dom.refl (l : Law) : Dom l l := fun _ _ => le_rfl

theorem Dom.trans {l m k : Law} (h : Dom l m) (h' : Dom m k) : Dom l k := fun f hf => (h' f hf).trans (h f hf)

/-- What grows with the outcome has at least the same law. -/
theorem Dom.push {l m : Law} (h : Dom l m) {g : ℤ → ℤ} (hg : Monotone g) : Dom (push g l) (push g m) := by
  intro f hf
  rw [mean_push, mean_push]
  exact h _ fun x y hxy => hf (hg hxy)

theorem Dom.push_anti {l m : Law} (h : Dom l m) {g : ℤ → ℤ} (hg : Antitone g) : Dom (Naive.push g m) (Naive.push g l) := by
  intro f hf
  rw [mean_push, mean_push]
  have := h (fun x => -f (g x)) fun x y hxy => neg_le_neg (hf (hg hxy))
  have e : ∀ k : Law, mean k (fun x => -f (g x)) = -mean k fun x => f (g x) := by
    intro k
    rw [show (fun x => -f (g x)) = fun x => (-1 : ℚ) * f (g x) by funext x; ring, mean_mul_left]; ring
  rw [e, e] at this
  linarith

theorem push_dom {α : Type} {l : List (α × ℚ)} (hl : Pos l) {g h : α → ℤ} (hgh : ∀ x ∈ l, g x.1 ≤ h x.1) : Dom (push h l) (push g l) := by
  intro f hf
  rw [mean_push, mean_push]
  exact mean_le hl fun x hx => hf (hgh x hx)

/-- What grows with the first outcome and then is at least as good. -/
theorem Dom.andThen {l m : Law} (h : Dom l m) (hm : Pos m) {k k' : ℤ → Law} (h1 : ∀ x ∈ m, Dom (k x.1) (k' x.1))
    (h2 : ∀ x y, x ≤ y → Dom (k y) (k x)) : Dom (andThen l k) (Naive.andThen m k') := by
  intro f hf
  rw [mean_andThen, mean_andThen]
  exact (mean_le hm fun x hx => h1 x hx f hf).trans (h _ fun x y hxy => h2 x y hxy f hf)

/-! ## Pools -/

theorem draws_dom {l m : Law} (h : Dom l m) (hl : Pos l) (hm : Pos m) (n : ℕ) {F : List ℤ → ℚ}
    (hF : ∀ xs ys, List.Forall₂ (· ≤ ·) xs ys → F xs ≤ F ys) : mean (draws m n) F ≤ mean (draws l n) F := by
  induction n generalizing F with
  | zero => rw [mean_draws_zero, mean_draws_zero]
  | succ n ih =>
    rw [mean_draws_succ, mean_draws_succ]
    refine (mean_le hm fun x _ => ih fun xs ys hxy => hF _ _ (.cons le_rfl hxy)).trans (h _ fun x y hxy => ?_)
    exact mean_le (hl.draws n) fun xs _ => hF _ _ (.cons hxy (List.forall₂_refl _))

theorem sum_grows {xs ys : List ℤ} (h : List.Forall₂ (· ≤ ·) xs ys) : xs.sum ≤ ys.sum := by
  induction h with
  | nil => exact le_rfl
  | cons h _ ih => rw [List.sum_cons, List.sum_cons]; omega

theorem count_grows {xs ys : List ℤ} (h : List.Forall₂ (· ≤ ·) xs ys) (t : ℤ) : (xs.countP fun x => t ≤ x) ≤ ys.countP fun x => t ≤ x := by
  induction h with
  | nil => exact le_rfl
  | @cons a b xs ys h _ ih =>
    rw [List.countP_cons, List.countP_cons]
    have : (if decide (t ≤ a) = true then 1 else 0) ≤ if decide (t ≤ b) = true then 1 else 0 := by
      simp only [decide_eq_true_eq]
      split_ifs <;> omega
    omega

theorem place_le {xs ys : List ℤ} {i j : ℕ} (hi : i < xs.length) (hj : j < ys.length)
    (h : ∀ t : ℤ, i + 1 ≤ (xs.countP fun x => t ≤ x) → j + 1 ≤ ys.countP fun x => t ≤ x) :
    Naive.elemAt (descending xs) (1 + i) ≤ Naive.elemAt (descending ys) (1 + j) :=
  (elemAt_ge ys _ hj).2 (h _ ((elemAt_ge xs _ hi).1 le_rfl))

/-- Every place grows with the numbers. -/
theorem place_grows {xs ys : List ℤ} (h : List.Forall₂ (· ≤ ·) xs ys) (i : ℤ) : Naive.elemAt (descending xs) i ≤ Naive.elemAt (descending ys) i := by
  have hl := h.length_eq
  by_cases h1 : 1 ≤ i ∧ i ≤ xs.length
  · obtain ⟨j, rfl⟩ : ∃ j : ℕ, i = 1 + j := ⟨(i - 1).toNat, by omega⟩
    exact place_le (by omega) (by omega) fun t ht => ht.trans (count_grows h t)
  · have e : ∀ zs : List ℤ, zs.length = xs.length → Naive.elemAt (descending zs) i = 0 := by
      intro zs hz
      unfold Naive.elemAt
      split_ifs with h2
      · have : (descending zs).length ≤ (i - 1).toNat := by
          rw [(Spec.descending_perm zs).length_eq]
          omega
        rw [List.getD_eq_getElem?_getD, List.getElem?_eq_none this]; rfl
      · rfl
    rw [e xs rfl, e ys hl.symm]

theorem sumAt_grows {xs ys : List ℤ} (h : List.Forall₂ (· ≤ ·) xs ys) (is : List ℤ) : Naive.sumAt (descending xs) is ≤ Naive.sumAt (descending ys) is := by
  induction is with
  | nil => exact le_rfl
  | cons i is ih =>
    have := place_grows h i
    simp only [Naive.sumAt, List.map_cons, List.sum_cons] at ih ⊢
    omega

theorem push_draws_dom {l m : Law} (h : Dom l m) (hl : Pos l) (hm : Pos m) (n : ℕ) {g : List ℤ → ℤ}
    (hg : ∀ xs ys, List.Forall₂ (· ≤ ·) xs ys → g xs ≤ g ys) : Dom (push g (draws l n)) (push g (draws m n)) := by
  intro f hf
  rw [mean_push, mean_push]
  exact draws_dom h hl hm n fun xs ys hxy => hf (hg xs ys hxy)

/-- One more die. -/
theorem more_dom {l : Law} (hl : Pos l) (tl : mean l (fun _ => 1) = 1) {n : ℕ} {g g' : List ℤ → ℤ}
    (hg : ∀ x ∈ l, ∀ xs, xs.length = n → g xs ≤ g' (x.1 :: xs)) : Dom (push g' (draws l (n + 1))) (push g (draws l n)) := by
  intro f hf
  rw [mean_push, mean_push, mean_draws_succ]
  have e : mean (draws l n) (fun xs => f (g xs)) = mean l fun _ => mean (draws l n) fun xs => f (g xs) := by rw [mean_const, tl, mul_one]
  rw [e]
  refine mean_le hl fun x hx => mean_le (hl.draws n) fun xs hxs => hf (hg x hx _ ?_)
  exact (mem_fst_draws.1 (List.mem_map_of_mem (f := Prod.fst) hxs)).1

theorem less_dom {l : Law} (hl : Pos l) (tl : mean l (fun _ => 1) = 1) {n : ℕ} {g g' : List ℤ → ℤ}
    (hg : ∀ x ∈ l, ∀ xs, xs.length = n → g' (x.1 :: xs) ≤ g xs) : Dom (push g (draws l n)) (push g' (draws l (n + 1))) := by
  intro f hf
  rw [mean_push, mean_push, mean_draws_succ]
  have e : mean (draws l n) (fun xs => f (g xs)) = mean l fun _ => mean (draws l n) fun xs => f (g xs) := by rw [mean_const, tl, mul_one]
  rw [e]
  refine mean_le hl fun x hx => mean_le (hl.draws n) fun xs hxs => hf (hg x hx _ ?_)
  exact (mem_fst_draws.1 (List.mem_map_of_mem (f := Prod.fst) hxs)).1

theorem place_more (x : ℤ) (xs : List ℤ) {i : ℕ} (hi : i < xs.length) :
    Naive.elemAt (descending xs) (1 + i) ≤ Naive.elemAt (descending (x :: xs)) (1 + i) :=
  place_le hi (by simp; omega) fun t ht => by rw [List.countP_cons]; omega

theorem place_last (x : ℤ) (xs : List ℤ) {i : ℕ} (hi : i < xs.length) :
    Naive.elemAt (descending (x :: xs)) (1 + (i + 1 : ℕ)) ≤ Naive.elemAt (descending xs) (1 + i) :=
  place_le (by simp; omega) hi fun t ht => by
    rw [List.countP_cons] at ht
    split_ifs at ht <;> omega

theorem place_below (xs : List ℤ) {i j : ℕ} (hij : i ≤ j) (hj : j < xs.length) :
    Naive.elemAt (descending xs) (1 + j) ≤ Naive.elemAt (descending xs) (1 + i) :=
  place_le hj (by omega) fun t ht => by omega

/-! ## Rolling -/

theorem rolls_nat (n : ℕ) (b : Law) : rolls n b = push (fun xs => xs.sum) (draws b n) := by
  unfold rolls
  rw [Int.natAbs_natCast]
  congr 1

theorem rolls_dom {l m : Law} (h : Dom l m) (hl : Pos l) (hm : Pos m) (n : ℕ) : Dom (rolls n l) (rolls n m) := by
  rw [rolls_nat, rolls_nat]
  exact push_draws_dom h hl hm n fun _ _ => sum_grows

theorem rolls_neg_dom {l m : Law} (h : Dom l m) (hl : Pos l) (hm : Pos m) (n : ℕ) : Dom (rolls (-n) m) (rolls (-n) l) := by
  have e : ∀ b : Law, ∀ f, mean (rolls (-n) b) f = mean (push (fun x => -x) (rolls n b)) f := by
    intro b f
    rw [mean_rolls, mean_push, mean_rolls, Int.natAbs_neg, Int.sign_neg]
    simp only [neg_mul]
  intro f hf
  rw [e, e]
  exact (rolls_dom h hl hm n).push_anti (g := fun x => -x) (fun x y hxy => neg_le_neg hxy) f hf

theorem rolls_more {l : Law} (hl : Pos l) (tl : mean l (fun _ => 1) = 1) (h0 : ∀ x ∈ l, 0 ≤ x.1) {n n' : ℕ} (hn : n' ≤ n) : Dom (rolls n l) (rolls n' l) := by
  induction n, hn using Nat.le_induction with
  | base => exact Dom.refl _
  | succ n hn ih =>
    refine Dom.trans ?_ ih
    rw [rolls_nat, rolls_nat]
    exact more_dom hl tl fun x hx xs _ => by
      have := h0 x hx
      rw [List.sum_cons]; omega

theorem fair_dom {m m' : ℕ} (h0 : 0 < m') (h : m' ≤ m) : Dom (uniform (Naive.interval 1 m)) (uniform (Naive.interval 1 m')) := by
  intro f hf
  rw [mean_fair, mean_fair]
  induction m, h using Nat.le_induction with
  | base => exact le_rfl
  | succ m hm ih =>
    refine ih.trans ?_
    have p : (0 : ℚ) < m := by exact_mod_cast (by omega : 0 < m)
    rw [div_le_div_iff₀ p (by positivity), Finset.sum_range_succ]
    have h1 : ∑ x ∈ Finset.range m, f ((x : ℤ) + 1) ≤ m * f ((m : ℤ) + 1) := by
      have := Finset.sum_le_card_nsmul (Finset.range m) (fun x : ℕ => f ((x : ℤ) + 1)) (f ((m : ℤ) + 1)) fun x hx => hf (by
        rw [Finset.mem_range] at hx; omega)
      simpa using this
    push_cast
    linarith

/-! ## Exploding -/

theorem explode_dom {l : Law} (hl : Pos l) (tl : mean l (fun _ => 1) = 1) (h0 : ∀ x ∈ l, 0 ≤ x.1) (mx : ℤ) (e : ℕ) :
    (∀ x ∈ Naive.explodeLaw l mx e, 0 ≤ x.1) ∧ Dom (Naive.explodeLaw l mx (e + 1)) l := by
  have hnn : ∀ e, ∀ x ∈ Naive.explodeLaw l mx e, 0 ≤ x.1 := by
    intro e
    induction e with
    | zero => exact h0
    | succ e ih =>
      intro x hx
      rw [Naive.explodeLaw] at hx
      obtain ⟨y, hy, hx'⟩ := mem_fst_andThen.1 (List.mem_map_of_mem (f := Prod.fst) hx)
      obtain ⟨y', hy', rfl⟩ := List.mem_map.1 hy
      have := h0 y' hy'
      split_ifs at hx'
      · obtain ⟨z, hz, e⟩ := mem_fst_push.1 hx'
        obtain ⟨z', hz', rfl⟩ := List.mem_map.1 hz
        have := ih z' hz'
        omega
      · simp [sure] at hx'
        omega
  refine ⟨hnn e, fun f hf => ?_⟩
  rw [Naive.explodeLaw, mean_andThen]
  refine mean_le hl fun x hx => ?_
  split_ifs
  · rw [mean_push]
    have : mean (Naive.explodeLaw l mx e) (fun _ => f x.1) = f x.1 := by rw [mean_const, explodeLaw_total tl, mul_one]
    rw [← this]
    exact mean_le (explodeLaw_pos hl mx e) fun y hy => hf (by have := hnn e y hy; omega)
  · rw [mean_sure]

end PythonDice.Enum
