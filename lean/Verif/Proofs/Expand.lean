import Verif.Proofs.Order
import Mathlib.Data.Multiset.Basic
import Mathlib.Data.Nat.Factorial.Basic
import Mathlib.Data.Nat.Choose.Basic
import Mathlib.Data.Nat.Choose.Sum
import Mathlib.Tactic.Ring
import Mathlib.Data.Nat.Cast.Field
import Mathlib.Tactic.FieldSimp

/-! Enumerating the rolls of a pool: the multinomial weights are exact. -/

set_option linter.unusedSectionVars false

namespace PythonDice
open Spec

namespace Pool
variable {α : Type}

/-- `∑ ∏ P(yᵢ) * G {y₁, …, yₙ}` over all tuples from the pool. -/
def tup (P : α → ℕ) (pool : List α) : ℕ → (Multiset α → ℚ) → ℚ
  | 0, G => G 0
  | n + 1, G => (pool.map fun y => (P y : ℚ) * tup P pool n fun m => G (y ::ₘ m)).sum

theorem tup_add (P : α → ℕ) (pool : List α) (n : ℕ) (G H : Multiset α → ℚ) :
    tup P pool n (fun m => G m + H m) = tup P pool n G + tup P pool n H := by
  induction n generalizing G H with
  | zero => rfl
  | succ n ih =>
    simp only [tup, ih, mul_add, List.sum_map_add]

theorem tup_smul (P : α → ℕ) (pool : List α) (n : ℕ) (c : ℚ) (G : Multiset α → ℚ) :
    tup P pool n (fun m => c * G m) = c * tup P pool n G := by
  induction n generalizing G with
  | zero => rfl
  | succ n ih =>
    simp only [tup, ih, ← List.sum_map_mul_left]
    congr 1
    apply List.map_congr_left
    intro y _
    ring

theorem tup_list_sum (P : α → ℕ) (pool : List α) (n : ℕ) {ι : Type} (s : List ι) (F : ι → Multiset α → ℚ) :
    tup P pool n (fun m => (s.map fun i => F i m).sum) = (s.map fun i => tup P pool n (F i)).sum := by
  induction s with
  | nil =>
    simp only [List.map_nil, List.sum_nil]
    have := tup_smul P pool n 0 fun _ => 0
    simpa using this
  | cons i s ih => simp only [List.map_cons, List.sum_cons, tup_add, ih]

open Finset in
theorem list_finset_comm {ι : Type} (s : List ι) (n : ℕ) (F : ι → ℕ → ℚ) :
    (s.map fun i => ∑ c ∈ range n, F i c).sum = ∑ c ∈ range n, (s.map fun i => F i c).sum := by
  induction s with
  | nil => simp
  | cons i s ih => simp [ih, Finset.sum_add_distrib]

open Finset in
/-- Splitting off the number of copies of one face. -/
theorem tup_cons (P : α → ℕ) (x : α) (xs : List α) (n : ℕ) (G : Multiset α → ℚ) :
    tup P (x :: xs) n G = ∑ c ∈ range (n + 1), (n.choose c : ℚ) * (P x : ℚ) ^ c *
      tup P xs (n - c) fun m => G (Multiset.replicate c x + m) := by
  induction n generalizing G with
  | zero => simp [tup]
  | succ n ih =>
    have h0 : tup P (x :: xs) (n + 1) G = (P x : ℚ) * tup P (x :: xs) n (fun m => G (x ::ₘ m)) +
        (xs.map fun y => (P y : ℚ) * tup P (x :: xs) n fun m => G (y ::ₘ m)).sum := rfl
    rw [h0, ih]
    have h1 : (xs.map fun y => (P y : ℚ) * tup P (x :: xs) n fun m => G (y ::ₘ m)).sum =
        ∑ c ∈ range (n + 1), (n.choose c : ℚ) * (P x : ℚ) ^ c *
          tup P xs (n + 1 - c) fun m => G (Multiset.replicate c x + m) := by
      simp only [ih, Finset.mul_sum]
      rw [list_finset_comm]
      apply Finset.sum_congr rfl
      intro c hc
      have hc' : n + 1 - c = (n - c) + 1 := by have := Finset.mem_range.1 hc; omega
      rw [hc']
      simp only [tup]
      rw [← List.sum_map_mul_left]
      congr 1
      apply List.map_congr_left
      intro y _
      simp only [Multiset.add_cons]
      ring
    rw [h1, Finset.mul_sum]
    -- Pascal
    rw [Finset.sum_range_succ' (fun c => ((n + 1).choose c : ℚ) * (P x : ℚ) ^ c *
      tup P xs (n + 1 - c) fun m => G (Multiset.replicate c x + m)) (n + 1)]
    rw [Finset.sum_range_succ' (fun c => (n.choose c : ℚ) * (P x : ℚ) ^ c *
      tup P xs (n + 1 - c) fun m => G (Multiset.replicate c x + m)) n]
    have h2 : ∑ c ∈ range (n + 1), ((n + 1).choose (c + 1) : ℚ) * (P x : ℚ) ^ (c + 1) *
        tup P xs (n + 1 - (c + 1)) (fun m => G (Multiset.replicate (c + 1) x + m)) =
      ∑ c ∈ range (n + 1), (P x : ℚ) * ((n.choose c : ℚ) * (P x : ℚ) ^ c *
        tup P xs (n - c) (fun m => G (x ::ₘ (Multiset.replicate c x + m)))) +
      ∑ c ∈ range n, (n.choose (c + 1) : ℚ) * (P x : ℚ) ^ (c + 1) *
        tup P xs (n + 1 - (c + 1)) (fun m => G (Multiset.replicate (c + 1) x + m)) := by
      have h3 : ∑ c ∈ range n, (n.choose (c + 1) : ℚ) * (P x : ℚ) ^ (c + 1) *
          tup P xs (n + 1 - (c + 1)) (fun m => G (Multiset.replicate (c + 1) x + m)) =
          ∑ c ∈ range (n + 1), (n.choose (c + 1) : ℚ) * (P x : ℚ) ^ (c + 1) *
          tup P xs (n + 1 - (c + 1)) (fun m => G (Multiset.replicate (c + 1) x + m)) := by
        rw [Finset.sum_range_succ]
        simp
      rw [h3, ← Finset.sum_add_distrib]
      apply Finset.sum_congr rfl
      intro c _
      rw [Nat.choose_succ_succ, Nat.add_sub_add_right]
      simp only [Multiset.replicate_succ, Multiset.cons_add]
      push_cast
      ring
    rw [h2]
    simp [add_assoc]

/-- Sum over the enumerated rolls. -/
def Q (pool : List α) (n : ℕ) (h : List α → ℚ) : ℚ := ((RV.combosWithReplacement pool n).map h).sum

theorem combos_zero (pool : List α) : RV.combosWithReplacement pool 0 = [[]] := by
  cases pool <;> rfl

theorem combos_nil (n : ℕ) : RV.combosWithReplacement ([] : List α) (n + 1) = [] := rfl

theorem combos_cons (x : α) (xs : List α) (n : ℕ) :
    RV.combosWithReplacement (x :: xs) (n + 1) =
      (RV.combosWithReplacement (x :: xs) n).map (x :: ·) ++ RV.combosWithReplacement xs (n + 1) := by
  simp [RV.combosWithReplacement]

theorem Q_cons_succ (x : α) (xs : List α) (n : ℕ) (h : List α → ℚ) :
    Q (x :: xs) (n + 1) h = Q (x :: xs) n (fun l => h (x :: l)) + Q xs (n + 1) h := by
  simp only [Q, combos_cons, List.map_append, List.sum_append, List.map_map]
  rfl

open Finset in
theorem Q_cons (x : α) (xs : List α) (n : ℕ) (h : List α → ℚ) :
    Q (x :: xs) n h = ∑ c ∈ range (n + 1), Q xs (n - c) fun l => h (List.replicate c x ++ l) := by
  induction n generalizing h with
  | zero => simp [Q, combos_zero]
  | succ n ih =>
    rw [Q_cons_succ, ih, Finset.sum_range_succ' _ (n + 1)]
    simp [List.replicate_succ]

theorem combos_mem {pool : List α} {n : ℕ} {l : List α} (h : l ∈ RV.combosWithReplacement pool n) :
    l.length = n ∧ ∀ v ∈ l, v ∈ pool := by
  induction n generalizing pool l with
  | zero => rw [combos_zero] at h; simp at h; subst h; simp
  | succ n ihn =>
    induction pool with
    | nil => simp [combos_nil] at h
    | cons x xs ihx =>
      rw [combos_cons, List.mem_append] at h
      rcases h with h | h
      · obtain ⟨l', hl', rfl⟩ := List.mem_map.1 h
        obtain ⟨h1, h3⟩ := ihn hl'
        refine ⟨by simp [h1], ?_⟩
        intro v hv
        rcases List.mem_cons.1 hv with rfl | hv
        · simp
        · exact h3 v hv
      · obtain ⟨h1, h3⟩ := ihx h
        exact ⟨h1, fun v hv => List.mem_cons_of_mem _ (h3 v hv)⟩

theorem combos_sorted [LinearOrder α] {pool : List α} {n : ℕ} {l : List α} (hp : pool.Pairwise (· > ·))
    (h : l ∈ RV.combosWithReplacement pool n) : l.Pairwise (· ≥ ·) := by
  induction n generalizing pool l with
  | zero => rw [combos_zero] at h; simp at h; subst h; simp
  | succ n ihn =>
    induction pool with
    | nil => simp [combos_nil] at h
    | cons x xs ihx =>
      rw [combos_cons, List.mem_append] at h
      rcases h with h | h
      · obtain ⟨l', hl', rfl⟩ := List.mem_map.1 h
        rw [List.pairwise_cons]
        refine ⟨?_, ihn hp hl'⟩
        intro v hv
        rcases List.mem_cons.1 ((combos_mem hl').2 v hv) with rfl | hv
        · exact le_refl _
        · exact le_of_lt ((List.pairwise_cons.1 hp).1 v hv)
      · exact ihx (List.pairwise_cons.1 hp).2 h

/-! ### The running counts -/

variable [DecidableEq α]

/-- Denominator accumulated by the loop, starting from counts `c`. -/
def denFrom (c : α → ℕ) : List α → ℕ
  | [] => 1
  | v :: vs => (c v + 1) * denFrom (Function.update c v (c v + 1)) vs

theorem denFrom_congr {c c' : α → ℕ} {l : List α} (h : ∀ v ∈ l, c v = c' v) : denFrom c l = denFrom c' l := by
  induction l generalizing c c' with
  | nil => rfl
  | cons x l ih =>
    simp only [denFrom]
    rw [h x (by simp)]
    congr 1
    apply ih
    intro v hv
    by_cases hvx : v = x
    · simp [hvx]
    · simp [Function.update_of_ne hvx, h v (by simp [hv])]

theorem denFrom_pos (c : α → ℕ) (l : List α) : 0 < denFrom c l := by
  induction l generalizing c with
  | nil => simp [denFrom]
  | cons x l ih => simp only [denFrom]; exact Nat.mul_pos (Nat.succ_pos _) (ih _)

theorem denFrom_replicate (c : α → ℕ) (k : ℕ) (x : α) (l : List α) (hx : x ∉ l) :
    (c x).factorial * denFrom c (List.replicate k x ++ l) = (c x + k).factorial * denFrom c l := by
  induction k generalizing c with
  | zero => simp
  | succ k ih =>
    simp only [List.replicate_succ, List.cons_append, denFrom]
    have := ih (Function.update c x (c x + 1))
    simp only [Function.update_self] at this
    have e : denFrom (Function.update c x (c x + 1)) l = denFrom c l := by
      apply denFrom_congr
      intro v hv
      rw [Function.update_of_ne]
      rintro rfl; exact hx hv
    rw [e, Nat.factorial_succ] at this
    have e2 : c x + (k + 1) = c x + 1 + k := by ring
    rw [e2, ← this]
    ring

/-- Current value of a count. -/
def cnt (counts : List (α × ℕ)) (v : α) : ℕ := (counts.lookup v).getD 0

theorem bumpCount_spec (counts : List (α × ℕ)) (v : α) :
    (RV.bumpCount counts v).2 = cnt counts v + 1 ∧
    cnt (RV.bumpCount counts v).1 = Function.update (cnt counts) v (cnt counts v + 1) := by
  induction counts with
  | nil =>
    constructor
    · simp [RV.bumpCount, cnt]
    · funext u
      by_cases h : u = v
      · subst h; simp [RV.bumpCount, cnt]
      · have : (u == v) = false := by simp [h]
        simp [RV.bumpCount, cnt, Function.update_of_ne h, List.lookup, this]
  | cons kv rest ih =>
    obtain ⟨k, c⟩ := kv
    unfold RV.bumpCount
    by_cases hk : k = v
    · subst hk
      rw [if_pos rfl]
      constructor
      · simp [cnt]
      · funext u
        by_cases h : u = k
        · subst h; simp [cnt]
        · have : (u == k) = false := by simp [h]
          simp [cnt, Function.update_of_ne h, List.lookup, this]
    · rw [if_neg hk]
      have hvk : (v == k) = false := by simp [Ne.symm hk]
      have hc : cnt ((k, c) :: rest) v = cnt rest v := by simp [cnt, List.lookup, hvk]
      constructor
      · rw [hc]; exact ih.1
      · funext u
        rw [hc]
        by_cases h : u = k
        · subst h
          rw [Function.update_of_ne hk]
          simp [cnt]
        · have huk : (u == k) = false := by simp [h]
          have := congrFun ih.2 u
          have e1 : cnt ((k, c) :: (RV.bumpCount rest v).1) u = cnt (RV.bumpCount rest v).1 u := by
            simp [cnt, List.lookup, huk]
          have e2 : cnt ((k, c) :: rest) u = cnt rest u := by simp [cnt, List.lookup, huk]
          change cnt ((k, c) :: (RV.bumpCount rest v).1) u = _
          rw [e1, this]
          by_cases huv : u = v
          · subst huv; simp
          · simp [Function.update_of_ne huv, e2]

theorem rollWeight_eq (pdf : List (α × ℕ)) (roll : List α) (counts : List (α × ℕ)) (cur den : ℕ) :
    RV.rollWeight pdf roll counts cur den =
      (cur * (roll.map fun v => (pdf.lookup v).getD 0).prod, den * denFrom (cnt counts) roll) := by
  induction roll generalizing counts cur den with
  | nil => simp [RV.rollWeight, denFrom]
  | cons v vs ih =>
    obtain ⟨h1, h2⟩ := bumpCount_spec counts v
    simp only [RV.rollWeight, denFrom, List.map_cons, List.prod_cons]
    rw [ih, h1, h2]
    simp only [mul_assoc]

theorem cnt_nil : cnt ([] : List (α × ℕ)) = fun _ => 0 := by funext v; simp [cnt]

theorem factorial_eq (n : ℕ) : RV.factorial n = n.factorial := by
  induction n with
  | zero => rfl
  | succ n ih =>
    unfold RV.factorial
    split
    · rw [ih, Nat.factorial_succ]
    · have : n = 0 := by omega
      subst this; rfl

/-- The main counting identity, with the divisibility that makes the integer division exact. -/
theorem den_dvd (pool : List α) (hp : pool.Nodup) (n : ℕ) :
    ∀ l ∈ RV.combosWithReplacement pool n, denFrom (fun _ => 0) l ∣ n.factorial := by
  induction pool generalizing n with
  | nil =>
    cases n with
    | zero => intro l hl; rw [combos_zero] at hl; simp at hl; subst hl; simp [denFrom]
    | succ n => intro l hl; simp [combos_nil] at hl
  | cons x xs ih =>
    have hx := (List.nodup_cons.1 hp).1
    have key : ∀ n, ∀ l ∈ RV.combosWithReplacement (x :: xs) n, ∃ c ≤ n, ∃ l' ∈ RV.combosWithReplacement xs (n - c),
        l = List.replicate c x ++ l' := by
      intro n
      induction n with
      | zero => intro l hl; rw [combos_zero] at hl; exact ⟨0, le_refl _, l, by rw [combos_zero]; exact hl, by simp⟩
      | succ n ihn =>
        intro l hl
        rw [combos_cons, List.mem_append] at hl
        rcases hl with hl | hl
        · obtain ⟨l', hl', rfl⟩ := List.mem_map.1 hl
          obtain ⟨c, hc, l2, h2, rfl⟩ := ihn l' hl'
          exact ⟨c + 1, by omega, l2, by rw [Nat.add_sub_add_right]; exact h2, by simp [List.replicate_succ]⟩
        · exact ⟨0, by omega, l, by simpa using hl, by simp⟩
    intro l hl
    obtain ⟨c, hc, l', hl', rfl⟩ := key n l hl
    have hxl : x ∉ l' := fun h => hx ((combos_mem hl').2 x h)
    have h1 := denFrom_replicate (fun _ => 0) c x l' hxl
    simp only [Nat.factorial_zero, one_mul, zero_add] at h1
    rw [h1]
    obtain ⟨k, hk⟩ := ih (List.nodup_cons.1 hp).2 (n - c) l' hl'
    rw [← Nat.choose_mul_factorial_mul_factorial hc, hk]
    exact ⟨n.choose c * k, by ring⟩

theorem Q_congr {pool : List α} {n : ℕ} {h g : List α → ℚ}
    (e : ∀ l ∈ RV.combosWithReplacement pool n, h l = g l) : Q pool n h = Q pool n g := by
  unfold Q
  rw [List.map_congr_left e]

theorem Q_smul (pool : List α) (n : ℕ) (c : ℚ) (h : List α → ℚ) : Q pool n (fun l => c * h l) = c * Q pool n h := by
  unfold Q
  rw [List.sum_map_mul_left]

open Finset in
theorem Q_eq_tup (P : α → ℕ) (pool : List α) (hp : pool.Nodup) (n : ℕ) (G : Multiset α → ℚ) :
    Q pool n (fun l => (n.factorial : ℚ) / denFrom (fun _ => 0) l * ((l.map P).prod : ℕ) * G ↑l) =
      tup P pool n G := by
  induction pool generalizing n G with
  | nil =>
    cases n with
    | zero => simp [Q, combos_zero, tup, denFrom]
    | succ n => simp [Q, combos_nil, tup]
  | cons x xs ih =>
    have hx := (List.nodup_cons.1 hp).1
    rw [Q_cons, tup_cons]
    apply Finset.sum_congr rfl
    intro c hc
    have hc' : c ≤ n := by have := Finset.mem_range.1 hc; omega
    rw [← ih (List.nodup_cons.1 hp).2, ← Q_smul]
    apply Q_congr
    intro l hl
    have hxl : x ∉ l := fun h => hx ((combos_mem hl).2 x h)
    have h1 := denFrom_replicate (fun _ => 0) c x l hxl
    simp only [Nat.factorial_zero, one_mul, zero_add] at h1
    rw [h1, ← Nat.choose_mul_factorial_mul_factorial hc']
    have e : ((List.replicate c x ++ l : List α) : Multiset α) = Multiset.replicate c x + (l : Multiset α) := by
      rw [← Multiset.coe_add, Multiset.coe_replicate]
    rw [e, List.map_append, List.prod_append, List.map_replicate, List.prod_replicate]
    have hf : (c.factorial : ℚ) ≠ 0 := by exact_mod_cast Nat.factorial_ne_zero c
    have hd : (denFrom (fun _ => 0) l : ℚ) ≠ 0 := by exact_mod_cast (denFrom_pos _ l).ne'
    push_cast
    field_simp

end Pool

namespace RV
variable {α : Type} [LinearOrder α]
open Pool

theorem lookup_of_mem {l : List (α × ℕ)} (hn : (l.map (·.1)).Nodup) {x : α × ℕ} (hx : x ∈ l) :
    l.lookup x.1 = some x.2 := by
  induction l with
  | nil => simp at hx
  | cons y l ih =>
    simp only [List.map_cons, List.nodup_cons] at hn
    rcases List.mem_cons.1 hx with rfl | hx
    · simp [List.lookup]
    · have : (x.1 == y.1) = false := by
        simp only [beq_eq_false_iff_ne]
        intro h
        exact hn.1 (h ▸ List.mem_map_of_mem (f := (·.1)) hx)
      simp only [List.lookup, this]
      exact ih hn.2 hx

/-- `tup` over the outcomes of a die is the (unnormalised) expectation over independent draws. -/
theorem tup_eq_ExN {D : RV α} (hl : D.vals.length = D.probs.length) (hs : D.vals.Pairwise (· < ·))
    (hm : mass D.pairs ≠ 0) (n : ℕ) (G : Multiset α → ℚ) :
    tup (fun v => (D.pairs.lookup v).getD 0) D.vals.reverse n G =
      mass D.pairs ^ n * ExN n D.pairs fun xs => G ↑xs := by
  have hnd : (D.pairs.map (·.1)).Nodup := by
    rw [pairs_map_fst D hl]; exact hs.imp fun h => ne_of_lt h
  induction n generalizing G with
  | zero => simp [tup, ExN]
  | succ n ih =>
    simp only [tup, ExN]
    have e : ∀ F : α → ℚ, (D.vals.reverse.map fun y => (((D.pairs.lookup y).getD 0 : ℕ) : ℚ) * F y).sum =
        wsum D.pairs F := by
      intro F
      rw [List.map_reverse, List.sum_reverse]
      conv_lhs => rw [← pairs_map_fst D hl]
      rw [List.map_map, wsum]
      congr 1
      apply List.map_congr_left
      intro x hx
      simp only [Function.comp]
      rw [lookup_of_mem hnd hx]
      rfl
    rw [e, Ex, pow_succ, mul_assoc, mul_div_cancel₀ _ hm, ← wsum_mul_left]
    apply wsum_congr
    intro x _ _
    rw [ih]
    rfl

/-- The enumeration of the rolls of a pool is exact: summing any function over the listed sequences
with their weights gives its expectation over `N` independent draws, sorted in descending order. -/
theorem expandedRolls_wsum {r : RV α} {N : ℕ} {D : RV α} (hsrc : r.source = (N, D))
    (hl : D.vals.length = D.probs.length) (hs : D.vals.Pairwise (· < ·)) (hm : mass D.pairs ≠ 0)
    (g : List α → ℚ) :
    wsum (expandedRolls r) g = mass D.pairs ^ N * ExN N D.pairs fun xs => g (descending xs) := by
  unfold expandedRolls
  rw [hsrc]
  simp only
  split
  · rename_i h1
    subst h1
    rw [pow_one, ExN_one, Ex, mul_div_cancel₀ _ hm]
    have : (D.vals.map fun i => [i]).zip D.probs = D.pairs.map fun x => ([x.1], x.2) := by
      rw [pairs, List.zip_map_left]; rfl
    rw [this]
    have := wsum_map D.pairs (fun x => [x]) g
    rw [this]
    apply wsum_congr
    intro x _ _
    rfl
  · have hnd : D.vals.reverse.Nodup := by
      rw [List.nodup_reverse]; exact hs.imp fun h => ne_of_lt h
    have hsd : D.vals.reverse.Pairwise (· > ·) := by
      rw [List.pairwise_reverse]; exact hs
    have key := Q_eq_tup (fun v => (D.pairs.lookup v).getD 0) D.vals.reverse hnd N
      fun m => Quotient.liftOn m (fun xs => g (descending xs)) (by
        intro a b hab
        have : descending a = descending b := by
          apply eq_descending
          · exact (descending_perm a).trans hab
          · exact descending_sorted a
        simp only [this])
    rw [tup_eq_ExN hl hs hm] at key
    refine Eq.trans ?_ key
    unfold Q wsum
    rw [List.map_map]
    congr 1
    apply List.map_congr_left
    intro roll hroll
    have hd := den_dvd D.vals.reverse hnd N roll hroll
    have hsr := combos_sorted hsd hroll
    simp only [Function.comp]
    rw [rollWeight_eq]
    simp only [one_mul, cnt_nil, factorial_eq]
    have hg : descending roll = roll := (eq_descending (List.Perm.refl _) hsr).symm
    have e2 : (Quotient.liftOn (roll : Multiset α) (fun xs => g (descending xs)) (by
        intro a b hab
        have : descending a = descending b := by
          apply eq_descending
          · exact (descending_perm a).trans hab
          · exact descending_sorted a
        simp only [this])) = g roll := by
      change g (descending roll) = g roll
      rw [hg]
    rw [e2]
    have hden : (denFrom (fun _ => 0) roll : ℚ) ≠ 0 := by exact_mod_cast (denFrom_pos _ roll).ne'
    push_cast
    rw [Nat.cast_div_charZero hd]
    rfl

theorem expandedRolls_Ex {r : RV α} {N : ℕ} {D : RV α} (hsrc : r.source = (N, D))
    (hl : D.vals.length = D.probs.length) (hs : D.vals.Pairwise (· < ·)) (hm : mass D.pairs ≠ 0) :
    mass (expandedRolls r) = mass D.pairs ^ N ∧
    ∀ g, Ex (expandedRolls r) g = ExN N D.pairs fun xs => g (descending xs) := by
  have h1 : mass (expandedRolls r) = mass D.pairs ^ N := by
    rw [mass, expandedRolls_wsum hsrc hl hs hm, ExN_const hm, mul_one]
  refine ⟨h1, fun g => ?_⟩
  rw [Ex, h1, expandedRolls_wsum hsrc hl hs hm, mul_div_cancel_left₀ _ (pow_ne_zero _ hm)]

end RV
end PythonDice
