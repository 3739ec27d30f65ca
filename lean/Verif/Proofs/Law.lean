import Verif.Spec.Law
import Mathlib.Tactic.Ring
import Mathlib.Tactic.FieldSimp
import Mathlib.Tactic.Linarith
import Mathlib.Tactic.Positivity
import Mathlib.Algebra.BigOperators.Ring.List

/-! Algebra of weighted sums. -/

namespace Spec

variable {α β γ : Type}

@[simp] theorem wsum_nil (f : α → ℚ) : wsum [] f = 0 := rfl

@[simp] theorem wsum_cons (x : α × ℕ) (l : List (α × ℕ)) (f : α → ℚ) :
    wsum (x :: l) f = (x.2 : ℚ) * f x.1 + wsum l f := by simp [wsum]

@[simp] theorem wsum_append (l m : List (α × ℕ)) (f : α → ℚ) :
    wsum (l ++ m) f = wsum l f + wsum m f := by simp [wsum]

theorem wsum_perm {l m : List (α × ℕ)} (h : l.Perm m) (f : α → ℚ) : wsum l f = wsum m f :=
  (h.map _).sum_eq

theorem wsum_congr {l : List (α × ℕ)} {f g : α → ℚ} (h : ∀ x ∈ l, x.2 ≠ 0 → f x.1 = g x.1) :
    wsum l f = wsum l g := by
  induction l with
  | nil => rfl
  | cons x l ih =>
    simp only [wsum_cons]
    rw [ih fun y hy => h y (List.mem_cons_of_mem _ hy)]
    by_cases hx : x.2 = 0
    · simp [hx]
    · rw [h x List.mem_cons_self hx]

theorem wsum_mul_left (l : List (α × ℕ)) (c : ℚ) (f : α → ℚ) :
    wsum l (fun x => c * f x) = c * wsum l f := by
  induction l with
  | nil => simp
  | cons x l ih => simp only [wsum_cons, ih]; ring

theorem wsum_mul_right (l : List (α × ℕ)) (c : ℚ) (f : α → ℚ) :
    wsum l (fun x => f x * c) = wsum l f * c := by
  induction l with
  | nil => simp
  | cons x l ih => simp only [wsum_cons, ih]; ring

theorem wsum_add (l : List (α × ℕ)) (f g : α → ℚ) :
    wsum l (fun x => f x + g x) = wsum l f + wsum l g := by
  induction l with
  | nil => simp
  | cons x l ih => simp only [wsum_cons, ih]; ring

theorem wsum_sub (l : List (α × ℕ)) (f g : α → ℚ) :
    wsum l (fun x => f x - g x) = wsum l f - wsum l g := by
  induction l with
  | nil => simp
  | cons x l ih => simp only [wsum_cons, ih]; ring

theorem wsum_const (l : List (α × ℕ)) (c : ℚ) : wsum l (fun _ => c) = c * mass l := by
  rw [mass, ← wsum_mul_left]; simp

theorem wsum_comm (l : List (α × ℕ)) (m : List (β × ℕ)) (F : α → β → ℚ) :
    wsum l (fun x => wsum m fun y => F x y) = wsum m (fun y => wsum l fun x => F x y) := by
  induction l with
  | nil => simp [wsum_const]
  | cons x l ih => simp only [wsum_cons, ih, wsum_add, wsum_mul_left]

theorem wsum_mono {l : List (α × ℕ)} {f g : α → ℚ} (h : ∀ x ∈ l, f x.1 ≤ g x.1) :
    wsum l f ≤ wsum l g := by
  induction l with
  | nil => simp
  | cons x l ih =>
    simp only [wsum_cons]
    have h1 := h x List.mem_cons_self
    have h2 := ih fun y hy => h y (List.mem_cons_of_mem _ hy)
    have : (x.2 : ℚ) * f x.1 ≤ (x.2 : ℚ) * g x.1 := mul_le_mul_of_nonneg_left h1 (by positivity)
    linarith

theorem wsum_nonneg {l : List (α × ℕ)} {f : α → ℚ} (h : ∀ x ∈ l, 0 ≤ f x.1) : 0 ≤ wsum l f := by
  have := wsum_mono (l := l) (f := fun _ => 0) (g := f) h
  simpa [wsum_const] using this

theorem mass_eq_sum (l : List (α × ℕ)) : mass l = ((l.map (·.2)).sum : ℕ) := by
  induction l with
  | nil => rfl
  | cons x l ih => simp only [mass, wsum_cons] at *; rw [ih]; push_cast [List.map_cons, List.sum_cons]; ring

theorem mass_nonneg (l : List (α × ℕ)) : 0 ≤ mass l := by rw [mass_eq_sum]; positivity

theorem mass_pos_of_ne {l : List (α × ℕ)} (h : mass l ≠ 0) : 0 < mass l :=
  lt_of_le_of_ne (mass_nonneg l) (Ne.symm h)

theorem mass_ne_zero_iff (l : List (α × ℕ)) : mass l ≠ 0 ↔ ∃ x ∈ l, x.2 ≠ 0 := by
  rw [mass_eq_sum]
  simp only [ne_eq, Nat.cast_eq_zero, List.sum_eq_zero_iff, List.mem_map]
  constructor
  · intro h
    by_contra hc
    push Not at hc
    exact h fun x ⟨y, hy, e⟩ => e ▸ hc y hy
  · rintro ⟨x, hx, hne⟩ h
    exact hne (h _ ⟨x, hx, rfl⟩)

theorem wsum_eq_zero_of_mass (l : List (α × ℕ)) (h : mass l = 0) (f : α → ℚ) : wsum l f = 0 := by
  have h' : ∀ x ∈ l, x.2 = 0 := by
    by_contra hc
    push Not at hc
    exact (mass_ne_zero_iff l).2 hc h
  rw [wsum_congr (g := fun _ => 0) fun x hx hne => absurd (h' x hx) hne]
  simp [wsum_const]

theorem wsum_map (l : List (α × ℕ)) (g : α → β) (f : β → ℚ) :
    wsum (l.map fun x => (g x.1, x.2)) f = wsum l fun x => f (g x) := by
  simp [wsum, List.map_map, Function.comp_def]

theorem wsum_flatMap (l : List γ) (F : γ → List (α × ℕ)) (f : α → ℚ) :
    wsum (l.flatMap F) f = (l.map fun c => wsum (F c) f).sum := by
  induction l with
  | nil => simp
  | cons x l ih => simp [ih]

theorem wsum_filter (l : List (α × ℕ)) (p : α → Bool) (f : α → ℚ) :
    wsum (l.filter fun x => p x.1) f = wsum l fun x => if p x then f x else 0 := by
  induction l with
  | nil => simp
  | cons x l ih =>
    by_cases h : p x.1 <;> simp [h, ih]

/-- Scaling all the weighted sums does not change expectations. -/
theorem Ex_of_scale {l m : List (α × ℕ)} {g : ℚ} (hg : g ≠ 0) (h : ∀ f, wsum l f = g * wsum m f)
    (f : α → ℚ) : Ex l f = Ex m f := by
  simp only [Ex, mass, h]
  rw [mul_div_mul_left _ _ hg]

theorem Ex_congr {l : List (α × ℕ)} {f g : α → ℚ} (h : ∀ x ∈ l, x.2 ≠ 0 → f x.1 = g x.1) :
    Ex l f = Ex l g := by simp only [Ex]; rw [wsum_congr h]

theorem Ex_const {l : List (α × ℕ)} (h : mass l ≠ 0) (c : ℚ) : Ex l (fun _ => c) = c := by
  simp only [Ex, wsum_const]; field_simp

theorem Ex_add (l : List (α × ℕ)) (f g : α → ℚ) :
    Ex l (fun x => f x + g x) = Ex l f + Ex l g := by simp only [Ex, wsum_add, add_div]

theorem Ex_sub (l : List (α × ℕ)) (f g : α → ℚ) :
    Ex l (fun x => f x - g x) = Ex l f - Ex l g := by simp only [Ex, wsum_sub, sub_div]

theorem Ex_mul_left (l : List (α × ℕ)) (c : ℚ) (f : α → ℚ) :
    Ex l (fun x => c * f x) = c * Ex l f := by simp only [Ex, wsum_mul_left, mul_div_assoc]

theorem Ex_mul_right (l : List (α × ℕ)) (c : ℚ) (f : α → ℚ) :
    Ex l (fun x => f x * c) = Ex l f * c := by simp only [Ex, wsum_mul_right]; ring

theorem Ex_comm (l : List (α × ℕ)) (m : List (β × ℕ)) (F : α → β → ℚ) :
    Ex l (fun x => Ex m fun y => F x y) = Ex m (fun y => Ex l fun x => F x y) := by
  simp only [Ex, div_eq_mul_inv, wsum_mul_right]
  rw [wsum_comm]; ring

theorem Ex_mono {l : List (α × ℕ)} {f g : α → ℚ} (h : ∀ x ∈ l, f x.1 ≤ g x.1) :
    Ex l f ≤ Ex l g := div_le_div_of_nonneg_right (wsum_mono h) (mass_nonneg l)

theorem Ex_singleton (v : α) (f : α → ℚ) : Ex [(v, 1)] f = f v := by simp [Ex, mass]

/-- A weighted list whose expectations are all those of another one with positive mass has positive
mass. -/
theorem mass_ne_of_Ex {l : List (α × ℕ)} (h : Ex l (fun _ => 1) = 1) : mass l ≠ 0 := by
  intro h0
  simp [Ex, h0] at h

theorem ExN_congr {l : List (α × ℕ)} {n : ℕ} {f g : List α → ℚ} (h : ∀ xs, xs.length = n → f xs = g xs) :
    ExN n l f = ExN n l g := by
  induction n generalizing f g with
  | zero => exact h [] rfl
  | succ n ih =>
    simp only [ExN]
    congr 1; funext x
    exact ih fun xs hxs => h _ (by simp [hxs])

theorem ExN_const {l : List (α × ℕ)} (h : mass l ≠ 0) (n : ℕ) (c : ℚ) : ExN n l (fun _ => c) = c := by
  induction n with
  | zero => rfl
  | succ n ih => simp only [ExN, ih, Ex_const h]

theorem ExN_law {l m : List (α × ℕ)} (h : ∀ f, Ex l f = Ex m f) (n : ℕ) (g : List α → ℚ) :
    ExN n l g = ExN n m g := by
  induction n generalizing g with
  | zero => rfl
  | succ n ih => simp only [ExN, h, ih]

/-- Splitting independent draws into two blocks. -/
theorem ExN_add (l : List (α × ℕ)) (a b : ℕ) (g : List α → ℚ) :
    ExN (a + b) l g = ExN a l fun xs => ExN b l fun ys => g (xs ++ ys) := by
  induction a generalizing g with
  | zero => simp [ExN]
  | succ a ih =>
    rw [show a + 1 + b = (a + b) + 1 by ring]
    simp only [ExN, ih]
    rfl

theorem ExN_one (l : List (α × ℕ)) (g : List α → ℚ) : ExN 1 l g = Ex l fun x => g [x] := rfl

end Spec
