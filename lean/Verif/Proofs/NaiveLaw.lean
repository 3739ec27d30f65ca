import Verif.Spec.Naive
import Verif.Props.Library

/-! Laws by enumeration, and the dice that have them. -/

namespace PythonDice
open Spec
open Spec.Naive (Law mean sure push andThen uniform draws support)

namespace Enum
variable {α β : Type}

/-! ## Means -/

@[simp] theorem mean_nil (f : α → ℚ) : mean [] f = 0 := rfl

@[simp] theorem mean_cons (x : α × ℚ) (l : List (α × ℚ)) (f : α → ℚ) : mean (x :: l) f = x.2 * f x.1 + mean l f := by
  simp [mean]

theorem mean_append (l m : List (α × ℚ)) (f : α → ℚ) : mean (l ++ m) f = mean l f + mean m f := by
  simp [mean]

@[simp] theorem mean_sure (x : α) (f : α → ℚ) : mean (sure x) f = f x := by simp [sure, mean]

theorem mean_push (g : α → β) (l : List (α × ℚ)) (f : β → ℚ) : mean (push g l) f = mean l fun x => f (g x) := by
  simp [mean, push, Function.comp_def]

theorem mean_mul_left (c : ℚ) (l : List (α × ℚ)) (f : α → ℚ) : mean l (fun x => c * f x) = c * mean l f := by
  induction l with
  | nil => simp
  | cons x l ih => rw [mean_cons, mean_cons, ih]; ring

theorem mean_scale (c : ℚ) (l : List (α × ℚ)) (f : α → ℚ) : mean (l.map fun y => (y.1, c * y.2)) f = c * mean l f := by
  induction l with
  | nil => simp
  | cons x l ih => rw [List.map_cons, mean_cons, mean_cons, ih]; ring

theorem mean_andThen (l : List (α × ℚ)) (k : α → List (β × ℚ)) (f : β → ℚ) :
    mean (andThen l k) f = mean l fun x => mean (k x) f := by
  induction l with
  | nil => rfl
  | cons x l ih =>
    have e : andThen (x :: l) k = ((k x.1).map fun y => (y.1, x.2 * y.2)) ++ andThen l k := by simp [andThen]
    rw [e, mean_append, mean_scale, ih, mean_cons]

theorem mean_congr {l : List (α × ℚ)} {f g : α → ℚ} (h : ∀ x ∈ l, f x.1 = g x.1) : mean l f = mean l g := by
  unfold mean
  congr 1
  exact List.map_congr_left fun x hx => by rw [h x hx]

theorem mean_const (l : List (α × ℚ)) (c : ℚ) : mean l (fun _ => c) = c * mean l fun _ => 1 := by
  rw [← mean_mul_left]; simp

theorem mean_add (l : List (α × ℚ)) (f g : α → ℚ) : mean l (fun x => f x + g x) = mean l f + mean l g := by
  induction l with
  | nil => simp
  | cons x l ih => rw [mean_cons, mean_cons, mean_cons, ih]; ring

@[simp] theorem mean_draws_zero (l : Law) (g : List ℤ → ℚ) : mean (draws l 0) g = g [] := by rw [draws, mean_sure]

theorem mean_draws_succ (l : Law) (n : ℕ) (g : List ℤ → ℚ) :
    mean (draws l (n + 1)) g = mean l fun x => mean (draws l n) fun xs => g (x :: xs) := by
  rw [draws, mean_andThen]
  congr 1
  funext x
  rw [mean_push]

theorem mean_uniform (s : List ℤ) (f : ℤ → ℚ) : mean (uniform s) f = Ex (s.map fun v => (v, 1)) f := by
  have h1 : ∀ t : List ℤ, mean (t.map fun x => (x, 1 / (s.length : ℚ))) f = 1 / (s.length : ℚ) * wsum (t.map fun v => (v, 1)) f := by
    intro t
    induction t with
    | nil => simp [wsum]
    | cons x t ih => rw [List.map_cons, mean_cons, ih, List.map_cons, wsum_cons]; push_cast; ring
  have h2 : ∀ t : List ℤ, mass (t.map fun v : ℤ => (v, 1)) = (t.length : ℚ) := by
    intro t
    induction t with
    | nil => simp [mass]
    | cons x t ih => rw [List.map_cons, mass, wsum_cons, ← mass, ih]; push_cast [List.length_cons]; ring
  rw [uniform, h1, Ex, h2]
  ring

/-! ## Positive probabilities -/

/-- All probabilities are positive. -/
def Pos (l : List (α × ℚ)) : Prop := ∀ x ∈ l, 0 < x.2

theorem pos_sure (x : α) : Pos (sure x) := by
  intro y hy
  rw [sure, List.mem_singleton] at hy
  rw [hy]; exact one_pos

theorem Pos.push {l : List (α × ℚ)} (h : Pos l) (f : α → β) : Pos (push f l) := by
  intro y hy
  obtain ⟨x, hx, rfl⟩ := List.mem_map.1 hy
  exact h x hx

theorem mem_andThen {l : List (α × ℚ)} {k : α → List (β × ℚ)} {y : β × ℚ} :
    y ∈ andThen l k ↔ ∃ x ∈ l, ∃ z ∈ k x.1, y = (z.1, x.2 * z.2) := by
  simp only [andThen, List.mem_flatMap, List.mem_map, eq_comm]

theorem Pos.andThen {l : List (α × ℚ)} {k : α → List (β × ℚ)} (h : Pos l) (hk : ∀ x ∈ l, Pos (k x.1)) : Pos (andThen l k) := by
  intro y hy
  obtain ⟨x, hx, z, hz, rfl⟩ := mem_andThen.1 hy
  exact mul_pos (h x hx) (hk x hx z hz)

theorem pos_uniform (s : List ℤ) (h : s ≠ []) : Pos (uniform s) := by
  intro y hy
  obtain ⟨x, hx, rfl⟩ := List.mem_map.1 hy
  have : 0 < s.length := List.length_pos_iff.2 h
  exact div_pos one_pos (by exact_mod_cast this)

theorem Pos.draws {l : Law} (h : Pos l) (n : ℕ) : Pos (draws l n) := by
  induction n with
  | zero => exact pos_sure _
  | succ n ih => exact h.andThen fun x _ => ih.push _

/-! ## What is possible -/

theorem mem_fst_push {l : List (α × ℚ)} {f : α → β} {y : β} :
    y ∈ (push f l).map Prod.fst ↔ ∃ x ∈ l.map Prod.fst, f x = y := by
  simp [push]

theorem mem_fst_andThen {l : List (α × ℚ)} {k : α → List (β × ℚ)} {y : β} :
    y ∈ (andThen l k).map Prod.fst ↔ ∃ x ∈ l.map Prod.fst, y ∈ (k x).map Prod.fst := by
  simp only [List.mem_map, mem_andThen]
  constructor
  · rintro ⟨_, ⟨x, hx, z, hz, rfl⟩, rfl⟩
    exact ⟨x.1, ⟨x, hx, rfl⟩, z, hz, rfl⟩
  · rintro ⟨_, ⟨x, hx, rfl⟩, z, hz, rfl⟩
    exact ⟨_, ⟨x, hx, z, hz, rfl⟩, rfl⟩

theorem mem_fst_draws {l : Law} {n : ℕ} {xs : List ℤ} :
    xs ∈ (draws l n).map Prod.fst ↔ xs.length = n ∧ ∀ x ∈ xs, x ∈ l.map Prod.fst := by
  induction n generalizing xs with
  | zero =>
    simp only [draws, sure, List.map_cons, List.map_nil, List.mem_singleton]
    constructor
    · rintro rfl; simp
    · rintro ⟨h, _⟩; exact List.length_eq_zero_iff.1 h
  | succ n ih =>
    rw [draws, mem_fst_andThen]
    constructor
    · rintro ⟨x, hx, hxs⟩
      obtain ⟨ys, hys, rfl⟩ := mem_fst_push.1 hxs
      obtain ⟨h1, h2⟩ := ih.1 hys
      refine ⟨by simp [h1], fun z hz => ?_⟩
      rcases List.mem_cons.1 hz with rfl | hz
      · exact hx
      · exact h2 z hz
    · rintro ⟨h1, h2⟩
      cases xs with
      | nil => simp at h1
      | cons x xs =>
        refine ⟨x, h2 x List.mem_cons_self, mem_fst_push.2 ⟨xs, ih.2 ⟨by simpa using h1, fun z hz => h2 z (List.mem_cons_of_mem _ hz)⟩, rfl⟩⟩

theorem mem_fst_uniform {s : List ℤ} {v : ℤ} : v ∈ (uniform s).map Prod.fst ↔ v ∈ s := by
  simp [uniform]

theorem mean_nonneg {l : List (α × ℚ)} (h : Pos l) {f : α → ℚ} (hf : ∀ x ∈ l, 0 ≤ f x.1) : 0 ≤ mean l f := by
  induction l with
  | nil => simp
  | cons x l ih =>
    rw [mean_cons]
    exact add_nonneg (mul_nonneg (h x List.mem_cons_self).le (hf x List.mem_cons_self))
      (ih (fun y hy => h y (List.mem_cons_of_mem _ hy)) fun y hy => hf y (List.mem_cons_of_mem _ hy))

theorem mean_pos {l : List (α × ℚ)} (h : Pos l) {f : α → ℚ} (hf : ∀ x ∈ l, 0 ≤ f x.1) {x : α × ℚ} (hx : x ∈ l) (hx' : 0 < f x.1) :
    0 < mean l f := by
  induction l with
  | nil => cases hx
  | cons y l ih =>
    have hp : Pos l := fun y hy => h y (List.mem_cons_of_mem _ hy)
    have hf' : ∀ x ∈ l, 0 ≤ f x.1 := fun y hy => hf y (List.mem_cons_of_mem _ hy)
    rw [mean_cons]
    rcases List.mem_cons.1 hx with rfl | hx
    · exact add_pos_of_pos_of_nonneg (mul_pos (h _ List.mem_cons_self) hx') (mean_nonneg hp hf')
    · exact add_pos_of_nonneg_of_pos (mul_nonneg (h y List.mem_cons_self).le (hf y List.mem_cons_self)) (ih hp hf' hx)

theorem mean_ind_ne_zero {l : Law} (h : Pos l) (v : ℤ) : mean l (fun x => if x = v then 1 else 0) ≠ 0 ↔ v ∈ l.map Prod.fst := by
  constructor
  · intro hne
    by_contra hv
    apply hne
    rw [mean_congr (g := fun _ => 0), mean_const]
    · simp
    · intro x hx
      rw [if_neg]
      rintro rfl
      exact hv (List.mem_map_of_mem hx)
  · intro hv
    obtain ⟨x, hx, rfl⟩ := List.mem_map.1 hv
    refine (mean_pos h (fun y _ => ?_) hx ?_).ne'
    · split <;> norm_num
    · simp

/-! ## Dice with a law -/

/-- The die has the law `l`, and is in normal form. -/
structure DieRep (r : RV ℤ) (l : Law) : Prop where
  proper : r.Proper
  canon : r.Canonical
  nz : ∀ p ∈ r.probs, p ≠ 0
  pos : Pos l
  law : ∀ f, Ex r.pairs f = mean l f

theorem ind_ne_zero {r : RV ℤ} (hp : r.Proper) (v : ℤ) :
    Ex r.pairs (fun x => if x = v then 1 else 0) ≠ 0 ↔ ∃ x ∈ r.pairs, x.1 = v ∧ x.2 ≠ 0 := by
  have hnd : (r.pairs.map (·.1)).Nodup := by rw [RV.pairs_map_fst r hp.len]; exact hp.sorted.imp ne_of_lt
  rw [Ex, ← RV.weightOf_eq_wsum, Ne, div_eq_zero_iff, not_or]
  constructor
  · rintro ⟨h1, _⟩
    by_contra hv
    apply h1
    have : weightOf r.pairs v = 0 := by
      unfold weightOf
      rw [List.sum_eq_zero_iff]
      intro p hp
      obtain ⟨x, hx, rfl⟩ := List.mem_map.1 hp
      rw [List.mem_filter] at hx
      by_contra h0
      exact hv ⟨x, hx.1, by simpa using hx.2, h0⟩
    rw [this]; rfl
  · rintro ⟨x, hx, rfl, h0⟩
    refine ⟨?_, hp.pos⟩
    rw [RV.weightOf_of_mem hnd hx]
    exact_mod_cast h0

theorem DieRep.mem_vals {r : RV ℤ} {l : Law} (h : DieRep r l) (v : ℤ) : v ∈ r.vals ↔ v ∈ l.map Prod.fst := by
  rw [← mean_ind_ne_zero h.pos, ← h.law, ind_ne_zero h.proper]
  constructor
  · intro hv
    rw [← RV.pairs_map_fst r h.proper.len] at hv
    obtain ⟨x, hx, rfl⟩ := List.mem_map.1 hv
    exact ⟨x, hx, rfl, h.nz _ (List.of_mem_zip hx).2⟩
  · rintro ⟨x, hx, rfl, _⟩
    exact RV.mem_vals_of_pairs hx

/-- What is to be shown of a die. -/
theorem DieRep.of {r : RV ℤ} {l : Law} (hp : r.Proper) (hc : r.Canonical) (hl : Pos l) (law : ∀ f, Ex r.pairs f = mean l f)
    (hs : ∀ v ∈ r.vals, v ∈ l.map Prod.fst) : DieRep r l := by
  refine ⟨hp, hc, fun p hpp => ?_, hl, law⟩
  rw [← RV.pairs_map_snd r hp.len] at hpp
  obtain ⟨x, hx, rfl⟩ := List.mem_map.1 hpp
  have h1 := hs _ (RV.mem_vals_of_pairs hx)
  rw [← mean_ind_ne_zero hl, ← law, ind_ne_zero hp] at h1
  obtain ⟨y, hy, e, h0⟩ := h1
  have hnd : (r.pairs.map (·.1)).Nodup := by rw [RV.pairs_map_fst r hp.len]; exact hp.sorted.imp ne_of_lt
  have := List.inj_on_of_nodup_map hnd hy hx e
  rw [← this]; exact h0

theorem DieRep.total {r : RV ℤ} {l : Law} (h : DieRep r l) : mean l (fun _ => 1) = 1 := by
  rw [← h.law, Ex, ← mass, div_self h.proper.pos]

theorem DieRep.ne_nil {r : RV ℤ} {l : Law} (h : DieRep r l) : l ≠ [] := by
  rintro rfl
  have := h.total
  simp at this

theorem DieRep.congr {r : RV ℤ} {l m : Law} (h : DieRep r l) (hm : Pos m) (e : ∀ f, mean m f = mean l f) : DieRep r m :=
  ⟨h.proper, h.canon, h.nz, hm, fun f => by rw [h.law, e]⟩

/-- Only outcomes and weights matter. -/
theorem DieRep.same {r q : RV ℤ} {l : Law} (h : DieRep r l) (h1 : q.vals = r.vals) (h2 : q.probs = r.probs) : DieRep q l := by
  have e : q.pairs = r.pairs := by rw [RV.pairs, RV.pairs, h1, h2]
  obtain ⟨⟨a1, a2, a3, a4⟩, ⟨b1, b2, b3, b4⟩, c, d, f⟩ := h
  refine ⟨⟨by rw [h1, h2]; exact a1, by rw [h1]; exact a2, by rw [h1]; exact a3, by rw [e]; exact a4⟩,
    ⟨by rw [h1, h2]; exact a1, by rw [h1]; exact a2, by rw [h1]; exact a3, by rw [h2]; exact b4⟩, by rw [h2]; exact c, d, by rw [e]; exact f⟩

theorem DieRep.coprime {r : RV ℤ} {l : Law} (h : DieRep r l) : Coprime r.probs := by
  obtain ⟨v, hv⟩ := List.exists_mem_of_ne_nil _ h.proper.nonempty
  have : r.probs ≠ [] := by
    intro h0
    have := h.proper.len
    rw [h0, List.length_nil, List.length_eq_zero_iff] at this
    rw [this] at hv; cases hv
  obtain ⟨p, hp⟩ := List.exists_mem_of_ne_nil _ this
  exact h.canon.coprime ⟨p, hp, h.nz p hp⟩

theorem DieRep.draws {r : RV ℤ} {l : Law} (h : DieRep r l) (n : ℕ) (g : List ℤ → ℚ) : ExN n r.pairs g = mean (draws l n) g := by
  induction n generalizing g with
  | zero => rw [ExN, mean_draws_zero]
  | succ n ih =>
    rw [ExN, mean_draws_succ, h.law]
    congr 1
    funext x
    exact ih _

theorem DieRep.const (v : ℤ) (s : Option (ℕ × List ℤ × List ℕ)) : DieRep ⟨[v], [1], s⟩ (sure v) :=
  DieRep.of (proper_const _ _) (canonical_const _ _) (pos_sure v) (fun f => by simp [RV.pairs, Ex_singleton]) (by simp [sure])

theorem DieRep.vals_eq {r : RV ℤ} {l : Law} (h : DieRep r l) : r.vals = support l := by
  have hs : (support l).Pairwise (· < ·) := by
    have h1 : (support l).Pairwise (· ≤ ·) := List.pairwise_insertionSort _ _
    have h2 : (support l).Nodup := (List.perm_insertionSort _ _).nodup_iff.2 (List.nodup_dedup _)
    exact (List.pairwise_and_iff.2 ⟨h1, h2⟩).imp fun ⟨a, b⟩ => lt_of_le_of_ne a b
  refine RV.sorted_ext h.proper.sorted hs fun v => ?_
  rw [h.mem_vals, support, ascending, List.mem_insertionSort, List.mem_dedup]

end Enum
end PythonDice
