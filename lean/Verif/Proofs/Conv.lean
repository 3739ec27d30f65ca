import Verif.Proofs.Canon
import Verif.Model.Ops
import Mathlib.Algebra.Order.BigOperators.Group.List

/-! Lemmas on convolution, mapping and the limiter. -/

set_option linter.unusedSectionVars false

namespace PythonDice
namespace RV
open Spec

variable {α β γ : Type}

theorem mapM_ok_iff {ε β γ : Type} (f : β → Except ε γ) (l : List β) (r : List γ) :
    l.mapM f = .ok r ↔ List.Forall₂ (fun v w => f v = .ok w) l r := by
  induction l generalizing r with
  | nil => simp [List.mapM_nil, pure, Except.pure, eq_comm]
  | cons x l ih =>
    rw [List.mapM_cons]
    cases hx : f x with
    | error e =>
      simp only [bind, Except.bind]
      constructor
      · intro h; cases h
      · intro h; cases h with | cons h1 _ => rw [hx] at h1; cases h1
    | ok y =>
      cases hl : l.mapM f with
      | error e =>
        simp only [bind, Except.bind]
        constructor
        · intro h; cases h
        · intro h; cases h with
          | cons _ h2 => rw [(ih _).2 h2] at hl; cases hl
      | ok ys =>
        simp only [bind, Except.bind, pure, Except.pure]
        constructor
        · intro h; cases h; exact List.Forall₂.cons hx ((ih _).1 hl)
        · intro h; cases h with
          | cons h1 h2 =>
            rw [hx] at h1; cases h1
            rw [(ih _).2 h2] at hl; cases hl; rfl

theorem mapM_eq_map {ε β γ : Type} {f : β → Except ε γ} {F : β → γ} {l : List β}
    (h : ∀ x ∈ l, f x = .ok (F x)) : l.mapM f = .ok (l.map F) := by
  rw [mapM_ok_iff]
  induction l with
  | nil => exact .nil
  | cons x l ih =>
    exact .cons (h x List.mem_cons_self) (ih fun y hy => h y (List.mem_cons_of_mem _ hy))

/-- If some element fails, the whole `mapM` fails. -/
theorem mapM_error {ε β γ : Type} {f : β → Except ε γ} {l : List β} {x : β} {e : ε} (hx : x ∈ l)
    (h : f x = .error e) : ∃ e', l.mapM f = .error e' := by
  cases hl : l.mapM f with
  | error e' => exact ⟨e', rfl⟩
  | ok r =>
    rw [mapM_ok_iff] at hl
    exfalso
    induction hl with
    | nil => simp at hx
    | cons h1 _ ih =>
      rcases List.mem_cons.1 hx with rfl | hx
      · rw [h] at h1; cases h1
      · exact ih hx

/-! ## Truncation as a total function -/

/-- What the constructor does to each value under the default `truncate=None`. -/
def truncFn [LinearOrder α] [PyVal α] (st : Settings) (v : α) : α :=
  if st.rvTrunc then (match PyVal.trunc v with | .ok w => w | .error _ => v) else v

theorem truncFn_off [LinearOrder α] [PyVal α] {st : Settings} (h : st.rvTrunc = false) (v : α) :
    truncFn st v = v := by simp [truncFn, h]

@[simp] theorem truncFn_int (st : Settings) (v : ℤ) : truncFn st v = v := by
  unfold truncFn; split <;> rfl

section
variable [LinearOrder α] [PyVal α]

theorem truncated_eq_map {st : Settings} {vals vs : List α} (h : truncated st none vals = .ok vs) :
    vs = vals.map (truncFn st) := by
  unfold truncated at h
  simp only [Option.getD_none] at h
  split at h
  · rename_i hb
    rw [mapM_ok_iff] at h
    induction h with
    | nil => rfl
    | cons h1 _ ih => rw [List.map_cons, ← ih, truncFn, if_pos hb, h1]
  · rename_i hb
    cases h
    have : (truncFn st : α → α) = id := by funext v; simp [truncFn, hb]
    rw [this, List.map_id]

theorem truncated_int (st : Settings) (t : Option Bool) (vals : List ℤ) :
    truncated st t vals = .ok vals := by
  unfold truncated
  split
  · rw [mapM_eq_map (f := PyVal.trunc) (F := id) fun _ _ => rfl]; simp
  · rfl

/-- `mk'` on non-negative weights given as naturals. -/
theorem mk'_Ex_nat {st : Settings} {l : List (α × ℕ)} {r : RV α}
    (h : mk' st (l.map (·.1)) (l.map fun x => (x.2 : ℤ)) = .ok r) (hm : mass l ≠ 0) (f : α → ℚ) :
    Ex r.pairs f = Ex l fun v => f (truncFn st v) := by
  obtain ⟨_, _, vs, hv, _⟩ := mk'_ok h
  have hvs := truncated_eq_map hv
  have hz : vs.zip ((l.map fun x => (x.2 : ℤ)).map Int.toNat) = l.map fun x => (truncFn st x.1, x.2) := by
    rw [hvs, List.map_map, List.map_map, List.zip_map']
    simp [Function.comp_def]
  have hm' : mass (vs.zip ((l.map fun x => (x.2 : ℤ)).map Int.toNat)) ≠ 0 := by
    rw [hz, mass, wsum_map]; exact hm
  rw [mk'_Ex h hv hm', hz, Ex, Ex, mass, mass, wsum_map, wsum_map]

theorem mk'_mass_nat {st : Settings} {l : List (α × ℕ)} {r : RV α}
    (h : mk' st (l.map (·.1)) (l.map fun x => (x.2 : ℤ)) = .ok r) (hm : mass l ≠ 0) :
    mass r.pairs ≠ 0 := by
  apply mass_ne_of_Ex
  rw [mk'_Ex_nat h hm, Ex_const hm]

theorem mk'_int_ok (st : Settings) (l : List (ℤ × ℕ)) :
    ∃ r, mk' st (l.map (·.1)) (l.map fun x => (x.2 : ℤ)) = .ok r := by
  rw [mk'_eq, if_neg (by simp), truncated_int]
  simp only
  rw [if_pos (by simp)]
  split <;> exact ⟨_, rfl⟩

end

theorem mk'_sum_le [LinearOrder α] [PyVal α] {st : Settings} {vals : List α} {probs : List ℤ}
    {t : Option Bool} {r : RV α} (h : mk' st vals probs t = .ok r) :
    r.probs.sum ≤ max 1 (probs.map Int.toNat).sum := by
  obtain ⟨hl, _, vs, hv, hr⟩ := mk'_ok h
  have hlen := truncated_length _ _ _ _ hv
  rcases hr with ⟨_, rfl⟩ | ⟨_, rfl⟩
  · simp
  · apply le_max_of_le_right
    have h1 : ((normPairs (core st vs probs)).map (·.2)).sum ≤ ((core st vs probs).map (·.2)).sum := by
      simp only [normPairs, List.map_map]
      apply List.sum_le_sum
      intro x _
      exact Nat.div_le_self _ _
    refine h1.trans (le_of_eq ?_)
    have : ((((core st vs probs).map (·.2)).sum : ℕ) : ℚ) = ((probs.map Int.toNat).sum : ℕ) := by
      rw [← mass_eq_sum, mass, core_wsum, ← mass, mass_eq_sum, List.map_snd_zip (by simp; omega)]
    exact_mod_cast this

/-! ## The limiter -/

theorem probLimit_false {r r' : RV α} (h : probLimit r = .ok (r', false)) : r' = r := by
  unfold probLimit at h
  split at h
  · cases h; rfl
  · simp only [bind, Except.bind] at h
    split at h
    · cases h
    · split at h
      · cases h
      · simp [pure, Except.pure] at h

theorem probLimit_le {r : RV α} (h : r.sumProbs ≤ sumLimit) : probLimit r = .ok (r, false) := by
  unfold probLimit; rw [if_pos h]

/-! ## Convolution -/

theorem rdictSet_wsum [DecidableEq γ] (d : List (γ × ℕ)) (k : γ) (v : ℕ) (f : γ → ℚ) :
    wsum (rdictSet d k v) f = wsum d f + v * f k := by
  induction d with
  | nil => simp [rdictSet]
  | cons x d ih =>
    obtain ⟨k', v'⟩ := x
    simp only [rdictSet]
    split
    · rename_i h; simp only [wsum_cons, ← h]; push_cast; ring
    · simp only [wsum_cons, ih]; ring

theorem rdictSet_mem [DecidableEq γ] (d : List (γ × ℕ)) (k : γ) (v : ℕ) (x : γ) :
    x ∈ (rdictSet d k v).map (·.1) ↔ x ∈ d.map (·.1) ∨ x = k := by
  induction d with
  | nil => simp [rdictSet]
  | cons y d ih =>
    obtain ⟨k', v'⟩ := y
    simp only [rdictSet]
    split
    · rename_i h; simp only [List.map_cons, List.mem_cons, h]; tauto
    · simp only [List.map_cons, List.mem_cons, ih]; tauto

/-- The dictionary built from a list of assignments. -/
def rdictOf [DecidableEq γ] (P : List (γ × ℕ)) : List (γ × ℕ) :=
  P.foldl (fun d kv => rdictSet d kv.1 kv.2) []

theorem rdictFold_wsum [DecidableEq γ] (P d : List (γ × ℕ)) (f : γ → ℚ) :
    wsum (P.foldl (fun d kv => rdictSet d kv.1 kv.2) d) f = wsum d f + wsum P f := by
  induction P generalizing d with
  | nil => simp
  | cons x P ih => simp only [List.foldl_cons, ih, rdictSet_wsum, wsum_cons]; ring

theorem rdictFold_mem [DecidableEq γ] (P d : List (γ × ℕ)) (x : γ) :
    x ∈ (P.foldl (fun d kv => rdictSet d kv.1 kv.2) d).map (·.1) ↔
      x ∈ d.map (·.1) ∨ x ∈ P.map (·.1) := by
  induction P generalizing d with
  | nil => simp
  | cons y P ih => simp only [List.foldl_cons, ih, rdictSet_mem, List.map_cons, List.mem_cons]; tauto

theorem rdictOf_wsum [DecidableEq γ] (P : List (γ × ℕ)) (f : γ → ℚ) :
    wsum (rdictOf P) f = wsum P f := by rw [rdictOf, rdictFold_wsum]; simp

theorem rdictOf_mem [DecidableEq γ] (P : List (γ × ℕ)) (x : γ) :
    x ∈ (rdictOf P).map (·.1) ↔ x ∈ P.map (·.1) := by rw [rdictOf, rdictFold_mem]; simp

theorem toTuples_perm [LinearOrder γ] (d : List (γ × ℕ)) : (toTuples d).Perm d :=
  List.perm_insertionSort _ _

/-- All pairs with their product weights. -/
def prodPairs (l : List (α × ℕ)) (m : List (β × ℕ)) (F : α → β → γ) : List (γ × ℕ) :=
  l.flatMap fun x => m.map fun y => (F x.1 y.1, x.2 * y.2)

theorem prodPairs_wsum (l : List (α × ℕ)) (m : List (β × ℕ)) (F : α → β → γ) (f : γ → ℚ) :
    wsum (prodPairs l m F) f = wsum l fun x => wsum m fun y => f (F x y) := by
  induction l with
  | nil => simp [prodPairs]
  | cons x l ih =>
    simp only [prodPairs, List.flatMap_cons, wsum_append, wsum_cons] at *
    rw [ih]
    congr 1
    simp only [wsum, List.map_map, ← List.sum_map_mul_left]
    congr 1
    apply List.map_congr_left
    intro y _
    simp only [Function.comp]; push_cast; ring

theorem prodPairs_mass (l : List (α × ℕ)) (m : List (β × ℕ)) (F : α → β → γ) :
    mass (prodPairs l m F) = mass l * mass m := by
  rw [mass, prodPairs_wsum]
  simp only [wsum_const]
  ring

theorem prodPairs_Ex (l : List (α × ℕ)) (m : List (β × ℕ)) (F : α → β → γ) (f : γ → ℚ) :
    Ex (prodPairs l m F) f = Ex l fun x => Ex m fun y => f (F x y) := by
  simp only [Ex, prodPairs_wsum, prodPairs_mass, div_eq_mul_inv, wsum_mul_right, mul_inv]
  ring

theorem foldlM_ok {ε σ β : Type} {g : σ → β → Except ε σ} {G : σ → β → σ} {l : List β} {s : σ}
    (h : ∀ s, ∀ x ∈ l, g s x = .ok (G s x)) : l.foldlM g s = .ok (l.foldl G s) := by
  induction l generalizing s with
  | nil => rfl
  | cons x l ih =>
    rw [List.foldlM_cons, h s x List.mem_cons_self]
    exact ih fun s y hy => h s y (List.mem_cons_of_mem _ hy)

theorem foldlM_error {ε σ β : Type} {g : σ → β → Except ε σ} {l : List β} {s : σ} {x : β} (hx : x ∈ l)
    (h : ∀ s, ∃ e, g s x = .error e) : ∃ e, l.foldlM g s = .error e := by
  induction l generalizing s with
  | nil => simp at hx
  | cons y l ih =>
    rw [List.foldlM_cons]
    rcases List.mem_cons.1 hx with rfl | hx
    · obtain ⟨e, he⟩ := h s
      rw [he]; exact ⟨e, rfl⟩
    · cases hg : g s y with
      | error e => exact ⟨e, rfl⟩
      | ok s' => exact ih hx

theorem fastConvolve_ok [LinearOrder γ] {l : List (α × ℕ)} {m : List (β × ℕ)}
    {op : α → β → Except Err γ} {F : α → β → γ}
    (h : ∀ x ∈ l, ∀ y ∈ m, op x.1 y.1 = .ok (F x.1 y.1)) :
    fastConvolve l m op = .ok (toTuples (rdictOf (prodPairs l m F))) := by
  unfold fastConvolve
  rw [foldlM_ok (G := fun d x => m.foldl (fun d y => rdictSet d (F x.1 y.1) (x.2 * y.2)) d)]
  · simp only [bind, Except.bind, pure, Except.pure, rdictOf, prodPairs, List.foldl_flatMap, List.foldl_map]
  · intro s x hx
    rw [foldlM_ok (G := fun d y => rdictSet d (F x.1 y.1) (x.2 * y.2))]
    intro s y hy
    rw [h x hx y hy]; rfl

theorem fastConvolve_error [LinearOrder γ] {l : List (α × ℕ)} {m : List (β × ℕ)}
    {op : α → β → Except Err γ} {x : α × ℕ} {y : β × ℕ} (hx : x ∈ l) (hy : y ∈ m) {e : Err}
    (h : op x.1 y.1 = .error e) : ∃ e, fastConvolve l m op = .error e := by
  unfold fastConvolve
  obtain ⟨e', he⟩ := foldlM_error (s := ([] : List (γ × ℕ))) (l := l) (x := x) hx
    (g := fun d kv1 => m.foldlM (init := d) fun d kv2 => do
      let k ← op kv1.1 kv2.1
      return rdictSet d k (kv1.2 * kv2.2)) (by
      intro s
      refine foldlM_error hy ?_
      intro s; rw [h]; exact ⟨e, rfl⟩)
  exact ⟨e', by rw [he]; rfl⟩

section
variable [LinearOrder γ] [PyVal γ]

/-- The die before limiting: the input of the constructor is `prodPairs` up to grouping. -/
theorem convolveRV_ok {st : Settings} {a : RV α} {b : RV β} {op : α → β → Except Err γ} {F : α → β → γ}
    (h : ∀ x ∈ a.pairs, ∀ y ∈ b.pairs, op x.1 y.1 = .ok (F x.1 y.1)) :
    convolveRV st a b op =
      (mk' st ((toTuples (rdictOf (prodPairs a.pairs b.pairs F))).map (·.1))
        ((toTuples (rdictOf (prodPairs a.pairs b.pairs F))).map fun x => (x.2 : ℤ))).bind probLimit := by
  unfold convolveRV
  rw [fastConvolve_ok h]
  rfl

theorem tuples_wsum (P : List (γ × ℕ)) (f : γ → ℚ) : wsum (toTuples (rdictOf P)) f = wsum P f := by
  rw [wsum_perm (toTuples_perm _), rdictOf_wsum]

theorem tuples_mem (P : List (γ × ℕ)) (v : γ) : v ∈ (toTuples (rdictOf P)).map (·.1) ↔ v ∈ P.map (·.1) := by
  rw [((toTuples_perm _).map _).mem_iff, rdictOf_mem]

theorem bind_ok_iff {ε β γ : Type} (m : Except ε β) (k : β → Except ε γ) (r : γ) :
    m.bind k = .ok r ↔ ∃ x, m = .ok x ∧ k x = .ok r := by
  cases m <;> simp [Except.bind]

/-- The die before its weights are limited. -/
def convolveRV0 (st : Settings) (a : RV α) (b : RV β) (F : α → β → γ) : Except Err (RV γ) :=
  mk' st ((toTuples (rdictOf (prodPairs a.pairs b.pairs F))).map (·.1)) ((toTuples (rdictOf (prodPairs a.pairs b.pairs F))).map fun x => (x.2 : ℤ))

theorem convolveRV0_Ex {st : Settings} {a : RV α} {b : RV β} {F : α → β → γ} {r : RV γ}
    (h0 : convolveRV0 st a b F = .ok r) (ha : mass a.pairs ≠ 0) (hb : mass b.pairs ≠ 0)
    (f : γ → ℚ) :
    Ex r.pairs f = Ex a.pairs fun x => Ex b.pairs fun y => f (truncFn st (F x y)) := by
  have hw := tuples_wsum (prodPairs a.pairs b.pairs F)
  have hm : mass (toTuples (rdictOf (prodPairs a.pairs b.pairs F))) ≠ 0 := by
    rw [mass, hw, ← mass, prodPairs_mass]; exact mul_ne_zero ha hb
  rw [mk'_Ex_nat h0 hm, Ex, mass, hw, hw, ← mass, ← Ex, prodPairs_Ex]

theorem convolveRV0_mass {st : Settings} {a : RV α} {b : RV β} {F : α → β → γ} {r : RV γ}
    (h0 : convolveRV0 st a b F = .ok r) (ha : mass a.pairs ≠ 0) (hb : mass b.pairs ≠ 0) : mass r.pairs ≠ 0 := by
  apply mass_ne_of_Ex
  rw [convolveRV0_Ex h0 ha hb]
  simp only [Ex_const hb, Ex_const ha]

theorem convolveRV0_of {st : Settings} {a : RV α} {b : RV β} {op : α → β → Except Err γ} {F : α → β → γ}
    (h : ∀ x ∈ a.pairs, ∀ y ∈ b.pairs, op x.1 y.1 = .ok (F x.1 y.1)) {r : RV γ}
    (hr : convolveRV st a b op = .ok (r, false)) : convolveRV0 st a b F = .ok r := by
  rw [convolveRV_ok h, bind_ok_iff] at hr
  obtain ⟨r0, h0, h1⟩ := hr
  have := probLimit_false h1
  subst this
  exact h0

theorem convolveRV_Ex {st : Settings} {a : RV α} {b : RV β} {op : α → β → Except Err γ} {F : α → β → γ}
    (h : ∀ x ∈ a.pairs, ∀ y ∈ b.pairs, op x.1 y.1 = .ok (F x.1 y.1)) {r : RV γ}
    (hr : convolveRV st a b op = .ok (r, false)) (ha : mass a.pairs ≠ 0) (hb : mass b.pairs ≠ 0)
    (f : γ → ℚ) :
    Ex r.pairs f = Ex a.pairs fun x => Ex b.pairs fun y => f (truncFn st (F x y)) :=
  convolveRV0_Ex (convolveRV0_of h hr) ha hb f

theorem convolveRV_mass {st : Settings} {a : RV α} {b : RV β} {op : α → β → Except Err γ} {F : α → β → γ}
    (h : ∀ x ∈ a.pairs, ∀ y ∈ b.pairs, op x.1 y.1 = .ok (F x.1 y.1)) {r : RV γ}
    (hr : convolveRV st a b op = .ok (r, false)) (ha : mass a.pairs ≠ 0) (hb : mass b.pairs ≠ 0) :
    mass r.pairs ≠ 0 :=
  convolveRV0_mass (convolveRV0_of h hr) ha hb

theorem convolveRV_inv {st : Settings} {a : RV α} {b : RV β} {op : α → β → Except Err γ} {r : RV γ × Bool}
    (hr : convolveRV st a b op = .ok r) : ∀ x ∈ a.pairs, ∀ y ∈ b.pairs, ∃ z, op x.1 y.1 = .ok z := by
  intro x hx y hy
  cases h : op x.1 y.1 with
  | ok z => exact ⟨z, rfl⟩
  | error e =>
    obtain ⟨e', he⟩ := fastConvolve_error hx hy h
    unfold convolveRV at hr
    rw [he] at hr; cases hr

/-- The value of a partial operation, as a total function. -/
def valueOf (op : α → β → Except Err γ) (x : α) (y : β) : γ :=
  match op x y with
  | .ok z => z
  | .error _ => PyVal.zero

theorem valueOf_ok {op : α → β → Except Err γ} {x : α} {y : β} (h : ∃ z, op x y = .ok z) :
    op x y = .ok (valueOf op x y) := by
  obtain ⟨z, hz⟩ := h
  simp [valueOf, hz]

/-! ## Mapping outcomes -/

theorem mapVals_inv {st : Settings} {a : RV α} {op : α → Except Err γ} {r : RV γ}
    (hr : mapVals st a op = .ok r) : ∀ x ∈ a.vals, ∃ z, op x = .ok z := by
  intro x hx
  cases h : op x with
  | ok z => exact ⟨z, rfl⟩
  | error e =>
    obtain ⟨e', he⟩ := mapM_error hx h
    unfold mapVals at hr
    rw [he] at hr; cases hr

theorem mapVals_ok {st : Settings} {a : RV α} {op : α → Except Err γ} {F : α → γ}
    (h : ∀ x ∈ a.vals, op x = .ok (F x)) :
    mapVals st a op = mk' st (a.vals.map F) (a.probs.map fun p : ℕ => (p : ℤ)) := by
  unfold mapVals
  rw [mapM_eq_map h]; rfl

theorem mapVals_Ex {st : Settings} {a : RV α} {op : α → Except Err γ} {F : α → γ}
    (h : ∀ x ∈ a.vals, op x = .ok (F x)) {r : RV γ} (hr : mapVals st a op = .ok r)
    (ha : mass a.pairs ≠ 0) (f : γ → ℚ) :
    Ex r.pairs f = Ex a.pairs fun x => f (truncFn st (F x)) := by
  rw [mapVals_ok h] at hr
  have hl : a.vals.length = a.probs.length := by simpa using (mk'_ok hr).1
  have hz : a.pairs.map (fun x => (F x.1, x.2)) = (a.vals.map F).zip a.probs := by
    rw [pairs, ← List.map_id a.probs, List.zip_map, List.map_id]
    rfl
  have h1 : a.vals.map F = (a.pairs.map fun x => (F x.1, x.2)).map (·.1) := by
    rw [hz, List.map_fst_zip (by simp; omega)]
  have h2 : a.probs.map (fun p : ℕ => (p : ℤ)) = (a.pairs.map fun x => (F x.1, x.2)).map fun x => (x.2 : ℤ) := by
    rw [List.map_map, pairs]
    conv_lhs => rw [← List.map_snd_zip (l₁ := a.vals) (l₂ := a.probs) (by omega), List.map_map]
    rfl
  rw [h1, h2] at hr
  have hm : mass (a.pairs.map fun x => (F x.1, x.2)) ≠ 0 := by rw [mass, wsum_map]; exact ha
  rw [mk'_Ex_nat hr hm, Ex, Ex, mass, mass, wsum_map, wsum_map]

theorem mapVals_mass {st : Settings} {a : RV α} {op : α → Except Err γ} {F : α → γ}
    (h : ∀ x ∈ a.vals, op x = .ok (F x)) {r : RV γ} (hr : mapVals st a op = .ok r)
    (ha : mass a.pairs ≠ 0) : mass r.pairs ≠ 0 := by
  apply mass_ne_of_Ex
  rw [mapVals_Ex h hr ha, Ex_const ha]

end

theorem mem_vals_of_pairs {a : RV α} {x : α × ℕ} (h : x ∈ a.pairs) : x.1 ∈ a.vals :=
  (List.of_mem_zip h).1

end RV
end PythonDice
