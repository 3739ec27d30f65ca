import Verif.Spec.Accuracy
import Verif.Proofs.Float
import Verif.Proofs.Roll
import Verif.Props.Expr
import Verif.Props.Derived
import Mathlib.Algebra.Order.BigOperators.Group.Finset
import Mathlib.Data.Int.Interval

/-! How far rounded probabilities are from the exact ones. -/

namespace PythonDice
open Spec

/-! ## Events and functions -/

theorem wsum_by_value (l : List (ℤ × ℕ)) (S : Finset ℤ) (hS : ∀ x ∈ l, x.1 ∈ S) (f : ℤ → ℚ) :
    wsum l f = ∑ v ∈ S, wsum l (fun x => if x = v then 1 else 0) * f v := by
  induction l with
  | nil => simp
  | cons x l ih =>
    simp only [wsum_cons, add_mul, Finset.sum_add_distrib]
    rw [← ih fun y hy => hS y (List.mem_cons_of_mem _ hy)]
    congr 1
    rw [Finset.sum_eq_single x.1]
    · simp
    · intro v _ hv
      rw [if_neg (Ne.symm hv)]; simp
    · intro h; exact absurd (hS x List.mem_cons_self) h

theorem Ex_by_value (l : List (ℤ × ℕ)) (S : Finset ℤ) (hS : ∀ x ∈ l, x.1 ∈ S) (f : ℤ → ℚ) :
    Ex l f = ∑ v ∈ S, Ex l (fun x => if x = v then 1 else 0) * f v := by
  unfold Ex
  rw [wsum_by_value l S hS f, div_eq_mul_inv, Finset.sum_mul]
  exact Finset.sum_congr rfl fun v _ => by ring

/-- If no event is much more likely under one law, no function is much larger in the mean. -/
theorem close_of_events {l m : List (ℤ × ℕ)} {ε : ℚ} (h : ∀ (A : ℤ → Prop) [DecidablePred A], |Pr l A - Pr m A| ≤ ε) {f : ℤ → ℚ}
    (hf : UnitValued f) : |Ex l f - Ex m f| ≤ ε := by
  set S : Finset ℤ := (l.map (·.1)).toFinset ∪ (m.map (·.1)).toFinset with hS
  have hl : ∀ x ∈ l, x.1 ∈ S := fun x hx => by
    rw [hS, Finset.mem_union, List.mem_toFinset]; exact .inl (List.mem_map_of_mem (f := (·.1)) hx)
  have hm : ∀ x ∈ m, x.1 ∈ S := fun x hx => by
    rw [hS, Finset.mem_union, List.mem_toFinset, List.mem_toFinset]; exact .inr (List.mem_map_of_mem (f := (·.1)) hx)
  have key : ∀ l m : List (ℤ × ℕ), (∀ x ∈ l, x.1 ∈ S) → (∀ x ∈ m, x.1 ∈ S) →
      (∀ (A : ℤ → Prop) [DecidablePred A], |Pr l A - Pr m A| ≤ ε) → Ex l f - Ex m f ≤ ε := by
    intro l m hl hm h
    let D : ℤ → ℚ := fun v => Ex l (fun x => if x = v then 1 else 0) - Ex m (fun x => if x = v then 1 else 0)
    have h1 : ∀ g : ℤ → ℚ, Ex l g - Ex m g = ∑ v ∈ S, D v * g v := by
      intro g
      rw [Ex_by_value l S hl g, Ex_by_value m S hm g, ← Finset.sum_sub_distrib]
      exact Finset.sum_congr rfl fun v _ => by simp only [D]; ring
    have h2 := (abs_le.1 (h fun v => 0 < D v)).2
    unfold Pr at h2
    rw [h1] at h2 ⊢
    refine le_trans (Finset.sum_le_sum fun v _ => ?_) h2
    by_cases hv : 0 < D v
    · simp only [hv, if_true]
      exact mul_le_mul_of_nonneg_left (hf v).2 hv.le
    · simp only [hv, if_false, mul_zero]
      exact mul_nonpos_of_nonpos_of_nonneg (not_lt.1 hv) (hf v).1
  rw [abs_le]
  constructor
  · have := key m l hm hl fun A _ => by rw [abs_sub_comm]; exact h A
    linarith
  · exact key l m hl hm fun A _ => h A

theorem Ex_unit {α : Type} {l : List (α × ℕ)} (hl : mass l ≠ 0) {f : α → ℚ} (hf : ∀ v, 0 ≤ f v ∧ f v ≤ 1) : 0 ≤ Ex l f ∧ Ex l f ≤ 1 := by
  constructor
  · rw [← Ex_const hl 0]; exact Ex_mono fun x _ => (hf x.1).1
  · rw [← Ex_const hl 1]; exact Ex_mono fun x _ => (hf x.1).2

theorem ExN_unit {α : Type} {l : List (α × ℕ)} (hl : mass l ≠ 0) (n : ℕ) {f : List α → ℚ} (hf : ∀ v, 0 ≤ f v ∧ f v ≤ 1) :
    0 ≤ ExN n l f ∧ ExN n l f ≤ 1 := by
  induction n generalizing f with
  | zero => exact hf _
  | succ n ih => exact Ex_unit hl fun x => ih fun xs => hf _

theorem Ex_abs_le {α : Type} {l : List (α × ℕ)} (hl : mass l ≠ 0) {f g : α → ℚ} {ε : ℚ} (h : ∀ x ∈ l, |f x.1 - g x.1| ≤ ε) :
    |Ex l f - Ex l g| ≤ ε := by
  rw [← Ex_sub, abs_le]
  constructor
  · rw [← Ex_const hl (-ε)]; exact Ex_mono fun x hx => (abs_le.1 (h x hx)).1
  · rw [← Ex_const hl ε]; exact Ex_mono fun x hx => (abs_le.1 (h x hx)).2

/-! ## The limiter -/

/-- The constant of the limiter is not much smaller than 10^-20 of the total weight. -/
theorem normConst_low {s N : ℕ} (h : RV.sumLimit < s) (hN : RV.normConst s = .ok N) : (s : ℚ) ≤ 10 ^ 22 * N := by
  unfold RV.normConst at hN
  split at hN
  · cases hN
  simp only at hN
  cases hN
  set vx : ℚ := fl s with hvx
  have hL : (0 : ℚ) < RV.sumLimit := by norm_num [RV.sumLimit]
  have hL31 : (RV.sumLimit : ℚ) ≤ 10 ^ 31 := by norm_num [RV.sumLimit]
  generalize hLdef : (RV.sumLimit : ℚ) = L at *
  have h1 : L ≤ vx := hLdef ▸ sumLimit_le_fl h.le
  have h2 : s * (1 - 1 / 2 ^ 53) ≤ vx := le_fl (by positivity)
  have hm : vx - (vx - L * ⌊vx / L⌋) = L * ⌊vx / L⌋ := by ring
  rw [hm]
  have hk1 : (1 : ℚ) ≤ (⌊vx / L⌋ : ℤ) := by
    have : 1 ≤ ⌊vx / L⌋ := Int.le_floor.2 (by rw [le_div_iff₀ hL]; push_cast; linarith)
    exact_mod_cast this
  have hk2 : vx / L < (⌊vx / L⌋ : ℤ) + 1 := Int.lt_floor_add_one _
  set k : ℤ := ⌊vx / L⌋ with hk
  have hLk : 0 ≤ L * k := mul_nonneg hL.le (le_trans zero_le_one hk1)
  have ha2 := le_fl hLk
  set a := fl (L * k) with ha
  have haL2 : k * (1 - 1 / 2 ^ 53) ≤ a / L := by rw [le_div_iff₀ hL]; linarith
  have haL0 : 0 ≤ a / L := le_trans (by apply mul_nonneg; linarith; norm_num) haL2
  have hd2 := le_fl haL0
  set d := fl (a / L) with hd
  have hd2' : k * (99 / 100) ≤ d := by
    refine le_trans ?_ hd2
    have : k * (1 - 1 / 2 ^ 53) * (1 - 1 / 2 ^ 53) ≤ a / L * (1 - 1 / 2 ^ 53) :=
      mul_le_mul_of_nonneg_right haL2 (by norm_num)
    refine le_trans ?_ this
    rw [mul_assoc]
    apply mul_le_mul_of_nonneg_left _ (by linarith)
    norm_num
  have hf2 := Int.lt_floor_add_one d
  set fd : ℤ := if 1 / 2 < d - ⌊d⌋ then ⌊d⌋ + 1 else ⌊d⌋ with hfd
  have hfd2 : d - 1 / 2 ≤ fd := by
    rw [hfd]; split
    · push_cast; linarith
    · linarith
  have hfd3 : (k : ℚ) / 3 ≤ fd := by linarith
  have hx0 : (0 : ℚ) ≤ 100000000000 * fd := by linarith
  have hn2 := le_fl hx0
  have hfl0 : 0 ≤ ⌊fl (100000000000 * (fd : ℚ))⌋ := Int.floor_nonneg.2 (le_trans (by apply mul_nonneg hx0; norm_num) hn2)
  have hcast : ((⌊fl (100000000000 * (fd : ℚ))⌋.toNat : ℕ) : ℚ) = (⌊fl (100000000000 * (fd : ℚ))⌋ : ℤ) := by
    have := Int.toNat_of_nonneg hfl0
    exact_mod_cast this
  rw [hcast]
  have hfl1 := Int.lt_floor_add_one (fl (100000000000 * (fd : ℚ)))
  have h5 : 100000000000 * (fd : ℚ) * (99 / 100) ≤ fl (100000000000 * (fd : ℚ)) := by
    refine le_trans (mul_le_mul_of_nonneg_left ?_ hx0) hn2
    norm_num
  have h6 : (k : ℚ) * 20000000000 ≤ (⌊fl (100000000000 * (fd : ℚ))⌋ : ℤ) := by linarith
  have h7 : vx / L ≤ 2 * k := by linarith
  rw [div_le_iff₀ hL] at h7
  have h8 : (s : ℚ) * (1 / 2) ≤ vx := by
    refine le_trans ?_ h2
    apply mul_le_mul_of_nonneg_left _ (by positivity)
    norm_num
  have h9 : 2 * (k : ℚ) * L ≤ 2 * k * 10 ^ 31 := mul_le_mul_of_nonneg_left hL31 (by linarith)
  linarith

/-- What the limiter does to a die. -/
theorem limit_close {X X' : RV ℤ} {b : Bool} (hX : X.Proper) (h : RV.probLimit X = .ok (X', b)) (hn : X.vals.length ≤ 9 * 10 ^ 9) :
    X'.Proper ∧ X'.vals = X.vals ∧ ∀ f, UnitValued f → |Ex X'.pairs f - Ex X.pairs f| ≤ X.vals.length * (11 / 10 / 10 ^ 20) := by
  cases b with
  | false =>
    have := RV.probLimit_false h
    subst this
    refine ⟨hX, rfl, fun f _ => ?_⟩
    rw [sub_self, abs_zero]; positivity
  | true =>
    obtain ⟨hv, N, _, hN0, hN, hp, hb⟩ := reduction_bound X X' hX.len h
    obtain ⟨hm, he⟩ := hb hn
    have hs : (0 : ℚ) < (X.probs.sum : ℕ) := by have := hX.sum_pos; exact_mod_cast this
    refine ⟨⟨by rw [hv, hp, List.length_map]; exact hX.len, by rw [hv]; exact hX.sorted, by rw [hv]; exact hX.nonempty, hm⟩, hv, fun f hf => ?_⟩
    refine close_of_events (fun A _ => (he A).trans ?_) hf
    rw [div_le_iff₀ hs, mul_assoc]
    exact mul_le_mul_of_nonneg_left hN (by positivity)

/-- The limiter makes totals small. -/
theorem limit_sum {X X' : RV ℤ} {b : Bool} (hX : X.Proper) (h : RV.probLimit X = .ok (X', b)) : X'.probs.sum ≤ RV.sumLimit := by
  by_cases hs : X.probs.sum ≤ RV.sumLimit
  · rw [RV.probLimit_le hs] at h
    cases h; exact hs
  · push Not at hs
    cases b with
    | false =>
      unfold RV.probLimit RV.sumProbs at h
      rw [if_neg (by omega)] at h
      cases hN : RV.normConst X.probs.sum with
      | error e => rw [hN] at h; cases h
      | ok N =>
        rw [hN] at h
        simp only [bind, Except.bind] at h
        split at h <;> cases h
    | true =>
      obtain ⟨hv, N, hN1, hN0, hN, hp, hb⟩ := reduction_bound X X' hX.len h
      have hlow := normConst_low hs hN1
      have h1 : N * X'.probs.sum ≤ X.probs.sum := by
        rw [hp]
        clear * -
        generalize X.probs = l
        induction l with
        | nil => simp
        | cons p l ih =>
          simp only [List.map_cons, List.sum_cons, mul_add]
          have := Nat.mul_div_le p N
          omega
      have h2 : (N : ℚ) * X'.probs.sum ≤ N * 10 ^ 22 := by
        have : ((N * X'.probs.sum : ℕ) : ℚ) ≤ X.probs.sum := by exact_mod_cast h1
        rw [Nat.cast_mul] at this
        linarith
      have hNq : (0 : ℚ) < N := by exact_mod_cast hN0
      have h3 := le_of_mul_le_mul_left h2 hNq
      have h4 : X'.probs.sum ≤ 10 ^ 22 := by exact_mod_cast h3
      exact h4.trans (by norm_num [RV.sumLimit])

theorem limit_total {X : RV ℤ} (h : X.probs.sum < RV.floatOverflow) : ∃ X' b, RV.probLimit X = .ok (X', b) := by
  by_cases hs : X.probs.sum ≤ RV.sumLimit
  · exact ⟨_, _, RV.probLimit_le hs⟩
  · push Not at hs
    obtain ⟨X', hX'⟩ := (C28_reduction_threshold X).2.1 hs h
    exact ⟨_, _, hX'⟩

/-! ## Operations -/

/-- An operation between dice: first everything exactly, then the limiter. -/
theorem binop_before (st : Settings) (op : BinOp) {a b : RV ℤ} (ha : a.Proper) (hb : b.Proper) (F : ℤ → ℤ → ℤ)
    (hF : ∀ x ∈ a.vals, ∀ y ∈ b.vals, op.eval x y = .ok (F x y)) :
    ∃ r, RV.binop st op a b = RV.probLimit r ∧ r.Proper ∧ r.probs.sum ≤ a.probs.sum * b.probs.sum ∧
      (∀ v ∈ r.vals, ∃ x ∈ a.vals, ∃ y ∈ b.vals, v = F x y) ∧
      ∀ f, Ex r.pairs f = Ex a.pairs fun x => Ex b.pairs fun y => f (F x y) := by
  have hF' : ∀ x ∈ a.pairs, ∀ y ∈ b.pairs, op.eval x.1 y.1 = .ok (F x.1 y.1) := fun x hx y hy =>
    hF _ (RV.mem_vals_of_pairs hx) _ (RV.mem_vals_of_pairs hy)
  obtain ⟨r, h0⟩ := RV.mk'_int_ok st (RV.toTuples (RV.rdictOf (RV.prodPairs a.pairs b.pairs F)))
  have hr : RV.binop st op a b = RV.probLimit r := by
    unfold RV.binop
    rw [RV.convolveRV_ok hF', h0]; rfl
  have law := RV.convolveRV0_Ex (F := F) h0 ha.pos hb.pos
  have hm := RV.convolveRV0_mass (F := F) h0 ha.pos hb.pos
  refine ⟨r, hr, ?_⟩
  have hmass : mass (RV.toTuples (RV.rdictOf (RV.prodPairs a.pairs b.pairs F))) = ((a.probs.sum * b.probs.sum : ℕ) : ℚ) := by
    rw [mass, RV.tuples_wsum, ← mass, RV.prodPairs_mass, RV.mass_eq_probs ha.len, RV.mass_eq_probs hb.len]
    push_cast; rfl
  have e : ∀ l : List (ℤ × ℕ), (l.map fun x => (x.2 : ℤ)).map Int.toNat = l.map (·.2) := by
    intro l; rw [List.map_map]; rfl
  refine ⟨(RV.mk'_canonical h0).proper hm, ?_, fun v hv => ?_, fun f => by simpa using law f⟩
  · refine (RV.mk'_sum_le h0).trans (max_le ?_ (le_of_eq ?_))
    · exact Nat.mul_le_mul ha.sum_pos hb.sum_pos
    · rw [mass_eq_sum] at hmass
      rw [e]
      exact_mod_cast hmass
  · have := mk'_support h0 ?_ hv
    · rw [RV.tuples_mem] at this
      obtain ⟨z, hz, rfl⟩ := List.mem_map.1 this
      unfold RV.prodPairs at hz
      simp only [List.mem_flatMap, List.mem_map] at hz
      obtain ⟨x, hx, y, hy, rfl⟩ := hz
      exact ⟨x.1, RV.mem_vals_of_pairs hx, y.1, RV.mem_vals_of_pairs hy, rfl⟩
    · rw [e, List.zip_map']
      have : (fun a : ℤ × ℕ => (a.1, a.2)) = id := rfl
      rw [this, List.map_id, hmass]
      have := Nat.mul_le_mul ha.sum_pos hb.sum_pos
      exact_mod_cast (by omega : a.probs.sum * b.probs.sum ≠ 0)

/-- An operation between dice that are nearly right gives a die that is nearly right. -/
theorem binop_close {st : Settings} {op : BinOp} {a b r : RV ℤ} {z : Bool} (ha : a.Proper) (hb : b.Proper) (F : ℤ → ℤ → ℤ)
    (hF : ∀ x ∈ a.vals, ∀ y ∈ b.vals, op.eval x y = .ok (F x y)) {A B : (ℤ → ℚ) → ℚ} {ε δ : ℚ} (hA : CloseTo a.pairs A ε)
    (hB : CloseTo b.pairs B δ) (uB : UnitLaw B) (h : RV.binop st op a b = .ok (r, z)) (L : ℕ) (hL : L ≤ 9 * 10 ^ 9)
    (hc : ∀ S : List ℤ, S.Nodup → (∀ v ∈ S, ∃ x ∈ a.vals, ∃ y ∈ b.vals, v = F x y) → S.length ≤ L) :
    r.Proper ∧ r.probs.sum ≤ RV.sumLimit ∧ (∀ v ∈ r.vals, ∃ x ∈ a.vals, ∃ y ∈ b.vals, v = F x y) ∧
      CloseTo r.pairs (fun f => A fun x => B fun y => f (F x y)) (ε + δ + L * (11 / 10 / 10 ^ 20)) := by
  obtain ⟨r0, h0, hp0, _, hv0, hl0⟩ := binop_before st op ha hb F hF
  rw [h0] at h
  have hlen : r0.vals.length ≤ L := hc _ (hp0.sorted.imp ne_of_lt) hv0
  obtain ⟨h1, h2, h3⟩ := limit_close hp0 h (hlen.trans hL)
  refine ⟨h1, limit_sum hp0 h, by rw [h2]; exact hv0, h1.pos, fun f hf => ?_⟩
  have e1 := h3 f hf
  rw [hl0] at e1
  have e2 : |Ex a.pairs (fun x => Ex b.pairs fun y => f (F x y)) - Ex a.pairs fun x => B fun y => f (F x y)| ≤ δ :=
    Ex_abs_le ha.pos fun x _ => hB.2 _ fun y => hf _
  have e3 := hA.2 (fun x => B fun y => f (F x y)) fun x => uB _ fun y => hf _
  have e4 : (r0.vals.length : ℚ) * (11 / 10 / 10 ^ 20) ≤ L * (11 / 10 / 10 ^ 20) := by
    apply mul_le_mul_of_nonneg_right _ (by norm_num)
    exact_mod_cast hlen
  rw [abs_le] at *
  constructor <;> linarith [e1.1, e1.2, e2.1, e2.2, e3.1, e3.2]

theorem binop_total (st : Settings) (op : BinOp) {a b : RV ℤ} (ha : a.Proper) (hb : b.Proper) (F : ℤ → ℤ → ℤ)
    (hF : ∀ x ∈ a.vals, ∀ y ∈ b.vals, op.eval x y = .ok (F x y)) (sa : a.probs.sum ≤ RV.sumLimit) (sb : b.probs.sum ≤ RV.sumLimit) :
    ∃ r z, RV.binop st op a b = .ok (r, z) := by
  obtain ⟨r0, h0, hp0, hs0, _⟩ := binop_before st op ha hb F hF
  rw [h0]
  refine limit_total (lt_of_le_of_lt (hs0.trans (Nat.mul_le_mul sa sb)) ?_)
  decide +kernel

/-! ## Rolls -/

/-- The share of one reduction of a die with at most `L` outcomes. -/
def share (L : ℕ) : ℚ := L * (11 / 10 / 10 ^ 20)

theorem share_nonneg (L : ℕ) : 0 ≤ share L := by unfold share; positivity

/-- Nearly the sum of `n` dice with outcomes between `lo` and `hi`. -/
structure SumNear (n : ℕ) (D r : RV ℤ) (lo hi : ℤ) (L : ℕ) : Prop where
  proper : r.Proper
  sum_le : D.probs.sum ≤ RV.sumLimit → r.probs.sum ≤ RV.sumLimit
  range : ∀ v ∈ r.vals, n * lo ≤ v ∧ v ≤ n * hi
  close : ∀ f, UnitValued f → |Ex r.pairs f - ExN n D.pairs fun xs => f xs.sum| ≤ (n - 1 : ℕ) * share L

theorem length_le_range {S : List ℤ} (hn : S.Nodup) {a b : ℤ} (h : ∀ v ∈ S, a ≤ v ∧ v ≤ b) {L : ℕ} (hL : b - a + 1 ≤ L) : S.length ≤ L := by
  have h1 : S.toFinset ⊆ Finset.Icc a b := fun v hv => by
    rw [Finset.mem_Icc]; exact h v (List.mem_toFinset.1 hv)
  have h2 := Finset.card_le_card h1
  rw [List.toFinset_card_of_nodup hn, Int.card_Icc] at h2
  omega

theorem SumNear.add {m k : ℕ} (hm : 1 ≤ m) (hk : 1 ≤ k) {D a b r : RV ℤ} (hD : D.Proper) {lo hi : ℤ} {L : ℕ} (ha : SumNear m D a lo hi L)
    (hb : SumNear k D b lo hi L) {st : Settings} {z : Bool} (h : RV.binop st .add a b = .ok (r, z)) (hL : (m + k : ℕ) * (hi - lo) + 1 ≤ L)
    (h9 : L ≤ 9 * 10 ^ 9) : SumNear (m + k) D r lo hi L := by
  have hrange : ∀ v, (∃ x ∈ a.vals, ∃ y ∈ b.vals, v = x + y) → ((m + k : ℕ) : ℤ) * lo ≤ v ∧ v ≤ ((m + k : ℕ) : ℤ) * hi := by
    rintro v ⟨x, hx, y, hy, rfl⟩
    have h1 := ha.range x hx
    have h2 := hb.range y hy
    push_cast
    constructor <;> linarith [h1.1, h1.2, h2.1, h2.2]
  obtain ⟨h1, h2, h3, h4⟩ := binop_close (a := a) (b := b) (A := fun f => ExN m D.pairs fun xs => f xs.sum) (B := fun f => ExN k D.pairs fun xs => f xs.sum)
    (ε := (m - 1 : ℕ) * share L) (δ := (k - 1 : ℕ) * share L)
    ha.proper hb.proper (fun x y => x + y) (fun _ _ _ _ => rfl) ⟨ha.proper.pos, ha.close⟩ ⟨hb.proper.pos, hb.close⟩
    (fun f hf => ExN_unit hD.pos _ fun xs => hf _) h L h9 (fun S hS hv => length_le_range hS (fun v hv' => hrange v (hv v hv')) (by
      rw [← mul_sub]; exact hL))
  refine ⟨h1, fun _ => h2, fun v hv => hrange v (h3 v hv), fun f hf => ?_⟩
  have e := h4.2 f hf
  rw [ExN_add]
  simp only [List.sum_append]
  refine e.trans (le_of_eq ?_)
  have e1 : m + k - 1 = (m - 1) + (k - 1) + 1 := by omega
  rw [e1]
  push_cast
  unfold share
  ring

/-- A roll of `n` dice `D` that is nearly right. -/
def EntryClose (n : ℕ) (D r : RV ℤ) : Prop :=
  D.Proper → ∀ lo hi, (∀ v ∈ D.vals, lo ≤ v ∧ v ≤ hi) → ∀ L : ℕ, n * (hi - lo) + 1 ≤ L → L ≤ 9 * 10 ^ 9 → SumNear n D r lo hi L

/-- All rolls in the table are. -/
def MemoClose (w : World) : Prop := ∀ n vs ps r, w.memo.lookup (n, vs, ps) = some r → 2 ≤ n ∧ EntryClose n (keyDie vs ps) r

theorem EntryClose.congr {n : ℕ} {D D' r : RV ℤ} (hv : D.vals = D'.vals) (hp : D.probs = D'.probs) (h : EntryClose n D r) : EntryClose n D' r := by
  intro hD' lo hi hr L hL h9
  have hpairs : D.pairs = D'.pairs := by simp [RV.pairs, hv, hp]
  obtain ⟨h1, h2, h3, h4⟩ := h (hD'.congr hv.symm hp.symm) lo hi (by rw [hv]; exact hr) L hL h9
  exact ⟨h1, by rw [← hp]; exact h2, h3, by rw [← hpairs]; exact h4⟩

theorem lo_le_hi {D : RV ℤ} (hD : D.Proper) {lo hi : ℤ} (h : ∀ v ∈ D.vals, lo ≤ v ∧ v ≤ hi) : lo ≤ hi := by
  obtain ⟨v, hv⟩ := List.exists_mem_of_ne_nil _ hD.nonempty
  exact (h v hv).1.trans (h v hv).2

theorem fewer {m n : ℕ} (h : m ≤ n) {lo hi : ℤ} (hr : lo ≤ hi) {L : ℕ} (hL : n * (hi - lo) + 1 ≤ L) : m * (hi - lo) + 1 ≤ L := by
  have h1 : (m : ℤ) ≤ n := by exact_mod_cast h
  have := mul_le_mul_of_nonneg_right h1 (sub_nonneg.2 hr)
  linarith

theorem sumNear_one {d : RV ℤ} (hd : d.Proper) {lo hi : ℤ} (h : ∀ v ∈ d.vals, lo ≤ v ∧ v ≤ hi) (L : ℕ) : SumNear 1 d d lo hi L :=
  ⟨hd, id, by simpa using h, fun f _ => by simp [ExN_one]⟩

theorem sumNear_source {n : ℕ} {D r : RV ℤ} {lo hi : ℤ} {L : ℕ} (h : SumNear n D r lo hi L) (k : ℕ) (d : RV ℤ) : SumNear n D (r.setSource k d) lo hi L :=
  ⟨setSource_proper h.proper _ _, h.sum_le, h.range, h.close⟩

theorem addM_binop {a b : RV ℤ} {w w' : World} {res : Except Err (RV ℤ)} (h : addM a b w = (res, w')) :
    w'.memo = w.memo ∧ ((∃ r z, res = .ok r ∧ RV.binop w.settings .add a b = .ok (r, z)) ∨ ∃ e, res = .error e ∧ RV.binop w.settings .add a b = .error e) := by
  unfold addM M.ofLimited at h
  split at h
  · rename_i x z hb
    cases z <;> cases h
    · exact ⟨rfl, .inl ⟨_, _, rfl, hb⟩⟩
    · exact ⟨rfl, .inl ⟨_, _, rfl, hb⟩⟩
  · rename_i e he
    cases h
    exact ⟨rfl, .inr ⟨e, rfl, he⟩⟩

/-- What is claimed of `_roll_int_rv`. -/
structure RollClose (n : ℕ) (d : RV ℤ) (o : Except Err (RV ℤ) × World) : Prop where
  memo : MemoClose o.2
  close : ∀ r, o.1 = .ok r → EntryClose n d r
  total : d.Proper → d.probs.sum ≤ RV.sumLimit → (∃ lo hi, (∀ v ∈ d.vals, lo ≤ v ∧ v ≤ hi) ∧ n * (hi - lo) + 1 ≤ 9 * 10 ^ 9) → ∃ r, o.1 = .ok r

theorem rollNat_close (fuel n : ℕ) (d : RV ℤ) (hf : n < fuel) (w : World) (hw : MemoClose w) : RollClose n d (rollNat fuel n d w) := by
  induction fuel generalizing n w with
  | zero => omega
  | succ fuel ih =>
    unfold rollNat
    by_cases h0 : n = 0
    · subst h0
      rw [if_pos rfl]
      have e : M.ofSettings (fun st => RV.fromConst st 0) w = (.ok ⟨[(0 : ℤ)], [1], none⟩, w) := by
        unfold M.ofSettings; simp only [fromConst_eq]
      rw [e]
      refine ⟨hw, fun r hr hD lo hi _ L _ _ => ?_, fun _ _ _ => ⟨_, rfl⟩⟩
      cases hr
      exact ⟨proper_const _ _, fun _ => by simp [RV.sumLimit], by simp, fun f _ => by simp [RV.pairs, Ex_singleton, ExN]⟩
    rw [if_neg h0]
    by_cases h1 : n = 1
    · subst h1
      rw [if_pos rfl, M.pure_apply]
      refine ⟨hw, fun r hr hD lo hi hr' L _ _ => ?_, fun _ _ _ => ⟨_, rfl⟩⟩
      cases hr
      exact sumNear_one hD hr' L
    rw [if_neg h1]
    have hget : memoGet n d w = (.ok (w.memo.lookup (n, d.vals, d.probs)), w) := rfl
    rw [M.bind_ok hget]
    cases hl : w.memo.lookup (n, d.vals, d.probs) with
    | some r =>
      change RollClose n d (.ok r, w)
      refine ⟨hw, fun r' hr' => ?_, fun _ _ _ => ⟨_, rfl⟩⟩
      cases hr'
      exact EntryClose.congr (D := keyDie d.vals d.probs) rfl rfl (hw n d.vals d.probs r hl).2
    | none =>
      simp only
      obtain ⟨i1, i2, i3⟩ := ih (n / 2) (by omega) w hw
      have hhalf : (∃ lo hi, (∀ v ∈ d.vals, lo ≤ v ∧ v ≤ hi) ∧ (n : ℤ) * (hi - lo) + 1 ≤ 9 * 10 ^ 9) → d.Proper →
          ∃ lo hi, (∀ v ∈ d.vals, lo ≤ v ∧ v ≤ hi) ∧ ((n / 2 : ℕ) : ℤ) * (hi - lo) + 1 ≤ 9 * 10 ^ 9 := by
        rintro ⟨lo, hi, hr, hb⟩ hd
        exact ⟨lo, hi, hr, fewer (L := 9 * 10 ^ 9) (Nat.div_le_self n 2) (lo_le_hi hd hr) (by exact_mod_cast hb)⟩
      rw [M.bind_apply]
      cases hr1 : rollNat fuel (n / 2) d w with
      | mk res1 w1 =>
      rw [hr1] at i1 i2 i3
      simp only at i1 i2 i3
      cases res1 with
      | error e =>
        change RollClose n d (.error e, w1)
        refine ⟨i1, fun r hr => (by cases hr), fun hd hs hb => ?_⟩
        obtain ⟨r, hr⟩ := i3 hd hs (hhalf hb hd)
        cases hr
      | ok half =>
      simp only
      have hh := i2 half rfl
      rw [M.bind_apply]
      cases hr2 : addM half half w1 with
      | mk res2 w2 =>
      obtain ⟨m2, hc2⟩ := addM_binop hr2
      have hm2 : MemoClose w2 := by unfold MemoClose; rw [m2]; exact i1
      rcases hc2 with ⟨full, z, rfl, hb2⟩ | ⟨e, rfl, hb2⟩
      swap
      · change RollClose n d (.error e, w2)
        refine ⟨hm2, fun r hr => (by cases hr), fun hd hs hb => ?_⟩
        obtain ⟨lo, hi, hr, hb⟩ := hhalf hb hd
        have hn := hh hd lo hi hr (9 * 10 ^ 9) (by exact_mod_cast hb) le_rfl
        obtain ⟨r, z, hrz⟩ := binop_total w1.settings .add hn.proper hn.proper (fun x y => x + y) (fun _ _ _ _ => rfl) (hn.sum_le hs) (hn.sum_le hs)
        rw [hb2] at hrz; cases hrz
      simp only
      have hfull : EntryClose (n / 2 + n / 2) d full := by
        intro hd lo hi hr L hL h9
        have hn := hh hd lo hi hr L (fewer (by omega) (lo_le_hi hd hr) hL) h9
        exact SumNear.add (by omega) (by omega) hd hn hn hb2 hL h9
      have hlast : ∀ (res3 : Except Err (RV ℤ)) (w3 : World), addOdd n full d w2 = (res3, w3) → RollClose n d (res3, w3) := by
        intro res3 w3 h3
        unfold addOdd at h3
        by_cases hodd : n % 2 = 1
        · rw [if_pos hodd] at h3
          have en : n / 2 + n / 2 + 1 = n := by omega
          obtain ⟨m3, hc3⟩ := addM_binop h3
          have hm3 : MemoClose w3 := by unfold MemoClose; rw [m3]; exact hm2
          refine ⟨hm3, fun r hr hd lo hi hr' L hL h9 => ?_, fun hd hs hb => ?_⟩
          · rcases hc3 with ⟨r', z', h4, hb3⟩ | ⟨e, h4, _⟩
            · simp only at hr
              rw [h4] at hr; cases hr
              rw [← en] at hL ⊢
              exact SumNear.add (by omega) le_rfl hd (hfull hd lo hi hr' L (fewer (by omega) (lo_le_hi hd hr') hL) h9) (sumNear_one hd hr' L) hb3 hL h9
            · simp only at hr
              rw [h4] at hr; cases hr
          · rcases hc3 with ⟨r', z', h4, hb3⟩ | ⟨e, h4, hb3⟩
            · exact ⟨r', h4⟩
            · exfalso
              obtain ⟨lo, hi, hr, hb⟩ := hb
              have hb' : (n : ℤ) * (hi - lo) + 1 ≤ (9 * 10 ^ 9 : ℕ) := by exact_mod_cast hb
              have hn := hfull hd lo hi hr (9 * 10 ^ 9) (fewer (by omega) (lo_le_hi hd hr) hb') le_rfl
              obtain ⟨r, z, hrz⟩ := binop_total w2.settings .add hn.proper hd (fun x y => x + y) (fun _ _ _ _ => rfl) (hn.sum_le hs) hs
              rw [hb3] at hrz; cases hrz
        · rw [if_neg hodd, M.pure_apply] at h3
          cases h3
          have en : n / 2 + n / 2 = n := by omega
          rw [en] at hfull
          exact ⟨hm2, fun r hr => by cases hr; exact hfull, fun _ _ _ => ⟨_, rfl⟩⟩
      rw [M.bind_apply]
      cases hr3 : addOdd n full d w2 with
      | mk res3 w3 =>
      obtain ⟨c1, c2, c3⟩ := hlast res3 w3 hr3
      cases res3 with
      | error e => exact ⟨c1, fun r hr => (by cases hr), fun hd hs hb => c3 hd hs hb⟩
      | ok fin =>
        simp only
        have hset : memoSet n d (fin.setSource n d) w3 =
            (.ok (), { w3 with memo := ((n, d.vals, d.probs), fin.setSource n d) :: w3.memo }) := rfl
        rw [M.bind_ok hset, M.pure_apply]
        have hfin : EntryClose n d (fin.setSource n d) := fun hd lo hi hr L hL h9 => sumNear_source (c2 fin rfl hd lo hi hr L hL h9) _ _
        refine ⟨?_, fun r hr => by cases hr; exact hfin, fun _ _ _ => ⟨_, rfl⟩⟩
        intro n' vs ps r' hr'
        simp only [List.lookup] at hr'
        split at hr'
        · rename_i heq
          cases hr'
          simp only [beq_iff_eq, Prod.mk.injEq] at heq
          obtain ⟨rfl, rfl, rfl⟩ := heq
          exact ⟨by omega, EntryClose.congr (D := d) rfl rfl hfin⟩
        · exact c1 n' vs ps r' hr'

/-- The same of any number of dice, counted negatively if the number is negative. -/
structure IntNear (n : ℤ) (D r : RV ℤ) (L : ℕ) : Prop where
  proper : r.Proper
  sum_le : D.probs.sum ≤ RV.sumLimit → r.probs.sum ≤ RV.sumLimit
  close : CloseTo r.pairs (fun f => ExN n.natAbs D.pairs fun xs => f (n.sign * xs.sum)) ((n.natAbs - 1 : ℕ) * share L)

theorem rollInt_close (n : ℤ) (d : RV ℤ) (w : World) (hw : MemoClose w) :
    MemoClose (rollInt n d w).2 ∧
    (∀ r, (rollInt n d w).1 = .ok r → d.Proper → ∀ lo hi, (∀ v ∈ d.vals, lo ≤ v ∧ v ≤ hi) → ∀ L : ℕ, n.natAbs * (hi - lo) + 1 ≤ L → L ≤ 9 * 10 ^ 9 →
      IntNear n d r L) ∧
    (d.Proper → d.probs.sum ≤ RV.sumLimit → (∃ lo hi, (∀ v ∈ d.vals, lo ≤ v ∧ v ≤ hi) ∧ n.natAbs * (hi - lo) + 1 ≤ 9 * 10 ^ 9) →
      ∃ r, (rollInt n d w).1 = .ok r) := by
  have hs := rollNat_close (n.natAbs + 1) n.natAbs d (by omega) w hw
  unfold rollInt
  by_cases hn : n < 0
  · rw [if_pos hn, M.bind_apply]
    cases hr : rollNat (n.natAbs + 1) n.natAbs d w with
    | mk res w' =>
    rw [hr] at hs
    cases res with
    | error e => exact ⟨hs.memo, fun r hr => (by cases hr), fun hd h1 h2 => (by obtain ⟨r, hr⟩ := hs.total hd h1 h2; cases hr)⟩
    | ok r =>
      refine ⟨hs.memo, fun r' hr' hd lo hi hb L hL h9 => ?_, fun hd h1 ⟨lo, hi, hb, h2⟩ => ?_⟩
      · have ho := hs.close r rfl hd lo hi hb L hL h9
        obtain ⟨r'', h1, h2, _, _, h5, _, h6⟩ := neg_ok w'.settings ho.proper
        change RV.neg w'.settings r = .ok r' at hr'
        rw [h1] at hr'; cases hr'
        refine ⟨h2, fun hD => h5.trans (ho.sum_le hD), h2.pos, fun f hf => ?_⟩
        have := ho.close (fun x => f (-x)) fun v => hf _
        rw [h6]
        simpa [Int.sign_eq_neg_one_of_neg hn] using this
      · have ho := hs.close r rfl hd lo hi hb (9 * 10 ^ 9) (by exact_mod_cast h2) le_rfl
        obtain ⟨r'', h1, _⟩ := neg_ok w'.settings ho.proper
        exact ⟨r'', h1⟩
  · rw [if_neg hn]
    refine ⟨hs.memo, fun r hr hd lo hi hb L hL h9 => ?_, hs.total⟩
    have ho := hs.close r hr hd lo hi hb L hL h9
    refine ⟨ho.proper, ho.sum_le, ho.proper.pos, fun f hf => ?_⟩
    have := ho.close f hf
    rcases lt_or_eq_of_le (not_lt.1 hn) with h | h
    · simpa [Int.sign_eq_one_of_pos h] using this
    · subst h
      simpa [ExN] using this

theorem memoClose_of {w w' : World} (h : MemoClose w) (hm : w'.memo = w.memo) : MemoClose w' := by unfold MemoClose; rw [hm]; exact h

theorem Reachable.memoClose {w : World} (h : Reachable w) : MemoClose w := by
  induction h with
  | init => intro n vs ps r h; simp at h
  | settings s _ ih => exact memoClose_of ih rfl
  | roll n d _ ih => exact (rollInt_close n d _ ih).1
  | warn _ ih => exact memoClose_of ih rfl
  | effects k t o d _ ih => exact memoClose_of ih rfl

end PythonDice
