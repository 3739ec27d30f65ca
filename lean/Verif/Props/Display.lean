import Verif.Props.Stats

/-!
# C27, C44: listed probabilities, random rolls
-/

namespace PythonDice
open Spec

/-! ## C27 -/

/-- Sum of a list of rationals indexed by integers, for stating that probabilities add up. -/
def total (vs : List ℤ) (f : ℤ → ℚ) : ℚ := (vs.map f).sum

theorem zip_mem_weight {r : RV ℤ} (hr : r.Proper) {v : ℤ} {p : ℕ} (h : (v, p) ∈ r.pairs) :
    Pr r.pairs (· = v) = (p : ℚ) / r.sumProbs := by
  have hnd : (r.pairs.map (·.1)).Nodup := by
    rw [RV.pairs_map_fst r hr.len]
    exact hr.sorted.imp ne_of_lt
  rw [sumProbs_eq r hr.len, Pr, Ex, ← RV.weightOf_eq_wsum]
  have := RV.weightOf_of_mem hnd h
  rw [this]

theorem sumProbs_ne {r : RV ℤ} (hr : r.Proper) : r.sumProbs ≠ 0 := by
  intro h0
  have := sumProbs_eq r hr.len
  rw [h0] at this
  exact hr.pos this.symm

theorem mapM_ok {α β : Type} (f : α → Except Err β) (g : α → β) (l : List α) (h : ∀ x ∈ l, f x = .ok (g x)) :
    l.mapM f = .ok (l.map g) := by
  induction l with
  | nil => rfl
  | cons x l ih =>
    rw [List.mapM_cons, h x List.mem_cons_self, ih fun y hy => h y (List.mem_cons_of_mem _ hy)]
    rfl

/-- The exact probability of each outcome, rounded. -/
def shown (r : RV ℤ) : List (ℤ × ℚ) := r.vals.map fun v => (v, dbl (Pr r.pairs (· = v)))

theorem valsProbs_eq {r : RV ℤ} (hr : r.Proper) : r.valsProbs = .ok (shown r) := by
  unfold RV.valsProbs
  rw [mapM_ok _ (fun vp => (vp.1, dbl (Pr r.pairs (· = vp.1))))]
  · have := List.map_map (g := fun v => (v, dbl (Pr r.pairs (· = v)))) (f := Prod.fst) (l := r.pairs)
    rw [RV.pairs_map_fst r hr.len] at this
    exact congrArg _ this.symm
  · rintro ⟨v, p⟩ h
    rw [if_neg (sumProbs_ne hr), zip_mem_weight hr h]

theorem pr_le_one (l : List (ℤ × ℕ)) (p : ℤ → Prop) [DecidablePred p] : 0 ≤ Pr l p ∧ Pr l p ≤ 1 := by
  have hm : 0 ≤ mass l := wsum_nonneg fun _ _ => by norm_num
  have h0 : 0 ≤ wsum l (fun v => if p v then 1 else 0) := wsum_nonneg fun x _ => by split <;> norm_num
  have h1 : wsum l (fun v => if p v then 1 else 0) ≤ mass l := wsum_mono fun x _ => by split <;> norm_num
  refine ⟨div_nonneg h0 hm, ?_⟩
  rw [Pr, Ex]
  exact div_le_one_of_le₀ h1 hm

theorem unit_lt_overflow {q : ℚ} (h0 : 0 ≤ q) (h1 : q ≤ 1) : |q| < RV.floatOverflow := by
  rw [abs_of_nonneg h0]
  have h := one_lt_floatOverflow
  have : (1 : ℚ) ≤ 2 ^ 1000 := one_le_pow₀ (by norm_num)
  exact lt_of_le_of_lt h1 (lt_of_le_of_lt this h)

theorem pr_total (r : RV ℤ) (hr : r.Proper) : total r.vals (fun v => Pr r.pairs (· = v)) = 1 := by
  have key : total r.vals (fun v => Pr r.pairs (· = v)) = total r.vals (fun v => wsum r.pairs fun x => if x = v then 1 else 0) / mass r.pairs := by
    unfold total
    rw [div_eq_mul_inv, ← List.sum_map_mul_right]
    rfl
  rw [key]
  have hnd : r.vals.Nodup := hr.sorted.imp ne_of_lt
  have : total r.vals (fun v => wsum r.pairs fun x => if x = v then 1 else 0) = mass r.pairs := by
    have hsub : ∀ x ∈ r.pairs, x.1 ∈ r.vals := by
      rintro ⟨v, p⟩ h
      exact (List.of_mem_zip h).1
    unfold total mass
    generalize r.pairs = l at *
    clear key hr
    induction l with
    | nil => simp
    | cons x l ih =>
      simp only [wsum_cons]
      rw [List.sum_map_add, ih fun y hy => hsub y (List.mem_cons_of_mem _ hy)]
      congr 1
      rw [List.sum_map_mul_left]
      congr 1
      have hx := hsub x List.mem_cons_self
      clear ih hsub
      generalize r.vals = vs at hnd hx
      induction vs with
      | nil => simp at hx
      | cons u us ih =>
        rw [List.nodup_cons] at hnd
        rw [List.map_cons, List.sum_cons]
        by_cases e : x.1 = u
        · rw [if_pos e]
          have : (us.map fun v => if x.1 = v then (1 : ℚ) else 0) = us.map fun _ => 0 :=
            List.map_congr_left fun v hv => if_neg fun h => hnd.1 (by rw [← e, h]; exact hv)
          rw [this]; simp
        · rw [if_neg e, ih hnd.2 (by rcases List.mem_cons.1 hx with h | h; exact absurd h e; exact h)]
          simp
  rw [this, div_self hr.pos]

/-- C27. `get_vals_probs()` lists every outcome once, in increasing order, each with the double nearest to its probability; the exact
probabilities add up to 1. -/
theorem C27_pdf (r : RV ℤ) (hr : r.Proper) :
    ∃ l, r.getValsProbs 0 = .ok l ∧ l.map (·.1) = r.vals ∧ (l.map (·.1)).Pairwise (· < ·) ∧
      (∀ v x, (v, x) ∈ l → NearestDouble (Pr r.pairs (· = v)) x) ∧ total (l.map (·.1)) (fun v => Pr r.pairs (· = v)) = 1 := by
  have hmap : (shown r).map (·.1) = r.vals := by
    unfold shown
    rw [List.map_map]
    exact List.map_id _
  refine ⟨shown r, ?_, hmap, by rw [hmap]; exact hr.sorted, ?_, by rw [hmap]; exact pr_total r hr⟩
  · unfold RV.getValsProbs
    rw [if_neg (by norm_num), valsProbs_eq hr]
    rfl
  · intro v x h
    unfold shown at h
    obtain ⟨v', hv', e⟩ := List.mem_map.1 h
    rw [Prod.mk.injEq] at e
    obtain ⟨rfl, rfl⟩ := e
    obtain ⟨h0, h1⟩ := pr_le_one r.pairs (· = v')
    exact dbl_nearest (unit_lt_overflow h0 h1)

/-- The listed outcomes whose running (rounded) total stays below `cut`. -/
def cutPre (cut : ℚ) : ℚ → List (ℤ × ℚ) → List (ℤ × ℚ)
  | _, [] => []
  | S, y :: ys => if dbl (S + y.2) < cut then y :: cutPre cut (dbl (S + y.2)) ys else []

theorem dbl_grow {S y : ℚ} (hS : dbl S = S) (hy : 0 ≤ y) : S ≤ dbl (S + y) := by
  have := dbl_mono (p := S) (q := S + y) (by linarith)
  rwa [hS] at this

theorem dbl_dbl (q : ℚ) : dbl (dbl q) = dbl q := dbl_of_wide (dbl_wide q)

theorem accum_above (cut : ℚ) (x : ℤ × ℚ) (s : List (ℤ × ℚ)) (hs : ∀ y ∈ s, 0 ≤ y.2) (hx : dbl x.2 = x.2) (hc : cut ≤ x.2) :
    (RV.accumProbs x s).filter (fun z => decide (z.2 < cut)) = [] := by
  induction s generalizing x with
  | nil => simp [RV.accumProbs, hc]
  | cons y ys ih =>
    rw [RV.accumProbs, List.filter_cons_of_neg (by simpa using hc)]
    exact ih _ (fun z hz => hs z (List.mem_cons_of_mem _ hz)) (dbl_dbl _)
      (le_trans hc (dbl_grow hx (hs y List.mem_cons_self)))

theorem accum_filter (cut : ℚ) (x : ℤ × ℚ) (s : List (ℤ × ℚ)) (hs : ∀ y ∈ s, 0 ≤ y.2) (hx : dbl x.2 = x.2) (hc : x.2 < cut) :
    ((RV.accumProbs x s).filter (fun z => decide (z.2 < cut))).map (·.1) = x.1 :: (cutPre cut x.2 s).map (·.1) := by
  induction s generalizing x with
  | nil => simp [RV.accumProbs, cutPre, hc]
  | cons y ys ih =>
    rw [RV.accumProbs, List.filter_cons_of_pos (by simpa using hc), List.map_cons, cutPre]
    have hs' : ∀ z ∈ ys, 0 ≤ z.2 := fun z hz => hs z (List.mem_cons_of_mem _ hz)
    split
    · rw [ih (y.1, dbl (x.2 + y.2)) hs' (dbl_dbl _) ‹_›, List.map_cons]
    · rw [accum_above cut (y.1, dbl (x.2 + y.2)) ys hs' (dbl_dbl _) (le_of_not_gt ‹_›)]

theorem cutPre_prefix (cut S : ℚ) (s : List (ℤ × ℚ)) : cutPre cut S s <+: s := by
  induction s generalizing S with
  | nil => exact List.prefix_rfl
  | cons y ys ih =>
    rw [cutPre]
    split
    · exact List.cons_prefix_cons.2 ⟨rfl, ih _⟩
    · exact List.nil_prefix

theorem sum_step {S p P u t : ℚ} {b : ℚ} (hS0 : 0 ≤ S) (hS1 : S ≤ 1) (hp0 : 0 ≤ p) (hp1 : p ≤ 1) (hu : 0 ≤ u) (hu1 : u ≤ 1 / 4) (_ht : 0 ≤ t)
    (htu : t ≤ u / 4) (hP : |P - p| ≤ u * |p| + t) (hb : |b - (S + P)| ≤ u * |S + P| + t) : S + p ≤ b + 4 * u := by
  rw [abs_of_nonneg hp0] at hP
  have h1 := abs_le.1 hP
  have h2 := (abs_le.1 hb).1
  have h3 : u * p ≤ u := by nlinarith
  have h4 : |S + P| ≤ 2 + 2 * u := by
    rw [abs_le]; constructor <;> linarith
  have h5 : u * |S + P| ≤ u * (2 + 2 * u) := by gcongr
  nlinarith

theorem cutPre_sum (cut : ℚ) (hcut : cut < 1) (f : ℤ → ℚ) (S : ℚ) (s : List (ℤ × ℚ)) (hf : ∀ y ∈ s, y.2 = dbl (f y.1) ∧ 0 ≤ f y.1 ∧ f y.1 ≤ 1)
    (hS : dbl S = S) (hS0 : 0 ≤ S) (hS1 : S < cut) :
    S + total ((cutPre cut S s).map (·.1)) f < cut + (cutPre cut S s).length / 2 ^ 51 := by
  induction s generalizing S with
  | nil => simp [cutPre, total, hS1]
  | cons y ys ih =>
    rw [cutPre]
    split
    · obtain ⟨h1, h2, h3⟩ := hf y List.mem_cons_self
      have hy0 : 0 ≤ y.2 := by rw [h1]; exact dbl_nonneg h2
      have := ih (dbl (S + y.2)) (fun z hz => hf z (List.mem_cons_of_mem _ hz)) (dbl_dbl _)
        (le_trans hS0 (dbl_grow hS hy0)) ‹_›
      have hstep := sum_step (u := 1 / 2 ^ 53) (t := 1 / 2 ^ 1075) hS0 (by linarith) h2 h3 (by positivity) (by norm_num) (by positivity)
        tiny (P := dbl (f y.1)) (b := dbl (S + dbl (f y.1))) (dbl_err' _) (dbl_err' _)
      rw [← h1] at hstep
      have e : total ((y :: cutPre cut (dbl (S + y.2)) ys).map (·.1)) f = f y.1 + total ((cutPre cut (dbl (S + y.2)) ys).map (·.1)) f := by
        simp [total]
      rw [e, List.length_cons]
      push_cast
      have e2 : (4 : ℚ) * (1 / 2 ^ 53) = 1 / 2 ^ 51 := by norm_num
      rw [e2] at hstep
      rw [add_div]
      linarith
    · simp [total, hS1]

theorem pr_mem_le (l : List (ℤ × ℕ)) (vs : List ℤ) : Pr l (fun v => v ∈ vs) ≤ total vs fun v => Pr l (· = v) := by
  have hm : 0 ≤ mass l := wsum_nonneg fun _ _ => by norm_num
  induction vs with
  | nil => simp [Pr, Ex, total, wsum_const]
  | cons u us ih =>
    have e : total (u :: us) (fun v => Pr l (· = v)) = Pr l (· = u) + total us fun v => Pr l (· = v) := by simp [total]
    rw [e]
    refine le_trans ?_ (add_le_add_right ih _)
    unfold Pr Ex
    rw [← add_div, ← wsum_add]
    refine div_le_div_of_nonneg_right (wsum_mono fun x _ => ?_) hm
    by_cases h1 : x.1 = u <;> by_cases h2 : x.1 ∈ us <;> simp only [List.mem_cons, h1, h2, true_or, or_true, or_false, if_true, if_false] <;> (try split) <;> norm_num

theorem shown_mem {r : RV ℤ} {y : ℤ × ℚ} (h : y ∈ shown r) : y.1 ∈ r.vals ∧ y.2 = dbl (Pr r.pairs (· = y.1)) := by
  unfold shown at h
  obtain ⟨v, hv, rfl⟩ := List.mem_map.1 h
  exact ⟨hv, rfl⟩

/-- C27, cut. If 0 is not an outcome: the kept outcomes keep their order and probability; no removed outcome is more likely than a kept one
(as listed); the removed outcomes have total probability less than the cut plus the rounding error of adding them up.
Missing: dice that have 0 as an outcome, for which it fails (see the counterexample). -/
theorem C27_cut_partial (r : RV ℤ) (hr : r.Proper) (cut : ℚ) (hc0 : 0 < cut) (hc1 : cut < 1) (hz : (0 : ℤ) ∉ r.vals) :
    ∃ l, r.getValsProbs cut = .ok l ∧ (∃ full, r.getValsProbs 0 = .ok full ∧ l.Sublist full) ∧
      (∀ v x, v ∈ r.vals → v ∉ l.map (·.1) → x ∈ l → dbl (Pr r.pairs (· = v)) ≤ x.2) ∧
      Pr r.pairs (fun v => v ∉ l.map (·.1)) < cut + r.vals.length / 2 ^ 51 := by
  set s := (shown r).insertionSort fun a b => a.2 ≤ b.2 with hs
  have hperm : s.Perm (shown r) := List.perm_insertionSort _ _
  have hsf : ∀ y ∈ s, y.2 = dbl (Pr r.pairs (· = y.1)) ∧ 0 ≤ Pr r.pairs (· = y.1) ∧ Pr r.pairs (· = y.1) ≤ 1 := fun y hy =>
    ⟨(shown_mem (hperm.mem_iff.1 hy)).2, pr_le_one _ _⟩
  have hpos : ∀ y ∈ s, 0 ≤ y.2 := fun y hy => by rw [(hsf y hy).1]; exact dbl_nonneg (hsf y hy).2.1
  have hcut : RV.valsToCut (shown r) cut = 0 :: (cutPre cut 0 s).map (·.1) :=
    accum_filter cut (0, 0) s hpos dbl_zero hc0
  set l := (shown r).filter fun x => decide (x.1 ∉ RV.valsToCut (shown r) cut) with hl
  have hsorted : s.Pairwise fun a b => a.2 ≤ b.2 := by
    have : IsTrans (ℤ × ℚ) fun a b => a.2 ≤ b.2 := ⟨fun a b c => le_trans⟩
    have : Std.Total fun a b : ℤ × ℚ => a.2 ≤ b.2 := ⟨fun a b => le_total _ _⟩
    exact List.pairwise_insertionSort _ _
  have hmem : ∀ v ∈ r.vals, (v ∉ l.map (·.1) ↔ v ∈ (cutPre cut 0 s).map (·.1)) := by
    intro v hv
    have hsh : (v, dbl (Pr r.pairs (· = v))) ∈ shown r := List.mem_map.2 ⟨v, hv, rfl⟩
    have hv0 : v ≠ 0 := fun h => hz (h ▸ hv)
    constructor
    · intro h
      by_contra hc
      refine h (List.mem_map.2 ⟨(v, dbl (Pr r.pairs (· = v))), ?_, rfl⟩)
      rw [hl, List.mem_filter, hcut]
      exact ⟨hsh, by simpa [hv0] using hc⟩
    · intro h hc
      obtain ⟨y, hy, rfl⟩ := List.mem_map.1 hc
      rw [hl, List.mem_filter, hcut] at hy
      have := hy.2
      simp only [decide_eq_true_eq] at this
      exact this (List.mem_cons_of_mem _ h)
  obtain ⟨tl, htl⟩ := cutPre_prefix cut 0 s
  refine ⟨l, ?_, ⟨shown r, ?_, List.filter_sublist⟩, ?_, ?_⟩
  · unfold RV.getValsProbs
    rw [if_neg (by push Not; exact ⟨hc0.le, hc1⟩), valsProbs_eq hr]
    change (if 0 < cut then _ else _) = _
    rw [if_pos hc0]
    rfl
  · unfold RV.getValsProbs
    rw [if_neg (by norm_num), valsProbs_eq hr]
    rfl
  · intro v x hv hvl hx
    obtain ⟨y, hy, rfl⟩ := List.mem_map.1 ((hmem v hv).1 hvl)
    have hys : y ∈ s := (cutPre_prefix cut 0 s).subset hy
    rw [← (hsf y hys).1]
    have hxs : x ∈ shown r := (List.mem_filter.1 hx).1
    have hxs' : x ∈ s := hperm.mem_iff.2 hxs
    rw [← htl, List.mem_append] at hxs'
    rcases hxs' with h | h
    · exact absurd (List.mem_map.2 ⟨x, h, rfl⟩) (mt (hmem x.1 (shown_mem hxs).1).2 (not_not.2 (List.mem_map.2 ⟨x, hx, rfl⟩)))
    · rw [← htl, List.pairwise_append] at hsorted
      exact hsorted.2.2 y hy x h
  · have h1 : Pr r.pairs (fun v => v ∉ l.map (·.1)) = Pr r.pairs (fun v => v ∈ (cutPre cut 0 s).map (·.1)) := by
      unfold Pr Ex
      congr 1
      refine wsum_congr fun x hx _ => ?_
      have := hmem x.1 (List.of_mem_zip hx).1
      by_cases h : x.1 ∈ (cutPre cut 0 s).map (·.1)
      · rw [if_pos (this.2 h), if_pos h]
      · rw [if_neg (mt this.1 h), if_neg h]
    rw [h1]
    have h2 := cutPre_sum cut hc1 (fun v => Pr r.pairs (· = v)) 0 s hsf dbl_zero le_rfl hc0
    have h3 := pr_mem_le r.pairs ((cutPre cut 0 s).map (·.1))
    have h4 : (cutPre cut 0 s).length ≤ r.vals.length := by
      have := (cutPre_prefix cut 0 s).length_le
      rw [hperm.length_eq] at this
      simpa [shown] using this
    have h5 : ((cutPre cut 0 s).length : ℚ) / 2 ^ 51 ≤ (r.vals.length : ℚ) / 2 ^ 51 := by
      have : ((cutPre cut 0 s).length : ℚ) ≤ r.vals.length := by exact_mod_cast h4
      gcongr
    rw [zero_add] at h2
    linarith

/-- C27, cut, counterexample: the outcome 0 is always removed, here with probability 9/10 for a cut of 1/20. -/
theorem C27_cut_counterexample :
    ∃ r : RV ℤ, r.Canonical ∧ ∃ l, r.getValsProbs (1 / 20) = .ok l ∧ l.map (·.1) = [1] ∧ Pr r.pairs (· = 0) = 9 / 10 := by
  refine ⟨⟨[0, 1], [9, 1], none⟩, ?_, [(1, dbl (1 / 10))], ?_, ?_, ?_⟩
  · exact ⟨rfl, by decide, by decide, by intro _ d hd; have := hd 1 (by decide); exact Nat.dvd_one.1 this⟩
  · decide +kernel
  · rfl
  · decide +kernel

/-- A die without 0 that does lose outcomes: faces 1 (weight 1), 2 (weight 98), 3 (weight 1), cut 1/20. -/
example : (RV.getValsProbs ⟨[1, 2, 3], [1, 98, 1], none⟩ (1 / 20)).toOption.map (fun l => l.map (·.1)) = some [2] := by decide +kernel

/-! ## C44 -/

/-- Total weight listed for outcomes below `v`. -/
def weightBelow (l : List (ℤ × ℕ)) (v : ℤ) : ℕ := ((l.filter fun x => x.1 < v).map (·.2)).sum

theorem weightBelow_eq_wsum (l : List (ℤ × ℕ)) (v : ℤ) : (weightBelow l v : ℚ) = wsum l fun x => if x < v then 1 else 0 := by
  induction l with
  | nil => simp [weightBelow]
  | cons x l ih =>
    have : weightBelow (x :: l) v = (if x.1 < v then x.2 else 0) + weightBelow l v := by
      unfold weightBelow
      by_cases h : x.1 < v <;> simp [h]
    rw [this, wsum_cons, ← ih]
    by_cases h : x.1 < v <;> simp [h]

theorem weightBelow_add (l : List (ℤ × ℕ)) (v : ℤ) : weightBelow l v + weightOf l v = weightUpTo l v := by
  have : ((weightBelow l v + weightOf l v : ℕ) : ℚ) = weightUpTo l v := by
    push_cast
    rw [weightBelow_eq_wsum, RV.weightOf_eq_wsum, RV.weightUpTo_eq_wsum', ← wsum_add]
    refine wsum_congr fun x _ _ => ?_
    rcases lt_trichotomy x.1 v with h | h | h
    · simp [h, h.ne, h.le]
    · simp [h]
    · simp [h.ne', not_lt.2 h.le, not_le.2 h]
  exact_mod_cast this

theorem weightBelow_succ {r : RV ℤ} (hr : r.Proper) {i : ℕ} (hi : i + 1 < r.vals.length) :
    weightBelow r.pairs r.vals[i + 1] = weightUpTo r.pairs r.vals[i] := by
  have : (weightBelow r.pairs r.vals[i + 1] : ℚ) = weightUpTo r.pairs r.vals[i] := by
    rw [weightBelow_eq_wsum, RV.weightUpTo_eq_wsum']
    refine wsum_congr fun x hx _ => ?_
    have hx' : x.1 ∈ r.vals := (List.of_mem_zip hx).1
    obtain ⟨j, hj, e⟩ := List.mem_iff_getElem.1 hx'
    have hs := List.pairwise_iff_getElem.1 hr.sorted
    rw [← e]
    rcases Nat.lt_or_ge i j with h | h
    · have h1 := hs i j (by omega) hj h
      rw [if_neg, if_neg (not_le.2 h1)]
      rcases Nat.lt_or_ge (i + 1) j with h2 | h2
      · exact not_lt.2 (hs (i + 1) j hi hj h2).le
      · have : j = i + 1 := by omega
        subst this
        exact lt_irrefl _
    · rw [if_pos (hs j (i + 1) hj hi (by omega)), if_pos]
      rcases Nat.lt_or_ge j i with h2 | h2
      · exact (hs j i hj (by omega) h2).le
      · have : j = i := by omega
        subst this
        exact le_rfl
  exact_mod_cast this

/-- There is a double less than `D`, more than half a part in `2^53` away. -/
theorem exists_below {D : ℚ} (hD : IsDouble D) (h1 : 1 ≤ D) : ∃ y, IsWide y ∧ y < D ∧ D - D / 2 ^ 53 < (y + D) / 2 := by
  obtain ⟨m, e, hm, he1, he2, rfl⟩ := hD
  set D := (m : ℚ) * 2 ^ e with hDe
  have hD0 : D ≠ 0 := by linarith
  set E := Int.log 2 D with hE
  have hlo : (2 : ℚ) ^ E ≤ D := by
    have := Int.zpow_log_le_self (b := 2) (by norm_num) (show 0 < D by linarith)
    exact_mod_cast this
  have hhi : D < (2 : ℚ) ^ (E + 1) := by
    have := Int.lt_zpow_succ_log_self (b := 2) (by norm_num) D
    exact_mod_cast this
  have hE0 : 0 ≤ E := by
    by_contra hc
    push Not at hc
    have : (2 : ℚ) ^ (E + 1) ≤ 2 ^ (0 : ℤ) := zpow_le_zpow_right₀ (by norm_num) (by omega)
    rw [zpow_zero] at this
    linarith
  have hp53 : (2 : ℚ) ^ E = 2 ^ 53 * 2 ^ (E - 53) := by
    rw [show (2 : ℚ) ^ 53 = 2 ^ (53 : ℤ) by norm_cast, ← zpow_add₀ (by norm_num)]
    congr 1; ring
  have hp52 : (2 : ℚ) ^ (E - 52) = 2 * 2 ^ (E - 53) := by
    rw [show E - 52 = 1 + (E - 53) by ring, zpow_add₀ (by norm_num), zpow_one]
  have hpos := two_zpow_pos (E - 53)
  rcases eq_or_lt_of_le hlo with heq | hlt
  · refine ⟨(((2 : ℤ) ^ 53 - 1 : ℤ) : ℚ) * 2 ^ (E - 53), ⟨2 ^ 53 - 1, E - 53, by norm_num, by omega, rfl⟩, ?_, ?_⟩
    · rw [← heq, hp53, mul_lt_mul_iff_left₀ hpos]
      norm_num
    · rw [← heq, hp53]
      generalize (2 : ℚ) ^ (E - 53) = z at hpos
      norm_num
      linarith
  · -- `D` is a multiple of `2 ^ (E - 52)`
    have hk : E - 52 ≤ e := by
      by_contra hc
      push Not at hc
      have h3 : (|m| : ℚ) < 2 ^ 53 := by exact_mod_cast hm
      have h4 : D < 2 ^ 53 * 2 ^ e := by
        rw [hDe]
        exact mul_lt_mul_of_pos_right (lt_of_le_of_lt (le_abs_self _) h3) (two_zpow_pos e)
      have h5 : (2 : ℚ) ^ e ≤ 2 ^ (E - 53) := zpow_le_zpow_right₀ (by norm_num) (by omega)
      rw [hp53] at hlt
      have : (2 : ℚ) ^ 53 * 2 ^ e ≤ 2 ^ 53 * 2 ^ (E - 53) := by gcongr
      linarith
    obtain ⟨n, hn⟩ := Int.eq_ofNat_of_zero_le (sub_nonneg.2 hk)
    set k : ℤ := m * 2 ^ n with hkdef
    have hDk : D = (k : ℚ) * 2 ^ (E - 52) := by
      rw [hDe, hkdef]
      push_cast
      rw [mul_assoc, ← zpow_natCast, ← zpow_add₀ (by norm_num)]
      congr 2
      omega
    have hkpos : 0 < k := by
      have : 0 < (k : ℚ) * 2 ^ (E - 52) := by rw [← hDk]; linarith
      have := pos_of_mul_pos_left this (two_zpow_pos _).le
      exact_mod_cast this
    have hk53 : k < 2 ^ 53 := by
      have h6 : (k : ℚ) * 2 ^ (E - 52) < 2 ^ 53 * 2 ^ (E - 52) := by
        rw [← hDk]
        refine lt_of_lt_of_eq hhi ?_
        rw [show (2 : ℚ) ^ 53 = 2 ^ (53 : ℤ) by norm_cast, ← zpow_add₀ (by norm_num)]
        congr 1; ring
      have := lt_of_mul_lt_mul_right h6 (two_zpow_pos _).le
      exact_mod_cast this
    refine ⟨((k - 1 : ℤ) : ℚ) * 2 ^ (E - 52), ⟨k - 1, E - 52, by rw [abs_of_nonneg (by omega)]; omega, by omega, rfl⟩, ?_, ?_⟩
    · push_cast
      rw [sub_mul, ← hDk, hp52]; linarith
    · push_cast
      rw [sub_mul, ← hDk, hp52]
      have : 2 ^ (E - 53) < D / 2 ^ 53 := by
        rw [lt_div_iff₀ (by norm_num), mul_comm, ← hp53]; exact hlt
      linarith

/-- `random() * total` rounds to less than the total weight. -/
theorem product_lt {T u : ℚ} (hT : 1 ≤ T) (hTo : T < RV.floatOverflow) (hu : u ≤ 1 - 1 / 2 ^ 53) : dbl (u * dbl T) < T := by
  have hone : dbl 1 = 1 := dbl_of_wide ⟨1, 0, by norm_num, by norm_num, by norm_num⟩
  have hD1 : 1 ≤ dbl T := by
    have := dbl_mono hT
    rwa [hone] at this
  have hDT : IsDouble (dbl T) := dbl_isDouble (by rw [abs_of_nonneg (by linarith)]; exact hTo)
  obtain ⟨y, hy, hyD, hmid⟩ := exists_below hDT hD1
  have hx : u * dbl T ≤ dbl T - dbl T / 2 ^ 53 := by
    have : u * dbl T ≤ (1 - 1 / 2 ^ 53) * dbl T := mul_le_mul_of_nonneg_right hu (by linarith)
    linarith [this]
  by_contra hc
  push Not at hc
  set z := dbl (u * dbl T) with hz
  have hzD : z ≤ dbl T := by
    have := dbl_mono (p := u * dbl T) (q := dbl T) (by
      have : 0 ≤ dbl T / 2 ^ 53 := by positivity
      linarith)
    rwa [dbl_dbl] at this
  have h1 := dbl_nearest_wide T (dbl_wide (u * dbl T))
  rw [← hz, abs_of_nonpos (by linarith), abs_of_nonpos (by linarith)] at h1
  have hzeq : z = dbl T := by linarith
  have h2 := dbl_nearest_wide (u * dbl T) hy
  rw [← hz, hzeq] at h2
  have hneg : u * dbl T < dbl T := by
    have : 0 < dbl T / 2 ^ 53 := by positivity
    linarith
  rw [abs_of_neg (by linarith)] at h2
  rcases abs_cases (u * dbl T - y) with ⟨h3, _⟩ | ⟨h3, _⟩ <;> rw [h3] at h2 <;> linarith

theorem product_error {T u : ℚ} (hT : 1 ≤ T) (hu0 : 0 ≤ u) (hu : u ≤ 1) : |dbl (u * dbl T) - u * T| ≤ T / 2 ^ 51 := by
  have a := dbl_err' T
  have b := dbl_err' (u * dbl T)
  have t := tiny
  have tp : (0 : ℚ) ≤ 1 / 2 ^ 1075 := by positivity
  generalize (1 : ℚ) / 2 ^ 1075 = tt at *
  have e : T / 2 ^ 51 = 4 * (1 / 2 ^ 53) * T := by ring
  rw [e]
  have h53 : (1 : ℚ) / 2 ^ 53 ≤ 1 / 4 := by norm_num
  have h53p : (0 : ℚ) < 1 / 2 ^ 53 := by norm_num
  generalize (1 : ℚ) / 2 ^ 53 = c at *
  generalize dbl (u * dbl T) = x at *
  have hD0 : 0 ≤ dbl T := dbl_nonneg (by linarith)
  generalize dbl T = D at *
  rw [abs_of_nonneg (show 0 ≤ T by linarith)] at a
  rw [abs_of_nonneg (mul_nonneg hu0 hD0)] at b
  have a' := abs_le.1 a
  have b' := abs_le.1 b
  have h1 : u * D ≤ D := by nlinarith
  have h2 : c * (u * D) ≤ c * D := by gcongr
  have h3 : D ≤ T + c * T + tt := by linarith
  have h4 : c * D ≤ c * (T + c * T + tt) := by gcongr
  have h5 : |u * D - u * T| ≤ c * T + tt := by
    rw [← mul_sub, abs_mul, abs_of_nonneg hu0]
    have := abs_nonneg (D - T)
    nlinarith
  have h5' := abs_le.1 h5
  have hc2 : c * (c * T) ≤ 1 / 4 * (c * T) := by gcongr
  have hcT : c ≤ c * T := by nlinarith
  have htt : c * tt ≤ 1 / 4 * tt := by gcongr
  rw [abs_le]
  constructor <;> nlinarith

theorem accum_length (t : ℕ) (ps : List ℕ) : (RV.accumFrom t ps).length = ps.length := by
  induction ps generalizing t with
  | nil => rfl
  | cons p ps ih => simp [RV.accumFrom, ih]

theorem bisect_spec (a : List ℕ) (x : ℚ) (hi : ℕ) :
    bisectRight a x hi ≤ hi ∧ (∀ j (h : j < a.length), j < bisectRight a x hi → ((a[j] : ℕ) : ℚ) ≤ x) ∧
    (∀ (h : bisectRight a x hi < a.length), bisectRight a x hi < hi → x < (a[bisectRight a x hi] : ℕ)) := by
  induction a generalizing hi with
  | nil => simp [bisectRight]
  | cons c a ih =>
    cases hi with
    | zero => simp [bisectRight]
    | succ hi =>
      by_cases hc : (c : ℚ) ≤ x
      · have e : bisectRight (c :: a) x (hi + 1) = bisectRight a x hi + 1 := by
          simp [bisectRight, hc]
        obtain ⟨i1, i2, i3⟩ := ih hi
        refine ⟨by omega, ?_, ?_⟩
        · intro j hj hlt
          cases j with
          | zero => exact hc
          | succ j => exact i2 j (by simpa using hj) (by omega)
        · intro h hlt
          simp only [e] at h hlt ⊢
          exact i3 (by simpa using h) (by omega)
      · have e : bisectRight (c :: a) x (hi + 1) = 0 := by simp [bisectRight, hc]
        refine ⟨by omega, fun j _ h => by omega, fun h _ => ?_⟩
        simp only [e]
        exact lt_of_not_ge hc

theorem sum_probs_upTo {r : RV ℤ} (hr : r.Proper) (h : r.vals.length - 1 < r.vals.length) :
    weightUpTo r.pairs r.vals[r.vals.length - 1] = r.sumProbs := by
  have : (weightUpTo r.pairs r.vals[r.vals.length - 1] : ℚ) = r.sumProbs := by
    rw [RV.weightUpTo_eq_wsum', sumProbs_eq r hr.len]
    refine wsum_congr fun x hx _ => if_pos ?_
    obtain ⟨j, hj, e⟩ := List.mem_iff_getElem.1 (List.of_mem_zip hx).1
    rw [← e]
    rcases Nat.lt_or_ge j (r.vals.length - 1) with h2 | h2
    · exact (List.pairwise_iff_getElem.1 hr.sorted j _ hj h h2).le
    · have : j = r.vals.length - 1 := by omega
      subst this
      exact le_rfl
  exact_mod_cast this

/-- What `random()` can return: a multiple of `2^-53` in `[0, 1)`. -/
def IsUniform (u : ℚ) : Prop := ∃ k : ℕ, k < 2 ^ 53 ∧ u = k / 2 ^ 53

theorem IsUniform.bounds {u : ℚ} (h : IsUniform u) : 0 ≤ u ∧ u ≤ 1 - 1 / 2 ^ 53 := by
  obtain ⟨k, hk, rfl⟩ := h
  refine ⟨by positivity, ?_⟩
  have : (k : ℚ) + 1 ≤ 2 ^ 53 := by exact_mod_cast hk
  rw [show (1 : ℚ) - 1 / 2 ^ 53 = (2 ^ 53 - 1) / 2 ^ 53 by norm_num]
  gcongr
  linarith

theorem choices_spec (r : RV ℤ) (hr : r.Proper) (ho : r.sumProbs < RV.floatOverflow) {u : ℚ} (hu : IsUniform u) :
    ∃ v ∈ r.vals, choices r u = .ok v ∧ (weightBelow r.pairs v : ℚ) ≤ dbl (u * dbl r.sumProbs) ∧
      dbl (u * dbl r.sumProbs) < weightUpTo r.pairs v := by
  obtain ⟨hu0, hu1⟩ := hu.bounds
  have hT : 1 ≤ (r.sumProbs : ℚ) := by
    have := sumProbs_ne hr
    exact_mod_cast Nat.one_le_iff_ne_zero.2 this
  have ho' : (r.sumProbs : ℚ) < (RV.floatOverflow : ℚ) := by exact_mod_cast ho
  have hx1 := product_lt hT ho' hu1
  have hx0 : 0 ≤ dbl (u * dbl r.sumProbs) := dbl_nonneg (mul_nonneg hu0 (dbl_nonneg (by linarith)))
  unfold choices
  rw [if_neg (not_le.2 ho'), if_neg (sumProbs_ne hr)]
  generalize dbl (u * dbl r.sumProbs) = x at *
  obtain ⟨b1, b2, b3⟩ := bisect_spec (RV.accumFrom 0 r.probs) x (r.vals.length - 1)
  generalize bisectRight (RV.accumFrom 0 r.probs) x (r.vals.length - 1) = i at *
  have hne := hr.nonempty
  have hlen : 0 < r.vals.length := List.length_pos_iff.2 hne
  have hi : i < r.vals.length := by omega
  have hacc : ∀ j (h : j < r.vals.length), (RV.accumFrom 0 r.probs)[j]'(by rw [accum_length, ← hr.len]; exact h) = weightUpTo r.pairs r.vals[j] := by
    intro j h
    have := RV.accum_getElem_eq hr.len hr.sorted 0 j h (by rw [accum_length, ← hr.len]; exact h)
    rw [this, zero_add]; rfl
  refine ⟨r.vals[i], List.getElem_mem hi, by rw [List.getElem?_eq_getElem hi], ?_, ?_⟩
  · cases i with
    | zero =>
      have : weightBelow r.pairs r.vals[0] = 0 := by
        have h0 : (weightBelow r.pairs r.vals[0] : ℚ) = 0 := by
          rw [weightBelow_eq_wsum, wsum_congr (g := fun _ => 0), wsum_const, zero_mul]
          intro y hy _
          obtain ⟨j, hj, e⟩ := List.mem_iff_getElem.1 (List.of_mem_zip hy).1
          rw [← e]
          apply if_neg
          rcases Nat.eq_zero_or_pos j with h | h
          · subst h; exact lt_irrefl _
          · exact not_lt.2 (List.pairwise_iff_getElem.1 hr.sorted 0 j hi hj h).le
        exact_mod_cast h0
      rw [this]; exact_mod_cast hx0
    | succ i =>
      rw [weightBelow_succ hr hi, ← hacc i (by omega)]
      exact b2 i (by rw [accum_length, ← hr.len]; omega) (by omega)
  · rcases Nat.lt_or_ge i (r.vals.length - 1) with h | h
    · rw [← hacc i hi]
      exact b3 (by rw [accum_length, ← hr.len]; omega) h
    · have : i = r.vals.length - 1 := by omega
      subst this
      rw [sum_probs_upTo hr hi]
      exact hx1

theorem pr_upTo {r : RV ℤ} (hr : r.Proper) (v : ℤ) : Pr r.pairs (· ≤ v) = weightUpTo r.pairs v / r.sumProbs := by
  rw [Pr, Ex, ← RV.weightUpTo_eq_wsum', sumProbs_eq r hr.len]

theorem pr_below {r : RV ℤ} (hr : r.Proper) (v : ℤ) : Pr r.pairs (· < v) = weightBelow r.pairs v / r.sumProbs := by
  rw [Pr, Ex, ← weightBelow_eq_wsum, sumProbs_eq r hr.len]

/-- C44. For every number `u` that `random()` can return, `roller` returns a possible outcome `v`; the choice is by inversion: `u` lies in
the interval from `P(X < v)` to `P(X ≤ v)`, whose length is `P(X = v)`, up to an error of `2^-51` from rounding `u · total`.
Missing: exactly equal lengths, which doubles cannot give for every die. -/
theorem C44_roller_partial (o : Obj) (w w1 : World) (r : RV ℤ) (hg : getRv o w = (.ok r, w1)) (hr : r.Proper)
    (ho : r.sumProbs < RV.floatOverflow) (u : ℚ) (hu : IsUniform u) :
    ∃ v, roller o u w = (.ok v, w1) ∧ 0 < Pr r.pairs (· = v) ∧
      Pr r.pairs (· < v) - 1 / 2 ^ 51 ≤ u ∧ u < Pr r.pairs (· ≤ v) + 1 / 2 ^ 51 ∧
      Pr r.pairs (· ≤ v) = Pr r.pairs (· < v) + Pr r.pairs (· = v) := by
  obtain ⟨v, hv, h1, h2, h3⟩ := choices_spec r hr ho hu
  obtain ⟨hu0, hu1⟩ := hu.bounds
  have hT : 1 ≤ (r.sumProbs : ℚ) := by
    have := sumProbs_ne hr
    exact_mod_cast Nat.one_le_iff_ne_zero.2 this
  have hT0 : (0 : ℚ) < r.sumProbs := by linarith
  have herr := abs_le.1 (product_error (u := u) hT hu0 (le_trans hu1 (by norm_num)))
  have hadd : (weightBelow r.pairs v : ℚ) + weightOf r.pairs v = weightUpTo r.pairs v := by exact_mod_cast weightBelow_add r.pairs v
  have hpr : Pr r.pairs (· = v) = weightOf r.pairs v / r.sumProbs := by
    rw [Pr, Ex, ← RV.weightOf_eq_wsum, sumProbs_eq r hr.len]
  refine ⟨v, ?_, ?_, ?_, ?_, ?_⟩
  · unfold roller
    rw [M.bind_ok hg]
    rw [show M.ofSettings (fun _ => choices r u) w1 = (choices r u, w1) from rfl, h1]
  · rw [hpr]
    exact div_pos (by linarith) hT0
  · rw [pr_below hr, sub_le_iff_le_add, div_le_iff₀ hT0, add_mul]
    have : (1 : ℚ) / 2 ^ 51 * r.sumProbs = r.sumProbs / 2 ^ 51 := by ring
    rw [this]; linarith
  · rw [pr_upTo hr, ← sub_lt_iff_lt_add, lt_div_iff₀ hT0, sub_mul]
    have : (1 : ℚ) / 2 ^ 51 * r.sumProbs = r.sumProbs / 2 ^ 51 := by ring
    rw [this]; linarith
  · rw [pr_below hr, pr_upTo hr, hpr, ← add_div, hadd]

/-- C44, when `u · total` needs no rounding (e.g. total weight a power of two): `v` is returned exactly when `u` lies in
`[P(X < v), P(X ≤ v))`, an interval of length `P(X = v)`. -/
theorem C44_exact (r : RV ℤ) (hr : r.Proper) (ho : r.sumProbs < RV.floatOverflow) (u : ℚ) (hu : IsUniform u)
    (hx : dbl (u * dbl r.sumProbs) = u * r.sumProbs) (v : ℤ) :
    choices r u = .ok v ↔ Pr r.pairs (· < v) ≤ u ∧ u < Pr r.pairs (· ≤ v) := by
  obtain ⟨v', hv', h1, h2, h3⟩ := choices_spec r hr ho hu
  have hT0 : (0 : ℚ) < r.sumProbs := by
    have := sumProbs_ne hr
    exact_mod_cast Nat.pos_of_ne_zero this
  rw [hx] at h2 h3
  rw [← div_le_iff₀ hT0, ← pr_below hr] at h2
  rw [← lt_div_iff₀ hT0, ← pr_upTo hr] at h3
  have hm : 0 ≤ mass r.pairs := by rw [← sumProbs_eq r hr.len]; exact hT0.le
  have hle : ∀ a b : ℤ, a < b → Pr r.pairs (· ≤ a) ≤ Pr r.pairs (· < b) := by
    intro a b hab
    unfold Pr Ex
    refine div_le_div_of_nonneg_right (wsum_mono fun x _ => ?_) hm
    by_cases h : x.1 ≤ a
    · rw [if_pos h, if_pos (lt_of_le_of_lt h hab)]
    · rw [if_neg h]; split <;> norm_num
  rw [h1]
  constructor
  · intro h
    cases h
    exact ⟨h2, h3⟩
  · rintro ⟨h4, h5⟩
    rcases lt_trichotomy v v' with h | h | h
    · exact absurd (hle _ _ h) (not_le.2 (lt_of_le_of_lt h2 h5))
    · rw [h]
    · exact absurd (hle _ _ h) (not_le.2 (lt_of_le_of_lt h4 h3))

/-- C44. `roller(X, n)` returns `n` possible outcomes. -/
theorem C44_roller_count (o : Obj) (w w1 : World) (r : RV ℤ) (hg : getRv o w = (.ok r, w1)) (hr : r.Proper)
    (ho : r.sumProbs < RV.floatOverflow) (us : List ℚ) (hus : ∀ u ∈ us, IsUniform u) :
    ∃ vs, rollerN o us w = (.ok vs, w1) ∧ vs.length = us.length ∧ ∀ v ∈ vs, v ∈ r.vals ∧ weightOf r.pairs v ≠ 0 := by
  unfold rollerN
  rw [M.bind_ok hg]
  induction us with
  | nil => exact ⟨[], rfl, rfl, by simp⟩
  | cons u us ih =>
    obtain ⟨vs, h1, h2, h3⟩ := ih fun u hu => hus u (List.mem_cons_of_mem _ hu)
    obtain ⟨v, hv, c1, c2, c3⟩ := choices_spec r hr ho (hus u List.mem_cons_self)
    refine ⟨v :: vs, ?_, by simp [h2], ?_⟩
    · have e1 : M.forList (fun u => M.ofSettings fun _ => choices r u) (u :: us) =
          (do let y ← M.ofSettings fun _ => choices r u
              let ys ← M.forList (fun u => M.ofSettings fun _ => choices r u) us
              return y :: ys) := rfl
      rw [e1, M.bind_ok (show M.ofSettings (fun _ => choices r u) w1 = (.ok v, w1) by
        rw [show M.ofSettings (fun _ => choices r u) w1 = (choices r u, w1) from rfl, c1]), M.bind_ok h1]
      rfl
    · intro x hx
      rcases List.mem_cons.1 hx with rfl | hx
      · refine ⟨hv, fun h0 => ?_⟩
        have := weightBelow_add r.pairs x
        rw [h0, add_zero] at this
        rw [this] at c2
        linarith
      · exact h3 x hx

/-- C44. A blank die has no outcome to return: `roller` fails, and changes nothing. -/
theorem C44_blank (b : Bool) (u : ℚ) (us : List ℚ) (w : World) :
    roller (.blank b) u w = (.error .assertion, w) ∧ rollerN (.blank b) us w = (.error .assertion, w) := ⟨rfl, rfl⟩

/-- C44. A number is its own only outcome. -/
theorem C44_number (n : ℤ) (w : World) (u : ℚ) (hu : IsUniform u) : roller (.num n) u w = (.ok n, w) := by
  have hp : (⟨[n], [1], none⟩ : RV ℤ).Proper := ⟨rfl, by simp, by simp, by norm_num [mass, wsum, RV.pairs]⟩
  obtain ⟨v, hv, h1, _⟩ := choices_spec ⟨[n], [1], none⟩ hp (show ([1] : List ℕ).sum < RV.floatOverflow by decide +kernel) hu
  rw [List.mem_singleton] at hv
  subst hv
  have hg : getRv (.num v) w = (.ok ⟨[v], [1], none⟩, w) := by
    change (RV.fromConst w.settings v, w) = _
    rw [fromConst_eq]
  unfold roller
  rw [M.bind_ok hg]
  change (choices ⟨[v], [1], none⟩ u, w) = _
  rw [h1]

example : choices ⟨[1, 2, 4], [1, 2, 1], none⟩ (3 / 4) = .ok 4 ∧ choices ⟨[1, 2, 4], [1, 2, 1], none⟩ (1 / 4) = .ok 2 ∧
    choices ⟨[1, 2, 4], [1, 2, 1], none⟩ 0 = .ok 1 ∧ choices ⟨[1, 2, 4], [0, 2, 0], none⟩ 0 = .ok 2 := by decide +kernel

example : IsUniform (3 / 4) := ⟨3 * 2 ^ 51, by norm_num, by norm_num⟩

end PythonDice
