import Verif.Proofs.Mix
import Verif.Props.Algebra
import Mathlib.Algebra.BigOperators.Ring.Finset

/-! # C08: mixtures -/

namespace PythonDice
open Spec

variable {α : Type} [LinearOrder α] [PyVal α]

/-- Expectation of an entry of the list given to `from_rvs`: a number is a constant. -/
def entryLaw : RV.Entry α → (α → ℚ) → ℚ
  | .num v, f => f v
  | .rv r, f => Ex r.pairs f
  | .blank, _ => 0

/-- The weights as passed, or 1 for every entry if none were. -/
def weightsOrOnes (n : ℕ) : Option (List ℤ) → List ℤ
  | some ws => ws
  | none => List.replicate n 1

/-- The non-blank entries, each with its own weight. -/
def keptEntries (rvs : List (RV.Entry α)) (ws : List ℤ) : List (RV.Entry α × ℤ) :=
  (rvs.zip ws).filter fun ew => match ew.1 with
    | .blank => false
    | _ => true

theorem kept_eq_live (rvs : List (RV.Entry α)) (ws : List ℤ) (h : rvs.length = ws.length) :
    keptEntries rvs ws = RV.live rvs ws := by
  rw [RV.live_eq_filter rvs ws h, keptEntries]
  congr 1
  funext ew
  cases ew.1 <;> rfl

theorem weightsOrOnes_eq (n : ℕ) (w : Option (List ℤ)) :
    weightsOrOnes n w = w.getD (List.replicate n 1) := by cases w <;> rfl

theorem truncFn_of (st : Settings) (ht : ∀ v : α, st.rvTrunc = true → PyVal.trunc v = .ok v) (v : α) :
    RV.truncFn st v = v := by
  unfold RV.truncFn
  split
  · rename_i h; rw [ht v h]
  · rfl

/-- C08. The law of a mixture (int outcomes, or truncation off): blanks are ignored with their weight,
the rest is averaged with the given weights.  The dice among the entries must have positive total
weight, and so must the kept entries. -/
theorem C08_from_rvs_law (st : Settings) (ht : ∀ v : α, st.rvTrunc = true → PyVal.trunc v = .ok v)
    (rvs : List (RV.Entry α)) (weights : Option (List ℤ)) (r : RV α)
    (hlen : (weightsOrOnes rvs.length weights).length = rvs.length)
    (hgood : ∀ d, RV.Entry.rv d ∈ rvs → d.vals.length = d.probs.length ∧ mass d.pairs ≠ 0)
    (hw : ((keptEntries rvs (weightsOrOnes rvs.length weights)).map (·.2)).sum ≠ 0)
    (h : RV.fromRvs st rvs weights = .ok (some r, false)) (f : α → ℚ) :
    Ex r.pairs f = mixture ((keptEntries rvs (weightsOrOnes rvs.length weights)).map
      fun ew => ((ew.2 : ℚ), entryLaw ew.1)) f := by
  rw [weightsOrOnes_eq] at *
  rw [kept_eq_live _ _ hlen.symm] at *
  have hg : ∀ e ∈ rvs, e.Good := by
    intro e he
    cases e with
    | rv d =>
      obtain ⟨h1, h2⟩ := hgood d he
      refine ⟨h1, ?_⟩
      rw [mass_eq_sum, RV.pairs_map_snd d h1] at h2
      exact_mod_cast h2
    | _ => trivial
  have hs : (((RV.live rvs (weights.getD (List.replicate rvs.length 1))).map
      fun (ew : RV.Entry α × ℤ) => (ew.2 : ℚ)).sum) ≠ 0 := by
    have : ((((RV.live rvs (weights.getD (List.replicate rvs.length 1))).map (·.2)).sum : ℤ) : ℚ) =
        (((RV.live rvs (weights.getD (List.replicate rvs.length 1))).map
      fun (ew : RV.Entry α × ℤ) => (ew.2 : ℚ)).sum) := by
      rw [Int.cast_list_sum, List.map_map]; rfl
    rw [← this]
    exact_mod_cast hw
  rw [(RV.fromRvs_Ex h hg hs).2 f]
  simp only [mixture, List.map_map, Function.comp_def, truncFn_of st ht]
  congr 2
  apply List.map_congr_left
  intro ew _
  cases ew.1 <;> rfl

/-- C08. If every entry is blank (or there are none) the result is a blank die. -/
theorem C08_from_rvs_blank (st : Settings) (rvs : List (RV.Entry α)) (weights : Option (List ℤ)) :
    RV.fromRvs st rvs weights = .ok (none, false) ↔ ∀ e ∈ rvs, e = .blank := by
  rw [RV.fromRvs_eq]
  have hf : (rvs.filter fun e => !e.isBlank) = [] ↔ ∀ e ∈ rvs, e = .blank := by
    rw [List.filter_eq_nil_iff]
    refine forall₂_congr fun e _ => ?_
    cases e <;> simp [RV.Entry.isBlank]
  simp only
  constructor
  · intro h
    rw [← hf]
    by_contra hne
    rw [if_neg hne] at h
    split at h
    · cases h
    simp only [RV.bind_ok_iff] at h
    obtain ⟨_, _, _, _, _, _, h⟩ := h
    cases h
  · intro h
    rw [if_pos (hf.2 h)]

/-- C08. With non-negative weights, positive totals and a common total within the limit, the mixture
of int-valued entries exists and no warning is logged. -/
theorem C08_from_rvs_succeeds (st : Settings) (rvs : List (RV.Entry ℤ)) (ws : List ℤ)
    (hlen : ws.length = rvs.length) (hne : ∃ e ∈ rvs, e ≠ .blank) (hnn : ∀ w ∈ ws, 0 ≤ w)
    (hgood : ∀ d, RV.Entry.rv d ∈ rvs → d.vals.length = d.probs.length ∧ mass d.pairs ≠ 0)
    (hb : (((keptEntries rvs ws).map (·.2)).sum : ℤ) *
      ((rvs.filterMap fun | .rv d => some d.probs.sum | _ => none).prod : ℕ) ≤ (RV.sumLimit : ℤ)) :
    ∃ r, RV.fromRvs st rvs (some ws) = .ok (some r, false) := by
  rw [kept_eq_live _ _ hlen.symm] at hb
  have hall : ∀ x ∈ RV.live rvs ws, x.1 ∈ rvs ∧ x.1.isBlank = false ∧ 0 ≤ x.2 := by
    intro x hx
    rw [RV.live_eq_filter _ _ hlen.symm, List.mem_filter] at hx
    obtain ⟨h1, h2⟩ := hx
    exact ⟨(List.of_mem_zip h1).1, by simpa using h2, hnn _ (List.of_mem_zip h1).2⟩
  have hprod : ((rvs.filter fun e => !e.isBlank).map RV.Entry.probSum).prod =
      (rvs.filterMap fun | .rv d => some d.probs.sum | _ => none).prod := by
    clear hb hall hgood hne hlen hnn
    induction rvs with
    | nil => rfl
    | cons e rvs ih =>
      cases e
      · simpa [List.filter_cons, RV.Entry.probSum] using ih
      · simp only [List.filter_cons, RV.Entry.isBlank, Bool.not_false, if_true, List.map_cons, List.prod_cons,
          List.filterMap_cons, RV.Entry.probSum, RV.sumProbs]
        rw [← ih]; rfl
      · simpa [List.filter_cons] using ih
  rw [RV.fromRvs_eq]
  simp only [Option.getD_some]
  have hne' : (rvs.filter fun e => !e.isBlank) ≠ [] := by
    obtain ⟨e, he, hb⟩ := hne
    intro h0
    have : e ∈ (rvs.filter fun e => !e.isBlank) := List.mem_filter.2 ⟨he, by cases e <;> simp_all [RV.Entry.isBlank]⟩
    rw [h0] at this; simp at this
  rw [if_neg hne']
  have hl2 : (rvs.filter fun e => !e.isBlank).length = (RV.filterWeights rvs ws).length := by
    clear hb hall hgood hne hnn hprod hne'
    induction rvs generalizing ws with
    | nil => simp at hlen; subst hlen; rfl
    | cons e rvs ih =>
      cases ws with
      | nil => simp at hlen
      | cons w ws =>
        simp only [List.length_cons, Nat.add_right_cancel_iff] at hlen
        have := ih ws hlen
        cases hbl : e.isBlank <;> simp_all [RV.filterWeights]
  rw [if_neg (by simpa using hl2)]
  set P := ((rvs.filter fun e => !e.isBlank).map RV.Entry.probSum).prod with hP
  have hcontrib : ∀ x ∈ RV.live rvs ws, ∃ l, x.1.contrib P x.2 = .ok l ∧ (∀ y ∈ l, 0 ≤ y.2) ∧
      (l.map (·.2)).sum = x.2 * P := by
    intro x hx
    obtain ⟨h1, h2, h3⟩ := hall x hx
    have hd : x.1.probSum ∣ P := by
      rw [hP]
      refine List.dvd_prod (List.mem_map_of_mem (f := RV.Entry.probSum) (List.mem_filter.2 ⟨h1, by simpa using h2⟩))
    obtain ⟨e, w⟩ := x
    simp only at *
    cases e with
    | blank => simp [RV.Entry.isBlank] at h2
    | num v => exact ⟨_, rfl, by simp; positivity, by simp⟩
    | rv d =>
      obtain ⟨g1, g2⟩ := hgood d h1
      rw [mass_eq_sum, RV.pairs_map_snd d g1] at g2
      have g3 : d.probs.sum ≠ 0 := by exact_mod_cast g2
      refine ⟨_, by rw [RV.Entry.contrib, if_neg (by simp [RV.sumProbs, g3])], ?_, ?_⟩
      · intro y hy
        have := (List.of_mem_zip hy).2
        obtain ⟨p, _, hp⟩ := List.mem_map.1 this
        rw [← hp]; positivity
      · rw [List.map_snd_zip (by simp; omega)]
        obtain ⟨k, hk⟩ := hd
        simp only [RV.Entry.probSum, RV.sumProbs] at hk
        have hdiv : P / d.sumProbs = k := by
          rw [hk, RV.sumProbs, Nat.mul_div_cancel_left _ (Nat.pos_of_ne_zero g3)]
        rw [hdiv, hk]
        have : (d.probs.map fun p : ℕ => (p : ℤ) * w * (k : ℤ)) = (d.probs.map fun p : ℕ => (p : ℤ)).map (· * (w * k)) := by
          rw [List.map_map]; apply List.map_congr_left; intro p _; simp [mul_assoc]
        rw [this, List.sum_map_mul_right, List.map_id']
        have : (d.probs.map fun p : ℕ => (p : ℤ)).sum = (d.probs.sum : ℕ) := by
          rw [Nat.cast_list_sum]
        rw [this]; push_cast; ring
  have hmap : ∃ parts, ((RV.live rvs ws).mapM fun (ew : RV.Entry ℤ × ℤ) => ew.1.contrib P ew.2) = .ok parts ∧
      (∀ y ∈ parts.flatten, 0 ≤ y.2) ∧ (parts.flatten.map (·.2)).sum = ((RV.live rvs ws).map (·.2)).sum * P := by
    clear hb hall hP
    generalize RV.live rvs ws = L at hcontrib ⊢
    induction L with
    | nil => exact ⟨[], rfl, by simp, by simp⟩
    | cons x L ih =>
      obtain ⟨l, hl1, hl2, hl3⟩ := hcontrib x List.mem_cons_self
      obtain ⟨ps, hp1, hp2, hp3⟩ := ih fun y hy => hcontrib y (List.mem_cons_of_mem _ hy)
      refine ⟨l :: ps, ?_, ?_, ?_⟩
      · rw [RV.mapM_ok_iff] at *
        exact .cons hl1 hp1
      · intro y hy
        rw [List.flatten_cons, List.mem_append] at hy
        rcases hy with hy | hy
        · exact hl2 y hy
        · exact hp2 y hy
      · rw [List.flatten_cons, List.map_append, List.sum_append, hl3, hp3, List.map_cons, List.sum_cons]
        ring
  obtain ⟨parts, hp1, hp2, hp3⟩ := hmap
  rw [hp1]
  simp only [Except.bind]
  have e1 : parts.flatten.map (·.1) = (RV.natPairs parts.flatten).map (·.1) := by simp [RV.natPairs, Function.comp_def]
  have e2 : parts.flatten.map (·.2) = (RV.natPairs parts.flatten).map fun x => (x.2 : ℤ) := by
    simp only [RV.natPairs, List.map_map]
    apply List.map_congr_left
    intro x hx
    simp [hp2 x hx]
  obtain ⟨r, hr⟩ := RV.mk'_int_ok st (RV.natPairs parts.flatten)
  have hsum := RV.mk'_sum_le hr
  rw [e1, e2, hr]
  simp only
  have hle : r.sumProbs ≤ RV.sumLimit := by
    refine hsum.trans (max_le (by simp [RV.sumLimit]) ?_)
    have h5 : (((((RV.natPairs parts.flatten).map fun x => (x.2 : ℤ)).map Int.toNat).sum : ℕ) : ℤ) =
        (parts.flatten.map (·.2)).sum := by
      rw [← e2, Nat.cast_list_sum, List.map_map, List.map_map]
      congr 1
      apply List.map_congr_left
      intro x hx
      simp [hp2 x hx]
    rw [hp3, hprod] at h5
    rw [← h5] at hb
    exact_mod_cast hb
  rw [RV.probLimit_le hle]
  exact ⟨_, rfl⟩

example : RV.fromRvs {} [.rv ⟨[1, 2], [1, 1], none⟩, .blank, .num 7, .rv ⟨[2, 3, 4], [1, 1, 1], none⟩]
    (some [2, 5, 1, 1]) = .ok (some (⟨[1, 2, 3, 4, 7], [3, 4, 1, 1, 3], none⟩ : RV ℤ), false) := by
  decide +kernel
example : RV.fromRvs {} [(.blank : RV.Entry ℤ), .blank] none = .ok (none, false) := by decide +kernel

end PythonDice
