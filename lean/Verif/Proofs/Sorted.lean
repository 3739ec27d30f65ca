import Verif.Proofs.Mix
import Verif.Proofs.Float

/-! The constructor on already sorted outcomes, and cumulative sums. -/

set_option linter.unusedSectionVars false

namespace PythonDice
namespace RV
open Spec

variable {α : Type} [LinearOrder α]

theorem pairs_ext {l m : List (α × ℕ)} (hs : (l.map (·.1)).Pairwise (· < ·))
    (hk : l.map (·.1) = m.map (·.1)) (hw : ∀ f, wsum l f = wsum m f) : l = m := by
  have hnl : (l.map (·.1)).Nodup := hs.imp ne_of_lt
  have hnm : (m.map (·.1)).Nodup := hk ▸ hnl
  have hlen : l.length = m.length := by simpa using congrArg List.length hk
  have hW : ∀ v, weightOf l v = weightOf m v := by
    intro v
    have := hw fun x => if x = v then 1 else 0
    rw [← weightOf_eq_wsum, ← weightOf_eq_wsum] at this
    exact_mod_cast this
  apply List.ext_getElem hlen
  intro i h1 h2
  have e1 : l[i].1 = m[i].1 := by
    have := List.getElem_of_eq hk (i := i) (by simpa using h1)
    simpa using this
  have e2 : l[i].2 = m[i].2 := by
    rw [← weightOf_of_mem hnl (List.getElem_mem h1), ← weightOf_of_mem hnm (List.getElem_mem h2), hW, e1]
  exact Prod.ext e1 e2

theorem grouped_sorted_id {vals : List α} {probs : List ℕ} (hl : vals.length = probs.length)
    (hs : vals.Pairwise (· < ·)) : grouped (getZip vals probs) = vals.zip probs := by
  have hf : (vals.zip probs).map (·.1) = vals := List.map_fst_zip (by omega)
  have hg : ((grouped (getZip vals probs)).map (·.1)).Pairwise (· < ·) := by
    rw [List.pairwise_map]; exact grouped_sorted _ (getZip_sorted _ _)
  refine pairs_ext hg ?_ ?_
  · rw [hf]
    apply sorted_ext hg hs
    intro v
    rw [grouped_mem, ((getZip_perm vals probs).map _).mem_iff, hf]
  · intro f; rw [grouped_wsum, wsum_perm (getZip_perm _ _)]

/-- The constructor does nothing but divide by the gcd when the outcomes are already in order. -/
theorem mk'_sorted [PyVal α] {st : Settings} {vals : List α} {probs : List ℕ}
    (ht : ∀ v : α, st.rvTrunc = true → PyVal.trunc v = .ok v)
    (hl : vals.length = probs.length) (hs : vals.Pairwise (· < ·)) (hne : vals ≠ [])
    (hz : st.rvIgnoreZeroProbs = true → ∀ p ∈ probs, p ≠ 0) :
    mk' st vals (probs.map fun p : ℕ => (p : ℤ)) =
      .ok { vals := vals, probs := probs.map (· / normFactor probs) } := by
  have htr : truncated st none vals = .ok vals := by
    unfold truncated
    split
    · rename_i h
      rw [mapM_eq_map (f := PyVal.trunc) (F := id) fun v _ => ht v h]; simp
    · rfl
  have hp : (probs.map fun p : ℕ => (p : ℤ)).map Int.toNat = probs := by
    rw [List.map_map]; simp [Function.comp_def]
  have hcore : core st vals (probs.map fun p : ℕ => (p : ℤ)) = vals.zip probs := by
    rw [core, hp]
    cases hi : st.rvIgnoreZeroProbs with
    | false => exact grouped_sorted_id hl hs
    | true =>
      rw [newZipped_true, grouped_sorted_id hl hs, List.filter_eq_self]
      intro x hx
      simpa using hz hi x.2 (List.of_mem_zip hx).2
  have hzne : vals.zip probs ≠ [] := by
    cases vals with
    | nil => exact absurd rfl hne
    | cons v vs => cases probs with
      | nil => simp at hl
      | cons p ps => simp
  rw [mk'_eq, if_neg (by simpa using hl), htr]
  simp only
  rw [if_pos (by simp), hcore, if_neg hzne, List.map_fst_zip (by omega)]
  congr 2
  rw [normPairs, List.map_map, List.map_snd_zip (l₁ := vals) (l₂ := probs) (by omega)]
  conv_rhs => rw [← List.map_snd_zip (l₁ := vals) (l₂ := probs) (by omega), List.map_map]
  rw [List.map_snd_zip (l₁ := vals) (l₂ := probs) (by omega)]
  rfl

/-- Cumulative sums have the same common divisors as the weights. -/
theorem dvd_accumFrom (d t : ℕ) (ps : List ℕ) (ht : d ∣ t) :
    (∀ p ∈ accumFrom t ps, d ∣ p) ↔ ∀ p ∈ ps, d ∣ p := by
  induction ps generalizing t with
  | nil => simp [accumFrom]
  | cons p ps ih =>
    simp only [accumFrom, List.forall_mem_cons]
    constructor
    · rintro ⟨h1, h2⟩
      exact ⟨(Nat.dvd_add_right ht).1 h1, (ih _ h1).1 h2⟩
    · rintro ⟨h1, h2⟩
      exact ⟨dvd_add ht h1, (ih _ (dvd_add ht h1)).2 h2⟩

theorem gcdList_accumFrom (ps : List ℕ) : gcdList (accumFrom 0 ps) = gcdList ps := by
  apply Nat.dvd_antisymm
  · exact dvd_gcdList _ _ ((dvd_accumFrom _ 0 ps (dvd_zero _)).1 fun p hp => gcdList_dvd _ p hp)
  · exact dvd_gcdList _ _ ((dvd_accumFrom _ 0 ps (dvd_zero _)).2 fun p hp => gcdList_dvd _ p hp)

theorem accumFrom_length (t : ℕ) (ps : List ℕ) : (accumFrom t ps).length = ps.length := by
  induction ps generalizing t with
  | nil => rfl
  | cons p ps ih => simp [accumFrom, ih]

theorem accumFrom_getElem (t : ℕ) (ps : List ℕ) (i : ℕ) (h : i < (accumFrom t ps).length) :
    (accumFrom t ps)[i] = t + (ps.take (i + 1)).sum := by
  induction ps generalizing t i with
  | nil => simp [accumFrom] at h
  | cons p ps ih =>
    cases i with
    | zero => simp [accumFrom]
    | succ i =>
      simp only [accumFrom, List.getElem_cons_succ, List.take_succ_cons, List.sum_cons]
      rw [ih]; ring

theorem accumFrom_ne_zero (t : ℕ) (ps : List ℕ) (h : ∀ p ∈ ps, p ≠ 0) : ∀ c ∈ accumFrom t ps, c ≠ 0 := by
  induction ps generalizing t with
  | nil => simp [accumFrom]
  | cons p ps ih =>
    intro c hc
    simp only [accumFrom, List.mem_cons] at hc
    have := h p List.mem_cons_self
    rcases hc with rfl | hc
    · omega
    · exact ih _ (fun q hq => h q (List.mem_cons_of_mem _ hq)) c hc

theorem getCdf_eq [PyVal α] {st : Settings} {r : RV α}
    (ht : ∀ v : α, st.rvTrunc = true → PyVal.trunc v = .ok v)
    (hl : r.vals.length = r.probs.length) (hs : r.vals.Pairwise (· < ·)) (hne : r.vals ≠ [])
    (hz : st.rvIgnoreZeroProbs = true → ∀ p ∈ r.probs, p ≠ 0) :
    getCdf st r = .ok { vals := r.vals, probs := (accumFrom 0 r.probs).map (· / normFactor r.probs) } := by
  rw [getCdf, mk'_sorted ht (by rw [accumFrom_length]; exact hl) hs hne]
  · simp only [normFactor, gcdList_accumFrom]
  · intro hi; exact accumFrom_ne_zero 0 _ (hz hi)

theorem normFactor_of_coprime {ps : List ℕ} (h : Coprime ps) : normFactor ps = 1 := by
  rw [normFactor, (coprime_iff ps).1 h]; simp

end RV
end PythonDice
