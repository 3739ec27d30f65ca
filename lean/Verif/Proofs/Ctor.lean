import Verif.Proofs.Law
import Verif.Model.RV
import Mathlib.Data.List.Sort
import Mathlib.Algebra.GCDMonoid.Nat

/-! Lemmas on the constructor of `RV`. -/

set_option linter.unusedSectionVars false
set_option linter.unusedSimpArgs false

namespace PythonDice
namespace RV
open Spec

variable {α : Type}

section
variable [LinearOrder α]

theorem lexGe_trans (a b c : α × ℕ) (h1 : lexGe a b = true) (h2 : lexGe b c = true) : lexGe a c = true := by
  simp only [lexGe, decide_eq_true_eq] at *
  rcases h1 with h1 | ⟨h1, h1'⟩ <;> rcases h2 with h2 | ⟨h2, h2'⟩
  · exact Or.inl (lt_trans h2 h1)
  · exact Or.inl (h2 ▸ h1)
  · exact Or.inl (h1 ▸ h2)
  · exact Or.inr ⟨h2.trans h1, le_trans h2' h1'⟩

theorem lexGe_total (a b : α × ℕ) : (lexGe a b || lexGe b a) = true := by
  simp only [lexGe, Bool.or_eq_true, decide_eq_true_eq]
  rcases lt_trichotomy a.1 b.1 with h | h | h
  · exact Or.inr (Or.inl h)
  · rcases le_total a.2 b.2 with h' | h'
    · exact Or.inr (Or.inr ⟨h, h'⟩)
    · exact Or.inl (Or.inr ⟨h.symm, h'⟩)
  · exact Or.inl (Or.inl h)

theorem lexGe_antisymm (a b : α × ℕ) (h1 : lexGe a b = true) (h2 : lexGe b a = true) : a = b := by
  simp only [lexGe, decide_eq_true_eq] at *
  rcases h1 with h1 | ⟨h1, h1'⟩ <;> rcases h2 with h2 | ⟨h2, h2'⟩
  · exact absurd h1 (lt_asymm h2)
  · exact absurd h1 (by rw [h2]; exact lt_irrefl _)
  · exact absurd h2 (by rw [h1]; exact lt_irrefl _)
  · exact Prod.ext h2 (le_antisymm h2' h1')

theorem getZip_perm (v : List α) (p : List ℕ) : (getZip v p).Perm (v.zip p) := List.perm_insertionSort _ _

theorem getZip_sorted (v : List α) (p : List ℕ) :
    (getZip v p).reverse.Pairwise fun a b => a.1 ≤ b.1 := by
  rw [List.pairwise_reverse]
  haveI : Std.Total fun a b : α × ℕ => lexGe a b = true :=
    ⟨fun a b => by have := lexGe_total a b; simpa using this⟩
  haveI : IsTrans (α × ℕ) fun a b => lexGe a b = true := ⟨lexGe_trans⟩
  have := List.pairwise_insertionSort (fun a b : α × ℕ => lexGe a b = true) (v.zip p)
  refine this.imp ?_
  intro a b h
  simp only [lexGe, decide_eq_true_eq] at h
  rcases h with h | ⟨h, _⟩
  · exact h.le
  · exact h.le

theorem groupLoop_wsum (cur : α × ℕ) (rest acc : List (α × ℕ)) (f : α → ℚ) :
    wsum (groupLoop cur rest acc) f = wsum acc f + wsum (cur :: rest) f := by
  induction rest generalizing cur acc with
  | nil => simp [groupLoop]
  | cons p rest ih =>
    simp only [groupLoop]
    split
    · rename_i h
      rw [ih]
      simp only [wsum_cons, ← h]
      push_cast; ring
    · rw [ih]; simp only [wsum_append, wsum_cons, wsum_nil]; ring

theorem groupLoop_mem (cur : α × ℕ) (rest acc : List (α × ℕ)) (v : α) :
    v ∈ (groupLoop cur rest acc).map (·.1) ↔ v ∈ acc.map (·.1) ∨ v ∈ (cur :: rest).map (·.1) := by
  induction rest generalizing cur acc with
  | nil => simp [groupLoop]
  | cons p rest ih =>
    simp only [groupLoop]
    split
    · rename_i h
      rw [ih]; simp [h]
    · rw [ih]; simp only [List.map_append, List.mem_append, List.map_cons, List.map_nil, List.mem_cons,
        List.not_mem_nil, or_false]; tauto

theorem groupLoop_sorted (cur : α × ℕ) (rest acc : List (α × ℕ))
    (hs : (cur :: rest).Pairwise fun a b => a.1 ≤ b.1)
    (ha : acc.Pairwise fun a b => a.1 < b.1) (hc : ∀ a ∈ acc, a.1 < cur.1) :
    (groupLoop cur rest acc).Pairwise fun a b => a.1 < b.1 := by
  induction rest generalizing cur acc with
  | nil =>
    simp only [groupLoop, List.pairwise_append, List.pairwise_cons, List.not_mem_nil, List.mem_singleton]
    exact ⟨ha, ⟨by simp, List.Pairwise.nil⟩, fun a h b hb => hb ▸ hc a h⟩
  | cons p rest ih =>
    simp only [groupLoop]
    rw [List.pairwise_cons] at hs
    obtain ⟨h1, h2⟩ := hs
    split
    · rename_i h
      refine ih _ _ ?_ ha ?_
      · rw [List.pairwise_cons] at h2 ⊢
        exact h2
      · intro a h'; exact h ▸ hc a h'
    · rename_i h
      have hlt : cur.1 < p.1 := lt_of_le_of_ne (h1 p List.mem_cons_self) h
      refine ih _ _ h2 ?_ ?_
      · simp only [List.pairwise_append, List.pairwise_cons, List.not_mem_nil, List.mem_singleton]
        exact ⟨ha, ⟨by simp, List.Pairwise.nil⟩, fun a h b hb => hb ▸ hc a h⟩
      · intro a h'
        simp only [List.mem_append, List.mem_singleton] at h'
        rcases h' with h' | h'
        · exact lt_trans (hc a h') hlt
        · exact h' ▸ hlt

theorem groupLoop_ne_nil (cur : α × ℕ) (rest acc : List (α × ℕ)) : groupLoop cur rest acc ≠ [] := by
  induction rest generalizing cur acc with
  | nil => simp [groupLoop]
  | cons p rest ih => simp only [groupLoop]; split <;> exact ih _ _

/-- The grouped list without zero filter. -/
def grouped (zipped : List (α × ℕ)) : List (α × ℕ) := newZipped zipped false

theorem newZipped_true (zipped : List (α × ℕ)) :
    newZipped zipped true = (grouped zipped).filter (fun v => v.2 ≠ 0) := by
  simp [newZipped, grouped]

theorem grouped_wsum (z : List (α × ℕ)) (f : α → ℚ) : wsum (grouped z) f = wsum z f := by
  simp only [grouped, newZipped, Bool.false_eq_true, if_false]
  rw [← wsum_perm (List.reverse_perm z)]
  split
  · rename_i h; rw [h]
  · rename_i h; rw [h, groupLoop_wsum]; simp

theorem grouped_mem (z : List (α × ℕ)) (v : α) : v ∈ (grouped z).map (·.1) ↔ v ∈ z.map (·.1) := by
  simp only [grouped, newZipped, Bool.false_eq_true, if_false]
  rw [← (List.reverse_perm z).map (fun x : α × ℕ => x.1) |>.mem_iff]
  split
  · rename_i h; rw [h]
  · rename_i h; rw [h, groupLoop_mem]; simp

theorem grouped_sorted (z : List (α × ℕ)) (h : z.reverse.Pairwise fun a b => a.1 ≤ b.1) :
    (grouped z).Pairwise fun a b => a.1 < b.1 := by
  simp only [grouped, newZipped, Bool.false_eq_true, if_false]
  split
  · exact List.Pairwise.nil
  · rename_i h'
    exact groupLoop_sorted _ _ _ (h' ▸ h) List.Pairwise.nil (by simp)

theorem grouped_eq_nil (z : List (α × ℕ)) : grouped z = [] ↔ z = [] := by
  simp only [grouped, newZipped, Bool.false_eq_true, if_false]
  split
  · rename_i h; simpa using h
  · rename_i h
    constructor
    · intro h'; exact absurd h' (groupLoop_ne_nil _ _ _)
    · rintro rfl; simp at h

theorem wsum_filter_ne_zero (l : List (α × ℕ)) (f : α → ℚ) :
    wsum (l.filter fun v => v.2 ≠ 0) f = wsum l f := by
  induction l with
  | nil => rfl
  | cons x l ih =>
    by_cases h : x.2 = 0
    · simp only [List.filter_cons]; simp only [h, wsum_cons]; simpa using ih
    · simp only [List.filter_cons]; simp only [wsum_cons, ← ih]; simp [h]

theorem newZipped_wsum (z : List (α × ℕ)) (b : Bool) (f : α → ℚ) : wsum (newZipped z b) f = wsum z f := by
  cases b
  · exact grouped_wsum z f
  · rw [newZipped_true, wsum_filter_ne_zero, grouped_wsum]

theorem newZipped_sorted (z : List (α × ℕ)) (b : Bool) (h : z.reverse.Pairwise fun a b => a.1 ≤ b.1) :
    (newZipped z b).Pairwise fun a b => a.1 < b.1 := by
  cases b
  · exact grouped_sorted z h
  · rw [newZipped_true]; exact (grouped_sorted z h).filter _

end

theorem foldl_gcd_dvd (ps : List ℕ) (a : ℕ) :
    ps.foldl Nat.gcd a ∣ a ∧ ∀ p ∈ ps, ps.foldl Nat.gcd a ∣ p := by
  induction ps generalizing a with
  | nil => simp
  | cons p ps ih =>
    simp only [List.foldl_cons, List.mem_cons]
    obtain ⟨h1, h2⟩ := ih (Nat.gcd a p)
    refine ⟨h1.trans (Nat.gcd_dvd_left _ _), ?_⟩
    rintro q (rfl | hq)
    · exact h1.trans (Nat.gcd_dvd_right _ _)
    · exact h2 q hq

theorem gcdList_dvd (ps : List ℕ) (p : ℕ) (h : p ∈ ps) : gcdList ps ∣ p := (foldl_gcd_dvd ps 0).2 p h

theorem dvd_foldl_gcd (ps : List ℕ) (a d : ℕ) (ha : d ∣ a) (h : ∀ p ∈ ps, d ∣ p) :
    d ∣ ps.foldl Nat.gcd a := by
  induction ps generalizing a with
  | nil => simpa
  | cons p ps ih =>
    simp only [List.foldl_cons]
    exact ih _ (Nat.dvd_gcd ha (h p List.mem_cons_self)) fun q hq => h q (List.mem_cons_of_mem _ hq)

theorem dvd_gcdList (ps : List ℕ) (d : ℕ) (h : ∀ p ∈ ps, d ∣ p) : d ∣ gcdList ps :=
  dvd_foldl_gcd ps 0 d (dvd_zero _) h

theorem gcdList_eq_zero (ps : List ℕ) : gcdList ps = 0 ↔ ∀ p ∈ ps, p = 0 := by
  constructor
  · intro h p hp
    have := gcdList_dvd ps p hp
    rw [h] at this
    exact Nat.eq_zero_of_zero_dvd this
  · intro h
    have := dvd_gcdList ps 0 fun p hp => by rw [h p hp]
    exact Nat.eq_zero_of_zero_dvd this

/-- The factor by which the constructor divides the weights. -/
def normFactor (ps : List ℕ) : ℕ := if gcdList ps > 1 then gcdList ps else 1

theorem normFactor_pos (ps : List ℕ) : 0 < normFactor ps := by
  unfold normFactor; split <;> omega

theorem normFactor_dvd (ps : List ℕ) (p : ℕ) (h : p ∈ ps) : normFactor ps ∣ p := by
  unfold normFactor; split
  · exact gcdList_dvd ps p h
  · exact one_dvd _

theorem normalized_true (nz : List (α × ℕ)) :
    normalized nz true = (nz.map (·.1), (nz.map (·.2)).map (· / normFactor (nz.map (·.2)))) := by
  simp only [normalized, if_true, normFactor]
  split
  · rfl
  · simp

/-- The pairs after normalisation. -/
def normPairs (nz : List (α × ℕ)) : List (α × ℕ) :=
  nz.map fun x => (x.1, x.2 / normFactor (nz.map (·.2)))

theorem normalized_zip (nz : List (α × ℕ)) :
    (normalized nz true).1.zip (normalized nz true).2 = normPairs nz := by
  rw [normalized_true]
  simp only [normPairs, List.map_map]
  rw [List.zip_map']
  rfl

theorem normPairs_wsum (nz : List (α × ℕ)) (f : α → ℚ) :
    wsum nz f = (normFactor (nz.map (·.2)) : ℚ) * wsum (normPairs nz) f := by
  simp only [wsum, normPairs, List.map_map, ← List.sum_map_mul_left]
  congr 1
  apply List.map_congr_left
  intro x hx
  have hd := normFactor_dvd (nz.map (·.2)) x.2 (List.mem_map_of_mem (f := (·.2)) hx)
  have hp := normFactor_pos (nz.map (·.2))
  simp only [Function.comp]
  conv_lhs => rw [← Nat.mul_div_cancel' hd]
  push_cast; ring

theorem gcd_normalized (ps : List ℕ) (h : ∃ p ∈ ps, p ≠ 0) :
    gcdList (ps.map (· / normFactor ps)) = 1 := by
  have hg : gcdList ps ≠ 0 := by
    intro h0
    obtain ⟨p, hp, hne⟩ := h
    exact hne ((gcdList_eq_zero ps).1 h0 p hp)
  have hn : normFactor ps = gcdList ps := by
    unfold normFactor; split <;> omega
  set g := gcdList ps with hgdef
  set d := gcdList (ps.map (· / normFactor ps)) with hd
  have h1 : g * d ∣ g := by
    apply dvd_gcdList
    intro p hp
    have h2 : d ∣ p / g := by
      rw [hd, ← hn]; exact gcdList_dvd _ _ (List.mem_map_of_mem (f := (· / normFactor ps)) hp)
    have h3 : g ∣ p := gcdList_dvd ps p hp
    obtain ⟨q, rfl⟩ := h3
    rw [Nat.mul_div_cancel_left _ (Nat.pos_of_ne_zero hg)] at h2
    exact Nat.mul_dvd_mul_left _ h2
  have h4 : g * d ∣ g * 1 := by simpa using h1
  have := Nat.dvd_of_mul_dvd_mul_left (Nat.pos_of_ne_zero hg) h4
  exact Nat.dvd_one.1 this

/-! ## The constructor as a whole -/

/-- The values after the optional truncation. -/
def truncated [LinearOrder α] [PyVal α] (st : Settings) (t : Option Bool) (vals : List α) :
    Except Err (List α) :=
  if t.getD st.rvTrunc then vals.mapM PyVal.trunc else .ok vals

/-- The unnormalised grouped pairs. -/
def core [LinearOrder α] (st : Settings) (vals : List α) (probs : List ℤ) : List (α × ℕ) :=
  newZipped (getZip vals (probs.map Int.toNat)) st.rvIgnoreZeroProbs

variable [LinearOrder α] [PyVal α]

theorem mapM_length {ε β : Type} (f : α → Except ε β) (l : List α) (r : List β) (h : l.mapM f = .ok r) :
    r.length = l.length := by
  induction l generalizing r with
  | nil => simp [List.mapM_nil, pure, Except.pure] at h; subst h; rfl
  | cons x l ih =>
    rw [List.mapM_cons] at h
    cases hx : f x with
    | error e => rw [hx] at h; simp [bind, Except.bind] at h
    | ok y =>
      cases hl : l.mapM f with
      | error e => rw [hx, hl] at h; simp [bind, Except.bind] at h
      | ok ys =>
        rw [hx, hl] at h; simp [bind, Except.bind, pure, Except.pure] at h
        subst h; simp [ih ys hl]

theorem truncated_length (st : Settings) (t : Option Bool) (vals vs : List α)
    (h : truncated st t vals = .ok vs) : vs.length = vals.length := by
  unfold truncated at h
  split at h
  · exact mapM_length _ _ _ h
  · cases h; rfl

/-- The constructor, unfolded. -/
theorem mk'_eq (st : Settings) (vals : List α) (probs : List ℤ) (t : Option Bool) :
    mk' st vals probs t =
      if vals.length ≠ probs.length then .error .assertion
      else match truncated st t vals with
        | .error e => .error e
        | .ok vs =>
          if probs.all (fun p => decide (0 ≤ p)) then
            (if core st vs probs = [] then .ok { vals := [PyVal.zero], probs := [1] }
            else .ok { vals := (core st vs probs).map (·.1), probs := (normPairs (core st vs probs)).map (·.2) })
          else .error .assertion := by
  unfold mk' truncated
  by_cases hl : vals.length = probs.length
  · rw [if_neg (not_not.2 hl), if_neg (not_not.2 hl)]
    have key : ∀ vs : List α, (do
        let __discr ← sortAndGroup vs probs st.rvIgnoreZeroProbs true
        if __discr.1.length = 0 then return ({ vals := [PyVal.zero], probs := [1] } : RV α)
        else return { vals := __discr.1, probs := __discr.2 } : Except Err (RV α)) =
        if probs.all (fun p => decide (0 ≤ p)) then
            (if core st vs probs = [] then .ok { vals := [PyVal.zero], probs := [1] }
            else .ok { vals := (core st vs probs).map (·.1), probs := (normPairs (core st vs probs)).map (·.2) })
          else .error .assertion := by
      intro vs
      unfold sortAndGroup
      split
      · simp only [bind, Except.bind, normalized_true, List.length_map]
        simp only [List.length_eq_zero_iff, normPairs, List.map_map, pure, Except.pure]
        rfl
      · rfl
    by_cases hb : t.getD st.rvTrunc
    · simp only [hb, if_true]
      cases hm : vals.mapM PyVal.trunc with
      | error e => rfl
      | ok vs => exact key vs
    · simp only [hb]
      exact key vals
  · rw [if_pos hl, if_pos hl]; rfl

/-- Inversion of a successful construction. -/
theorem mk'_ok {st : Settings} {vals : List α} {probs : List ℤ} {t : Option Bool} {r : RV α}
    (h : mk' st vals probs t = .ok r) :
    vals.length = probs.length ∧ (∀ p ∈ probs, 0 ≤ p) ∧ ∃ vs, truncated st t vals = .ok vs ∧
      ((core st vs probs = [] ∧ r = { vals := [PyVal.zero], probs := [1] }) ∨
       (core st vs probs ≠ [] ∧
        r = { vals := (core st vs probs).map (·.1), probs := (normPairs (core st vs probs)).map (·.2) })) := by
  rw [mk'_eq] at h
  split at h
  · cases h
  rename_i hl
  have hl : vals.length = probs.length := by simpa using hl
  split at h
  · cases h
  rename_i vs hv
  split at h
  · rename_i hp
    refine ⟨hl, by simpa using hp, vs, hv, ?_⟩
    split at h
    · rename_i hc; cases h; exact Or.inl ⟨hc, rfl⟩
    · rename_i hc; cases h; exact Or.inr ⟨hc, rfl⟩
  · cases h

theorem core_sorted (st : Settings) (vs : List α) (probs : List ℤ) :
    (core st vs probs).Pairwise fun a b => a.1 < b.1 :=
  newZipped_sorted _ _ (getZip_sorted _ _)

theorem core_wsum (st : Settings) (vs : List α) (probs : List ℤ) (f : α → ℚ) :
    wsum (core st vs probs) f = wsum (vs.zip (probs.map Int.toNat)) f := by
  rw [core, newZipped_wsum, wsum_perm (getZip_perm _ _)]

theorem pairs_of_map (l : List (α × ℕ)) :
    ({ vals := l.map (·.1), probs := (normPairs l).map (·.2) } : RV α).pairs = normPairs l := by
  simp only [pairs, normPairs, List.map_map]
  rw [List.zip_map']; rfl

/-- Main fact: with positive input mass, the constructed die is the input up to a scale factor. -/
theorem mk'_wsum {st : Settings} {vals vs : List α} {probs : List ℤ} {t : Option Bool} {r : RV α}
    (h : mk' st vals probs t = .ok r) (hv : truncated st t vals = .ok vs)
    (hm : mass (vs.zip (probs.map Int.toNat)) ≠ 0) :
    ∃ g : ℕ, 0 < g ∧ ∀ f, wsum (vs.zip (probs.map Int.toNat)) f = (g : ℚ) * wsum r.pairs f := by
  obtain ⟨_, _, vs', hv', hr⟩ := mk'_ok h
  rw [hv] at hv'; cases hv'
  rcases hr with ⟨hc, _⟩ | ⟨_, rfl⟩
  · exfalso
    apply hm
    rw [mass, ← core_wsum st, hc]; rfl
  · refine ⟨_, normFactor_pos ((core st vs probs).map (·.2)), fun f => ?_⟩
    rw [pairs_of_map, ← core_wsum st, normPairs_wsum]

theorem mk'_Ex {st : Settings} {vals vs : List α} {probs : List ℤ} {t : Option Bool} {r : RV α}
    (h : mk' st vals probs t = .ok r) (hv : truncated st t vals = .ok vs)
    (hm : mass (vs.zip (probs.map Int.toNat)) ≠ 0) (f : α → ℚ) :
    Ex r.pairs f = Ex (vs.zip (probs.map Int.toNat)) f := by
  obtain ⟨g, hg, h⟩ := mk'_wsum h hv hm
  exact (Ex_of_scale (by positivity) h f).symm

theorem mk'_mass {st : Settings} {vals vs : List α} {probs : List ℤ} {t : Option Bool} {r : RV α}
    (h : mk' st vals probs t = .ok r) (hv : truncated st t vals = .ok vs)
    (hm : mass (vs.zip (probs.map Int.toNat)) ≠ 0) : mass r.pairs ≠ 0 := by
  obtain ⟨g, hg, h⟩ := mk'_wsum h hv hm
  intro h0
  rw [mass] at hm h0
  rw [h, h0] at hm
  simp at hm

end RV
end PythonDice
