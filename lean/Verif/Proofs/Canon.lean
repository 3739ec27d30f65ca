import Verif.Proofs.Ctor

/-! Uniqueness of the canonical form. -/

set_option linter.unusedSectionVars false

namespace PythonDice
open Spec

variable {α : Type}

/-- A die as the constructor leaves it. -/
structure RV.Canonical [LinearOrder α] (r : RV α) : Prop where
  len : r.vals.length = r.probs.length
  sorted : r.vals.Pairwise (· < ·)
  nonempty : r.vals ≠ []
  coprime : (∃ p ∈ r.probs, p ≠ 0) → Coprime r.probs

/-- A die with positive total weight.  (Weights need not be coprime: `_INTERNAL_PROB_LIMIT_VALS` can leave a
common factor.) -/
structure RV.Proper [LinearOrder α] (r : RV α) : Prop where
  len : r.vals.length = r.probs.length
  sorted : r.vals.Pairwise (· < ·)
  nonempty : r.vals ≠ []
  pos : mass r.pairs ≠ 0

theorem RV.Canonical.proper [LinearOrder α] {r : RV α} (h : r.Canonical) (hp : mass r.pairs ≠ 0) : r.Proper :=
  ⟨h.len, h.sorted, h.nonempty, hp⟩

namespace RV

theorem coprime_iff (ps : List ℕ) : Coprime ps ↔ gcdList ps = 1 := by
  constructor
  · intro h; exact h _ (gcdList_dvd ps)
  · intro h d hd
    have := dvd_gcdList ps d hd
    rw [h] at this; exact Nat.dvd_one.1 this

theorem gcdList_map_mul (ps : List ℕ) (a : ℕ) : gcdList (ps.map (a * ·)) = a * gcdList ps := by
  apply Nat.dvd_antisymm
  · by_cases ha : a = 0
    · subst ha; simp [gcdList_eq_zero]
    · have h1 : a ∣ gcdList (ps.map (a * ·)) := by
        apply dvd_gcdList; intro p hp
        obtain ⟨q, _, rfl⟩ := List.mem_map.1 hp
        exact dvd_mul_right _ _
      obtain ⟨k, hk⟩ := h1
      rw [hk]
      apply Nat.mul_dvd_mul_left
      apply dvd_gcdList
      intro p hp
      have : a * k ∣ a * p := hk ▸ gcdList_dvd _ _ (List.mem_map_of_mem (f := (a * ·)) hp)
      exact Nat.dvd_of_mul_dvd_mul_left (Nat.pos_of_ne_zero ha) this
  · apply dvd_gcdList
    intro p hp
    obtain ⟨q, hq, rfl⟩ := List.mem_map.1 hp
    exact Nat.mul_dvd_mul_left _ (gcdList_dvd ps q hq)

variable [LinearOrder α]

theorem sorted_ext {l m : List α} (hl : l.Pairwise (· < ·)) (hm : m.Pairwise (· < ·))
    (h : ∀ v, v ∈ l ↔ v ∈ m) : l = m := by
  have hp : l.Perm m := by
    rw [List.perm_ext_iff_of_nodup (hl.imp ne_of_lt) (hm.imp ne_of_lt)]
    exact h
  exact hp.eq_of_pairwise (fun a b _ _ h1 h2 => absurd h1 (lt_asymm h2)) hl hm

theorem weightOf_eq_wsum (l : List (α × ℕ)) (v : α) :
    (weightOf l v : ℚ) = wsum l fun x => if x = v then 1 else 0 := by
  induction l with
  | nil => simp [weightOf]
  | cons x l ih =>
    rw [wsum_cons, ← ih]
    by_cases h : x.1 = v
    · simp [weightOf, List.filter_cons, h]
    · simp [weightOf, List.filter_cons, h]

theorem wsum_eq_zero_of_notMem (l : List (α × ℕ)) (v : α) (h : v ∉ l.map (·.1)) :
    wsum l (fun x => if x = v then 1 else 0) = 0 := by
  rw [wsum_congr (g := fun _ => 0)]
  · simp [wsum_const]
  · intro x hx _
    rw [if_neg]
    rintro rfl
    exact h (List.mem_map_of_mem (f := (·.1)) hx)

/-- In a list with distinct outcomes the listed weight is the total weight of the outcome. -/
theorem weightOf_of_mem {l : List (α × ℕ)} (hl : (l.map (·.1)).Nodup) {x : α × ℕ} (hx : x ∈ l) :
    weightOf l x.1 = x.2 := by
  induction l with
  | nil => simp at hx
  | cons y l ih =>
    simp only [List.map_cons, List.nodup_cons] at hl
    have hcast : ((weightOf (y :: l) x.1 : ℕ) : ℚ) = (x.2 : ℚ) := by
      rw [weightOf_eq_wsum, wsum_cons]
      rcases List.mem_cons.1 hx with rfl | hx
      · simp [wsum_eq_zero_of_notMem l _ hl.1]
      · have hne : y.1 ≠ x.1 := by
          rintro e; exact hl.1 (e ▸ List.mem_map_of_mem (f := (·.1)) hx)
        rw [← weightOf_eq_wsum, ih hl.2 hx, if_neg hne]; simp
    exact_mod_cast hcast

theorem wsum_of_weightOf {l m : List (α × ℕ)} (h : ∀ v, weightOf l v = weightOf m v) (f : α → ℚ) :
    wsum l f = wsum m f := by
  have key : ∀ (l : List (α × ℕ)) (S : List α), S.Nodup → (∀ x ∈ l, x.1 ∈ S) →
      wsum l f = (S.map fun v => (weightOf l v : ℚ) * f v).sum := by
    intro l S hS hl
    induction l with
    | nil => simp [weightOf]
    | cons x l ih =>
      rw [wsum_cons, ih fun y hy => hl y (List.mem_cons_of_mem _ hy)]
      have hx := hl x List.mem_cons_self
      simp only [weightOf_eq_wsum, wsum_cons, add_mul]
      rw [List.sum_map_add]
      congr 1
      clear ih hl h
      induction S with
      | nil => simp at hx
      | cons s S ih =>
        simp only [List.map_cons, List.sum_cons]
        simp only [List.nodup_cons] at hS
        by_cases hxs : x.1 = s
        · subst hxs
          simp only [if_true, mul_one]
          have : (S.map fun v => (x.2 : ℚ) * (if x.1 = v then 1 else 0) * f v).sum = 0 := by
            apply List.sum_eq_zero
            intro y hy
            obtain ⟨v, hv, rfl⟩ := List.mem_map.1 hy
            rw [if_neg]
            · simp
            · rintro rfl; exact hS.1 hv
          rw [this]; simp
        · rw [if_neg hxs, ← ih hS.2 (by simpa [hxs] using hx)]; simp
  classical
  let S := ((l ++ m).map (·.1)).dedup
  have hS : S.Nodup := List.nodup_dedup _
  rw [key l S hS, key m S hS]
  · simp only [h]
  · intro x hx
    simp only [S, List.mem_dedup, List.map_append, List.mem_append]
    exact Or.inr (List.mem_map_of_mem (f := (·.1)) hx)
  · intro x hx
    simp only [S, List.mem_dedup, List.map_append, List.mem_append]
    exact Or.inl (List.mem_map_of_mem (f := (·.1)) hx)

theorem pairs_map_fst (r : RV α) (h : r.vals.length = r.probs.length) : r.pairs.map (·.1) = r.vals := by
  rw [pairs, List.map_fst_zip]; omega

theorem pairs_map_snd (r : RV α) (h : r.vals.length = r.probs.length) : r.pairs.map (·.2) = r.probs := by
  rw [pairs, List.map_snd_zip]; omega

/-- Two canonical dice with the same outcomes and proportional weights are identical. -/
theorem Canonical.ext' {a b : RV α} (ha : a.Canonical) (hb : b.Canonical)
    (hv : ∀ v, v ∈ a.vals ↔ v ∈ b.vals) {s t : ℕ} (hs : 0 < s) (ht : 0 < t)
    (hw : ∀ f, (s : ℚ) * wsum a.pairs f = (t : ℚ) * wsum b.pairs f) :
    a.vals = b.vals ∧ a.probs = b.probs := by
  have hvals := sorted_ext ha.sorted hb.sorted hv
  refine ⟨hvals, ?_⟩
  have hna : (a.pairs.map (·.1)).Nodup := by
    rw [pairs_map_fst a ha.len]; exact ha.sorted.imp ne_of_lt
  have hnb : (b.pairs.map (·.1)).Nodup := by
    rw [pairs_map_fst b hb.len]; exact hb.sorted.imp ne_of_lt
  have hlen : a.probs.length = b.probs.length := by rw [← ha.len, ← hb.len, hvals]
  have hscaled : a.probs.map (s * ·) = b.probs.map (t * ·) := by
    apply List.ext_getElem
    · simpa using hlen
    · intro i h1 h2
      simp only [List.length_map] at h1 h2
      simp only [List.getElem_map]
      have i1 : i < a.vals.length := by rw [ha.len]; exact h1
      have i2 : i < b.vals.length := by rw [hb.len]; exact h2
      have m1 : (a.vals[i], a.probs[i]) ∈ a.pairs := by
        have : (a.vals.zip a.probs)[i]'(by simp; omega) = (a.vals[i], a.probs[i]) := by simp
        rw [pairs, ← this]; exact List.getElem_mem _
      have m2 : (b.vals[i], b.probs[i]) ∈ b.pairs := by
        have : (b.vals.zip b.probs)[i]'(by simp; omega) = (b.vals[i], b.probs[i]) := by simp
        rw [pairs, ← this]; exact List.getElem_mem _
      have e1 := weightOf_of_mem hna m1
      have e2 := weightOf_of_mem hnb m2
      have hvi : a.vals[i] = b.vals[i] := by simp [hvals]
      simp only [hvi] at e1
      simp only at e2
      have := hw fun x => if x = b.vals[i] then 1 else 0
      rw [← weightOf_eq_wsum, ← weightOf_eq_wsum, e1, e2] at this
      exact_mod_cast this
  have hg : s * gcdList a.probs = t * gcdList b.probs := by
    rw [← gcdList_map_mul, ← gcdList_map_mul, hscaled]
  by_cases h0 : ∃ p ∈ a.probs, p ≠ 0
  · have hb0 : ∃ p ∈ b.probs, p ≠ 0 := by
      by_contra hc
      push Not at hc
      have : gcdList b.probs = 0 := (gcdList_eq_zero _).2 hc
      rw [this, (coprime_iff _).1 (ha.coprime h0)] at hg
      omega
    rw [(coprime_iff _).1 (ha.coprime h0), (coprime_iff _).1 (hb.coprime hb0)] at hg
    have hst : s = t := by omega
    subst hst
    exact List.map_injective_iff.2 (fun x y h => Nat.eq_of_mul_eq_mul_left hs h) hscaled
  · have hb0 : ¬ ∃ p ∈ b.probs, p ≠ 0 := by
      intro hc
      rw [(coprime_iff _).1 (hb.coprime hc)] at hg
      push Not at h0
      rw [(gcdList_eq_zero _).2 h0] at hg
      omega
    push Not at h0 hb0
    rw [List.eq_replicate_of_mem h0, List.eq_replicate_of_mem hb0, hlen]

variable [PyVal α]

theorem mk'_canonical {st : Settings} {vals : List α} {probs : List ℤ} {t : Option Bool} {r : RV α}
    (h : mk' st vals probs t = .ok r) : r.Canonical := by
  obtain ⟨_, _, vs, hv, hr⟩ := mk'_ok h
  rcases hr with ⟨hc, rfl⟩ | ⟨hc, rfl⟩
  · refine ⟨rfl, by simp, by simp, ?_⟩
    intro _ d hd
    exact Nat.dvd_one.1 (hd 1 (by simp))
  · refine ⟨by simp [normPairs], ?_, by simpa using hc, ?_⟩
    · simp only [List.pairwise_map]; exact core_sorted st vs probs
    · rintro ⟨p, hp, hne⟩
      rw [coprime_iff]
      have : (normPairs (core st vs probs)).map (·.2) =
          ((core st vs probs).map (·.2)).map (· / normFactor ((core st vs probs).map (·.2))) := by
        simp [normPairs, List.map_map, Function.comp_def]
      simp only at hp
      rw [this] at hp ⊢
      apply gcd_normalized
      obtain ⟨q, hq, rfl⟩ := List.mem_map.1 hp
      exact ⟨q, hq, by rintro rfl; simp at hne⟩

/-- The outcomes of a constructed die. -/
theorem mk'_mem {st : Settings} {vals vs : List α} {probs : List ℤ} {t : Option Bool} {r : RV α}
    (h : mk' st vals probs t = .ok r) (hv : truncated st t vals = .ok vs)
    (hi : st.rvIgnoreZeroProbs = false) (hne : vals ≠ []) (v : α) : v ∈ r.vals ↔ v ∈ vs := by
  obtain ⟨hl, _, vs', hv', hr⟩ := mk'_ok h
  rw [hv] at hv'; cases hv'
  have hlen := truncated_length st t vals vs hv
  have hmem : v ∈ (core st vs probs).map (·.1) ↔ v ∈ vs := by
    rw [core, hi, ← grouped, grouped_mem, (getZip_perm _ _).map (·.1) |>.mem_iff, List.map_fst_zip]
    simp; omega
  have hcore : core st vs probs ≠ [] := by
    intro hc
    rw [core, hi, ← grouped, grouped_eq_nil] at hc
    have := (getZip_perm vs (probs.map Int.toNat)).length_eq
    rw [hc] at this
    simp at this
    have : vals.length ≠ 0 := by simpa using hne
    omega
  rcases hr with ⟨hc, _⟩ | ⟨_, rfl⟩
  · exact absurd hc hcore
  · exact hmem

theorem mk'_mem_ignore {st : Settings} {vals vs : List α} {probs : List ℤ} {t : Option Bool} {r : RV α}
    (h : mk' st vals probs t = .ok r) (hv : truncated st t vals = .ok vs)
    (hi : st.rvIgnoreZeroProbs = true) (hm : mass (vs.zip (probs.map Int.toNat)) ≠ 0) (v : α) :
    v ∈ r.vals ↔ weightOf (vs.zip (probs.map Int.toNat)) v ≠ 0 := by
  obtain ⟨hl, _, vs', hv', hr⟩ := mk'_ok h
  rw [hv] at hv'; cases hv'
  have hw : weightOf (vs.zip (probs.map Int.toNat)) v = weightOf (core st vs probs) v := by
    have : (weightOf (vs.zip (probs.map Int.toNat)) v : ℚ) = weightOf (core st vs probs) v := by
      rw [weightOf_eq_wsum, weightOf_eq_wsum, core_wsum]
    exact_mod_cast this
  have hcm : v ∈ (core st vs probs).map (·.1) ↔ weightOf (core st vs probs) v ≠ 0 := by
    have hnd : ((core st vs probs).map (·.1)).Nodup := by
      have := core_sorted st vs probs
      have h2 : ((core st vs probs).map (·.1)).Pairwise (· < ·) := by rwa [List.pairwise_map]
      exact h2.imp ne_of_lt
    constructor
    · intro hmem
      obtain ⟨x, hx, rfl⟩ := List.mem_map.1 hmem
      rw [weightOf_of_mem hnd hx]
      rw [core, hi, newZipped_true, List.mem_filter] at hx
      simpa using hx.2
    · intro hne
      by_contra hc
      apply hne
      have := wsum_eq_zero_of_notMem _ _ hc
      rw [← weightOf_eq_wsum] at this
      exact_mod_cast this
  rcases hr with ⟨hc, _⟩ | ⟨_, rfl⟩
  · exfalso; apply hm; rw [mass, ← core_wsum st, hc]; rfl
  · rw [hw]; exact hcm

end RV
end PythonDice
