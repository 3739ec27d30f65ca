import Verif.Model.Rounding
import Verif.Spec.Rounding
import Verif.Proofs.Double
import Verif.Props.Roll

/-! Rounding dice: lemmas for outcomes of any type, and about rounded quotients. -/

namespace PythonDice
open Spec

/-! ## Positive weights stay positive -/

theorem mk'_nz_any {α : Type} [LinearOrder α] [PyVal α] {st : Settings} {vals : List α} {probs : List ℕ} {t : Option Bool} {r : RV α}
    (h : RV.mk' st vals (probs.map fun p : ℕ => (p : ℤ)) t = .ok r) (hz : ∀ p ∈ probs, p ≠ 0) : ∀ p ∈ r.probs, p ≠ 0 := by
  obtain ⟨hl, _, vs, hv, hr⟩ := RV.mk'_ok h
  have e : (probs.map fun p : ℕ => (p : ℤ)).map Int.toNat = probs := by
    rw [List.map_map]
    exact (List.map_congr_left (g := id) fun p _ => by simp).trans (List.map_id _)
  rcases hr with ⟨_, rfl⟩ | ⟨hne, rfl⟩
  · simp
  · intro p hp
    simp only [RV.normPairs, List.map_map, List.mem_map, Function.comp_apply] at hp
    obtain ⟨z, hz', rfl⟩ := hp
    have hs := RV.core_sorted st vs (probs.map fun p : ℕ => (p : ℤ))
    have hnd : ((RV.core st vs (probs.map fun p : ℕ => (p : ℤ))).map (·.1)).Nodup := by
      rw [List.nodup_iff_pairwise_ne, List.pairwise_map]; exact hs.imp ne_of_lt
    have hw := RV.weightOf_of_mem hnd hz'
    have hdvd : RV.normFactor ((RV.core st vs (probs.map fun p : ℕ => (p : ℤ))).map (·.2)) ∣ z.2 :=
      RV.normFactor_dvd _ _ (List.mem_map_of_mem (f := (·.2)) hz')
    have hzne : z.2 ≠ 0 := by
      have hin : z.1 ∈ (vs.zip probs).map (·.1) := by
        have := List.mem_map_of_mem (f := (·.1)) hz'
        unfold RV.core at this
        have h2 : z.1 ∈ (RV.grouped (RV.getZip vs ((probs.map fun p : ℕ => (p : ℤ)).map Int.toNat))).map (·.1) := by
          cases hi : st.rvIgnoreZeroProbs with
          | false => rw [hi] at this; exact this
          | true =>
            rw [hi, RV.newZipped_true] at this
            obtain ⟨y, hy, e⟩ := List.mem_map.1 this
            rw [← e]; exact List.mem_map_of_mem (f := (·.1)) (List.mem_of_mem_filter hy)
        rw [RV.grouped_mem, e, ((RV.getZip_perm vs probs).map (·.1)).mem_iff] at h2
        exact h2
      obtain ⟨x, hx, hxe⟩ := List.mem_map.1 hin
      have hpos : (0 : ℚ) < wsum (vs.zip probs) fun u => if u = z.1 then 1 else 0 :=
        wsum_pos_of_mem (fun _ _ => by split <;> norm_num) hx (hz _ (List.of_mem_zip hx).2) (by rw [if_pos hxe]; norm_num)
      have hcw := RV.core_wsum st vs (probs.map fun p : ℕ => (p : ℤ)) fun u => if u = z.1 then 1 else 0
      rw [e, ← RV.weightOf_eq_wsum, hw] at hcw
      rw [← hcw] at hpos
      intro h0
      rw [h0] at hpos; simp at hpos
    intro h0
    obtain ⟨k, hk⟩ := hdvd
    have hg := RV.normFactor_pos ((RV.core st vs (probs.map fun p : ℕ => (p : ℤ))).map (·.2))
    rw [hk, Nat.mul_div_cancel_left _ hg] at h0
    rw [h0] at hk; simp at hk; exact hzne hk

theorem mk'_src_any {α : Type} [LinearOrder α] [PyVal α] {st : Settings} {vals : List α} {probs : List ℤ} {t : Option Bool} {r : RV α}
    (h : RV.mk' st vals probs t = .ok r) : r.src = none := by
  obtain ⟨_, _, vs, _, hr⟩ := RV.mk'_ok h
  rcases hr with ⟨_, rfl⟩ | ⟨_, rfl⟩ <;> rfl

/-! ## Truncation never fails on numbers -/

theorem truncated_rat (st : Settings) (t : Option Bool) (vals : List ℚ) : ∃ vs, RV.truncated st t vals = .ok vs := by
  unfold RV.truncated
  split
  · exact ⟨_, RV.mapM_eq_map (f := PyVal.trunc) (F := fun v : ℚ => if 0 ≤ v then ((⌊v⌋ : ℤ) : ℚ) else ((⌈v⌉ : ℤ) : ℚ)) fun x _ => by
      simp only [PyVal.trunc]⟩
  · exact ⟨_, rfl⟩

theorem mapVals_succeeds_rat {α : Type} (st : Settings) {a : RV α} {op : α → Except Err ℚ} {F : α → ℚ}
    (hl : a.vals.length = a.probs.length) (h : ∀ x ∈ a.vals, op x = .ok (F x)) : ∃ r, RV.mapVals st a op = .ok r := by
  have e : RV.mapVals st a op = RV.mk' st (a.vals.map F) (a.probs.map fun p : ℕ => (p : ℤ)) := by
    unfold RV.mapVals
    rw [RV.mapM_eq_map h]; rfl
  obtain ⟨vs, hv⟩ := truncated_rat st none (a.vals.map F)
  rw [e, RV.mk'_eq, if_neg (by simpa using hl), hv]
  simp only
  rw [if_pos (by simp)]
  split <;> exact ⟨_, rfl⟩

theorem mapVals_succeeds_int {α : Type} (st : Settings) {a : RV α} {op : α → Except Err ℤ} {F : α → ℤ}
    (hl : a.vals.length = a.probs.length) (h : ∀ x ∈ a.vals, op x = .ok (F x)) : ∃ r, RV.mapVals st a op = .ok r := by
  have e : RV.mapVals st a op = RV.mk' st (a.vals.map F) (a.probs.map fun p : ℕ => (p : ℤ)) := by
    unfold RV.mapVals
    rw [RV.mapM_eq_map h]; rfl
  rw [e, RV.mk'_eq, if_neg (by simpa using hl), RV.truncated_int]
  simp only
  rw [if_pos (by simp)]
  split <;> exact ⟨_, rfl⟩

theorem mapVals_nz_any {α γ : Type} [LinearOrder γ] [PyVal γ] {st : Settings} {a : RV α} {op : α → Except Err γ} {F : α → γ} {r : RV γ}
    (h : ∀ x ∈ a.vals, op x = .ok (F x)) (hr : RV.mapVals st a op = .ok r) (hz : ∀ p ∈ a.probs, p ≠ 0) : ∀ p ∈ r.probs, p ≠ 0 := by
  have e : RV.mapVals st a op = RV.mk' st (a.vals.map F) (a.probs.map fun p : ℕ => (p : ℤ)) := by
    unfold RV.mapVals
    rw [RV.mapM_eq_map h]; rfl
  rw [e] at hr
  exact mk'_nz_any hr hz

/-! ## The integers the code computes are those of the specification -/

theorem isFloor_iff {x : ℚ} {k : ℤ} : IsFloor x k ↔ ⌊x⌋ = k := Int.floor_eq_iff.symm

theorem isCeil_iff {x : ℚ} {k : ℤ} : IsCeil x k ↔ ⌈x⌉ = k := by
  rw [Int.ceil_eq_iff, IsCeil]
  constructor
  · rintro ⟨h1, h2⟩; exact ⟨by linarith, h1⟩
  · rintro ⟨h1, h2⟩; exact ⟨h2, by linarith⟩

theorem isTrunc_iff {x : ℚ} {k : ℤ} : IsTrunc x k ↔ RV.truncQ x = k := by
  unfold IsTrunc RV.truncQ
  rw [isFloor_iff, isCeil_iff]
  rcases lt_trichotomy x 0 with h | h | h
  · rw [if_neg (not_le.2 h)]
    exact ⟨fun H => H.2 h.le, fun H => ⟨fun h' => absurd h (not_lt.2 h'), fun _ => H⟩⟩
  · subst h; simp
  · rw [if_pos h.le]
    exact ⟨fun H => H.1 h.le, fun H => ⟨fun _ => H, fun h' => absurd h (not_lt.2 h')⟩⟩

theorem roundHalfEven_isNearest (x : ℚ) : IsNearest x (roundHalfEven x) := by
  have h1 := Int.floor_le x
  have h2 := Int.lt_floor_add_one x
  refine ⟨by rw [abs_sub_comm]; exact roundHalfEven_error x, ?_⟩
  unfold roundHalfEven
  simp only
  split
  · intro h
    rw [abs_of_nonneg (by linarith)] at h; linarith
  split
  · intro h
    push_cast at h
    rw [abs_of_nonpos (by linarith)] at h; linarith
  split
  · intro _; rw [Int.even_iff]; assumption
  · intro _; rw [Int.even_iff]; omega

theorem isNearest_iff {x : ℚ} {k : ℤ} : IsNearest x k ↔ roundHalfEven x = k := by
  refine ⟨fun ⟨h1, h2⟩ => ?_, fun h => h ▸ roundHalfEven_isNearest x⟩
  obtain ⟨g1, g2⟩ := roundHalfEven_isNearest x
  by_contra hne
  set m := roundHalfEven x
  have hd : (1 : ℚ) ≤ |(m : ℚ) - k| := by
    have : (1 : ℤ) ≤ |m - k| := Int.one_le_abs (sub_ne_zero.2 hne)
    exact_mod_cast this
  have ht : |(m : ℚ) - k| ≤ |x - m| + |x - k| := by
    rw [abs_sub_comm x m]
    have := abs_add_le ((m : ℚ) - x) (x - k)
    simpa using this
  have e1 : |x - m| = 1 / 2 := le_antisymm g1 (by linarith)
  have e2 : |x - k| = 1 / 2 := le_antisymm h1 (by linarith)
  have hk := h2 e2
  have hm := g2 e1
  have h3 : |(m : ℚ) - k| ≤ 1 := by rw [e1, e2] at ht; linarith
  have h4 : |m - k| ≤ 1 := by exact_mod_cast h3
  rw [Int.even_iff] at hk hm
  have : m = k := by rw [abs_le] at h4; omega
  exact hne this

/-! ## The floor of a rounded quotient -/

theorem toDouble_lt {q : ℚ} (h : |q| < RV.floatOverflow) : toDouble q = .ok (dbl q) := if_neg (not_le.2 h)

theorem dbl_int {k : ℤ} (h : |k| < 2 ^ 53) : dbl (k : ℚ) = k :=
  dbl_of_wide ⟨k, 0, h, by norm_num, by simp⟩

set_option exponentiation.threshold 1100 in
/-- A quotient of ints below 2^53 is not rounded past an integer. -/
theorem floor_dbl_div {x y : ℤ} (hx : |x| < 2 ^ 53) (hy : |y| < 2 ^ 53) (hy0 : y ≠ 0) : ⌊dbl ((x : ℚ) / y)⌋ = ⌊(x : ℚ) / y⌋ := by
  set q : ℚ := (x : ℚ) / y with hq
  have hya : (1 : ℤ) ≤ |y| := Int.one_le_abs hy0
  have hyq : (1 : ℚ) ≤ |(y : ℚ)| := by exact_mod_cast hya
  have hqa : |q| = |(x : ℚ)| / |(y : ℚ)| := abs_div _ _
  have hql : |q| ≤ |(x : ℚ)| := by rw [hqa]; exact div_le_self (abs_nonneg _) hyq
  have hxq : |(x : ℚ)| ≤ 2 ^ 53 - 1 := by
    have : |x| ≤ 2 ^ 53 - 1 := by omega
    exact_mod_cast this
  have hfl : |⌊q⌋| < 2 ^ 53 := by
    have h1 := Int.floor_le q
    have h2 := Int.lt_floor_add_one q
    rw [abs_le] at hxq
    have := abs_le.1 (hql.trans (abs_le.2 hxq))
    rw [abs_lt]
    constructor
    · have : (-(2 ^ 53) : ℚ) < ⌊q⌋ := by linarith [this.1]
      exact_mod_cast this
    · have : ((⌊q⌋ : ℤ) : ℚ) < 2 ^ 53 := by linarith [this.2]
      exact_mod_cast this
  rw [Int.floor_eq_iff]
  constructor
  · rw [← dbl_int hfl]; exact dbl_mono (Int.floor_le q)
  · -- the next integer is at least `1 / |y|` away
    have hgap : 1 / |(y : ℚ)| ≤ (⌊q⌋ : ℚ) + 1 - q := by
      have hyy : (y : ℚ) ≠ 0 := by exact_mod_cast hy0
      have hpos : (0 : ℚ) < (⌊q⌋ : ℚ) + 1 - q := by linarith [Int.lt_floor_add_one q]
      have hint : |((⌊q⌋ : ℚ) + 1 - q) * y| = (|(⌊q⌋ + 1) * y - x| : ℤ) := by
        rw [hq, sub_mul, div_mul_cancel₀ _ hyy]; push_cast; rfl
      rw [abs_mul, abs_of_pos hpos] at hint
      have hne : (0 : ℚ) < (|(⌊q⌋ + 1) * y - x| : ℤ) := by rw [← hint]; positivity
      have hone : (1 : ℚ) ≤ (|(⌊q⌋ + 1) * y - x| : ℤ) := by
        have : (0 : ℤ) < |(⌊q⌋ + 1) * y - x| := by exact_mod_cast hne
        exact_mod_cast this
      rw [div_le_iff₀ (by positivity), hint]; exact hone
    have herr := (abs_le.1 (dbl_error q)).2
    have hsmall : |q| / 2 ^ 53 + 1 / 2 ^ 1075 < 1 / |(y : ℚ)| := by
      have h1 : |q| / 2 ^ 53 ≤ 1 / |(y : ℚ)| - 1 / |(y : ℚ)| / 2 ^ 53 := by
        rw [hqa]
        have : |(x : ℚ)| / |(y : ℚ)| ≤ (2 ^ 53 - 1) / |(y : ℚ)| := div_le_div_of_nonneg_right hxq (by positivity)
        have h2 : |(x : ℚ)| / |(y : ℚ)| / 2 ^ 53 ≤ (2 ^ 53 - 1) / |(y : ℚ)| / 2 ^ 53 := div_le_div_of_nonneg_right this (by positivity)
        refine h2.trans (le_of_eq ?_)
        field_simp
      have h3 : (1 : ℚ) / 2 ^ 1075 < 1 / |(y : ℚ)| / 2 ^ 53 := by
        rw [div_div]
        apply one_div_lt_one_div_of_lt (by positivity)
        have : |(y : ℚ)| < 2 ^ 53 := by exact_mod_cast hy
        calc |(y : ℚ)| * 2 ^ 53 < 2 ^ 53 * 2 ^ 53 := by nlinarith
          _ < 2 ^ 1075 := by rw [← pow_add]; exact pow_lt_pow_right₀ (by norm_num) (by norm_num)
      linarith
    linarith

theorem floor_div_fdiv {x y : ℤ} (hy0 : y ≠ 0) : ⌊(x : ℚ) / y⌋ = x.fdiv y := by
  have pos : ∀ x y : ℤ, 0 < y → ⌊(x : ℚ) / y⌋ = x.fdiv y := by
    intro x y h
    rw [Int.fdiv_eq_ediv_of_nonneg _ h.le]
    obtain ⟨d, rfl⟩ := Int.eq_ofNat_of_zero_le h.le
    exact Rat.floor_intCast_div_natCast x d
  rcases lt_or_gt_of_ne hy0 with h | h
  · have : (x : ℚ) / y = ((-x : ℤ) : ℚ) / ((-y : ℤ) : ℚ) := by push_cast; rw [neg_div_neg_eq]
    rw [this, pos _ _ (by omega), Int.neg_fdiv_neg]
  · exact pos x y h

end PythonDice
