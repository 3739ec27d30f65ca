import Verif.Proofs.Sound

/-!
# Whether outcomes of weight 0 are dropped

As long as there are none, it does not matter.
-/

namespace PythonDice
open Spec

/-- `RV_IGNORE_ZERO_PROBS` changed. -/
def Settings.setZeros (z : Bool) (st : Settings) : Settings := { st with rvIgnoreZeroProbs := z }

/-- `RV_IGNORE_ZERO_PROBS` changed. -/
def World.setZeros (w : World) (z : Bool) : World := { w with settings := w.settings.setZeros z }

namespace Zeros

variable {st : Settings} {z : Bool}

theorem newZipped {l : List (ℤ × ℕ)} (h : ∀ x ∈ l, 0 < x.2) (b : Bool) : RV.newZipped l b = RV.newZipped l false := by
  cases b with
  | false => rfl
  | true =>
    have key := RV.newZipped_all_pos h false
    have e : RV.newZipped l true = (RV.newZipped l false).filter fun v : ℤ × ℕ => decide (v.2 ≠ 0) := rfl
    rw [e, List.filter_eq_self]
    intro x hx
    exact decide_eq_true (key x hx).ne'

theorem core {vs : List ℤ} {probs : List ℤ} (hp : ∀ p ∈ probs, 0 < p) : RV.core (st.setZeros z) vs probs = RV.core st vs probs := by
  have h : ∀ x ∈ RV.getZip vs (probs.map Int.toNat), 0 < x.2 := by
    intro x hx
    have h1 := (List.of_mem_zip ((RV.getZip_perm _ _).mem_iff.1 hx)).2
    obtain ⟨p, h2, h3⟩ := List.mem_map.1 h1
    have := hp p h2
    omega
  unfold RV.core
  rw [newZipped h, newZipped h st.rvIgnoreZeroProbs]

theorem mk' {vals probs : List ℤ} {t : Option Bool} (hp : ∀ p ∈ probs, 0 < p) : RV.mk' (st.setZeros z) vals probs t = RV.mk' st vals probs t := by
  rw [RV.mk'_eq, RV.mk'_eq]
  simp only [core hp]
  rfl

theorem fromConst {n : ℤ} : RV.fromConst (st.setZeros z) n = RV.fromConst st n :=
  mk' fun p hp => by rw [List.mem_singleton.1 hp]; exact one_pos

theorem fromSeq {l : List ℤ} : RV.fromSeq (st.setZeros z) l = RV.fromSeq st l := by
  unfold RV.fromSeq
  split
  · exact mk' fun p hp => by rw [List.mem_singleton.1 hp]; exact one_pos
  · exact mk' fun p hp => by rw [List.eq_of_mem_replicate hp]; exact one_pos

theorem mapVals {d : RV ℤ} {op : ℤ → Except Err ℤ} (hd : ∀ p ∈ d.probs.map fun p : ℕ => (p : ℤ), 0 < p) :
    RV.mapVals (st.setZeros z) d op = RV.mapVals st d op := by
  unfold RV.mapVals
  simp only [mk' hd]

theorem invert {d : RV ℤ} : RV.invert (st.setZeros z) d = RV.invert st d := by
  unfold RV.invert
  simp only [fromConst]

theorem convolve {d e : RV ℤ} {op : ℤ → ℤ → Except Err ℤ} (hd : ∀ x ∈ d.pairs, 0 < x.2) (he : ∀ x ∈ e.pairs, 0 < x.2) :
    RV.convolveRV (st.setZeros z) d e op = RV.convolveRV st d e op := by
  unfold RV.convolveRV
  rcases hk : RV.fastConvolve d.pairs e.pairs op with er | kv
  · rfl
  · have hp : ∀ p ∈ kv.map fun x => (x.2 : ℤ), 0 < p := by
      intro p hp
      obtain ⟨x, hx, rfl⟩ := List.mem_map.1 hp
      exact_mod_cast SoundDie.fastConvolve_pos hd he hk x hx
    change (RV.mk' _ _ _).bind RV.probLimit = (RV.mk' _ _ _).bind RV.probLimit
    rw [mk' hp]

theorem fromRvs {es : List (RV.Entry ℤ)} {ws : List ℤ} (he : ∀ e ∈ es, SoundEntry true e) (hws : ∀ x ∈ ws, 0 < x) :
    RV.fromRvs (st.setZeros z) es (some ws) = RV.fromRvs st es (some ws) := by
  rw [RV.fromRvs_eq, RV.fromRvs_eq]
  dsimp only
  split
  · rfl
  split
  · rfl
  rw [Option.getD_some]
  rcases h1 : (RV.live es ws).mapM (fun ew => ew.1.contrib ((es.filter fun e => !e.isBlank).map RV.Entry.probSum).prod ew.2) with er | parts
  · rw [h1]
    rfl
  · have hp : ∀ p ∈ parts.flatten.map (·.2), 0 < p := by
      intro p hp
      obtain ⟨x, hx, rfl⟩ := List.mem_map.1 hp
      obtain ⟨l, hl, hxl⟩ := List.mem_flatten.1 hx
      obtain ⟨e, hem, hel⟩ := SoundDie.forall2_right_mem ((RV.mapM_ok_iff _ _ _).1 h1) l hl
      obtain ⟨h4, h5⟩ := SoundDie.live_mem hem
      have hall : ∀ e ∈ es.filter (fun e => !e.isBlank), SoundEntry true e := fun e hm => he e (List.mem_of_mem_filter hm)
      refine SoundDie.contrib_pos (hall _ h4) (List.dvd_prod (List.mem_map_of_mem h4)) ?_ (hws _ h5) hel x hxl
      refine list_prod_pos fun p hp => ?_
      obtain ⟨e', he', rfl⟩ := List.mem_map.1 hp
      exact SoundDie.probSum_pos (hall e' he')
    rw [h1]
    simp only [Except.bind, mk' hp]

theorem Ex_pos {l : List (ℤ × ℕ)} {f : ℤ → ℚ} (hf : ∀ x, 0 ≤ f x) {x : ℤ × ℕ} (hx : x ∈ l) (hw : 0 < x.2) (hp : 0 < f x.1) : 0 < Ex l f := by
  have key : ∀ g : ℤ → ℚ, (∀ x, 0 ≤ g x) → 0 < g x.1 → 0 < wsum l g := by
    intro g hg hp
    clear hf
    induction l with
    | nil => cases hx
    | cons y l ih =>
      rw [wsum_cons]
      have h0 : 0 ≤ wsum l g := by
        clear ih hx
        induction l with
        | nil => exact le_rfl
        | cons y l ih =>
          rw [wsum_cons]
          exact add_nonneg (mul_nonneg (Nat.cast_nonneg _) (hg _)) ih
      rcases List.mem_cons.1 hx with rfl | hx
      · exact add_pos_of_pos_of_nonneg (mul_pos (by exact_mod_cast hw) hp) h0
      · exact add_pos_of_nonneg_of_pos (mul_nonneg (Nat.cast_nonneg _) (hg _)) (ih hx)
  unfold Ex
  exact div_pos (key f hf hp) (key (fun _ => 1) (fun _ => zero_le_one) one_pos)

theorem ExN_pos {l : List (ℤ × ℕ)} {n : ℕ} {f : List ℤ → ℚ} (hf : ∀ xs, 0 ≤ f xs) {x : ℤ × ℕ} (hx : x ∈ l) (hw : 0 < x.2)
    (hp : 0 < f (List.replicate n x.1)) : 0 < ExN n l f := by
  induction n generalizing f with
  | zero => exact hp
  | succ n ih => exact Ex_pos (fun y => ExN_nonneg fun xs => hf _) hx hw (ih (fun xs => hf _) hp)

theorem kthWeight_pos {d : RV ℤ} (hd : GoodDie d) {n i : ℕ} (hi : i < n) : ∀ p ∈ d.vals.map (RV.kthWeight d n (n - i)), 0 < p := by
  have hpr := Enum.GoodDie.proper hd
  intro p hp
  obtain ⟨v, hv, rfl⟩ := List.mem_map.1 hp
  have hm : (0 : ℚ) < mass d.pairs := lt_of_le_of_ne (mass_nonneg _) hpr.pos.symm
  have h : (0 : ℚ) < RV.kthWeight d n (n - i) v := by
    rw [RV.kthWeight_eq d hd.len hm.ne' n i hi 0 v]
    rw [← RV.pairs_map_fst _ hd.len] at hv
    obtain ⟨x, hx, rfl⟩ := List.mem_map.1 hv
    refine mul_pos (ExN_pos (fun xs => ?_) hx (hd.pos _ (List.of_mem_zip hx).2) ?_) (pow_pos hm n)
    · split
      · exact zero_le_one
      · exact le_rfl
    · have h2 : ascending (List.replicate n x.1) = List.replicate n x.1 :=
        List.Pairwise.insertionSort_eq (List.pairwise_replicate.2 (Or.inr le_rfl))
      rw [h2, List.getD_eq_getElem?_getD, List.getElem?_replicate, if_pos hi]
      simp
  exact_mod_cast h

theorem kth {d : RV ℤ} (hd : GoodDie d) {n : ℕ} {k : ℤ} : RV.kthOrderStatistic (st.setZeros z) d n k = RV.kthOrderStatistic st d n k := by
  have hnz : ∀ p ∈ d.probs, p ≠ 0 := fun p hp => (hd.pos p hp).ne'
  rw [RV.kthOrder_eq (fun _ _ => rfl) hd.len hd.sorted hd.nonempty (fun _ => hnz) hd.coprime,
    RV.kthOrder_eq (fun _ _ => rfl) hd.len hd.sorted hd.nonempty (fun _ => hnz) hd.coprime]
  have e : RV.ascRank (st.setZeros z) n k = RV.ascRank st n k := rfl
  rw [e]
  dsimp only
  split
  · rfl
  · rename_i hk
    have hp : ∀ p ∈ d.vals.map (RV.kthWeight d n (n - (RV.ascRank st n k).toNat + 1)), 0 < p := by
      have h1 := kthWeight_pos hd (n := n) (i := (RV.ascRank st n k).toNat - 1) (by omega)
      have e : n - ((RV.ascRank st n k).toNat - 1) = n - (RV.ascRank st n k).toNat + 1 := by omega
      rw [e] at h1
      exact h1
    rw [mk' hp]

theorem setSetting (n : List Char) (v : PyAny) (w : World) (z : Bool) :
    ∃ z', PythonDice.setSetting n v (w.setZeros z) = ((PythonDice.setSetting n v w).1, (PythonDice.setSetting n v w).2.setZeros z') := by
  unfold PythonDice.setSetting
  split
  · exact ⟨z, rfl⟩
  · rename_i v' _
    have key : ∀ st : Settings, (storeSetting st n v' = none ∧ ∀ z, storeSetting (st.setZeros z) n v' = none) ∨
        ∃ s, storeSetting st n v' = some s ∧ ∀ z, ∃ z', storeSetting (st.setZeros z) n v' = some (s.setZeros z') := by
      intro st
      have many : ∀ {α : Type} (o : Option α) (f : Settings → α → Settings), (∀ x z, ∃ z', f (st.setZeros z) x = (f st x).setZeros z') →
          (o.map (f st) = none ∧ ∀ z, o.map (f (st.setZeros z)) = none) ∨
          ∃ s, o.map (f st) = some s ∧ ∀ z, ∃ z', o.map (f (st.setZeros z)) = some (s.setZeros z') := by
        intro α o f hf
        cases o with
        | none => exact .inl ⟨rfl, fun _ => rfl⟩
        | some x =>
          refine .inr ⟨f st x, rfl, fun z => ?_⟩
          obtain ⟨z', e⟩ := hf x z
          exact ⟨z', by rw [Option.map_some, e]⟩
      unfold storeSetting
      split
      · exact many _ (fun s o => { s with positionOrder := o }) fun x z => ⟨z, rfl⟩
      split
      · exact many _ (fun s n => { s with explodeDepth := n }) fun x z => ⟨z, rfl⟩
      split
      · exact many _ (fun s n => { s with maxFuncDepth := n }) fun x z => ⟨z, rfl⟩
      split
      · exact many _ (fun s b => { s with rvTrunc := b }) fun x z => ⟨z, rfl⟩
      split
      · exact many _ (fun s b => { s with rvIgnoreZeroProbs := b }) fun x z => ⟨x, rfl⟩
      split
      · exact many _ (fun s n => { s with defaultOutputWidth := n }) fun x z => ⟨z, rfl⟩
      · exact .inl ⟨rfl, fun _ => rfl⟩
    rcases key w.settings with ⟨h1, h2⟩ | ⟨s, h1, h2⟩
    · refine ⟨z, ?_⟩
      have := h2 z
      change (match storeSetting (w.settings.setZeros z) n v' with
        | some s => (Except.ok (), { w.setZeros z with settings := s })
        | none => (Except.error Err.unmodelled, w.setZeros z)) = _
      rw [h1, h2 z]
    · obtain ⟨z', h3⟩ := h2 z
      refine ⟨z', ?_⟩
      change (match storeSetting (w.settings.setZeros z) n v' with
        | some s => (Except.ok (), { w.setZeros z with settings := s })
        | none => (Except.error Err.unmodelled, w.setZeros z)) = _
      rw [h1, h3]
      rfl

end Zeros
end PythonDice
