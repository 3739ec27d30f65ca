import Verif.Proofs.Conv
import Mathlib.Tactic.NormNum

/-!
# C01–C04: the constructor

The input of `RV(vals, probs)` is the weighted list `vals.zip probs`.
-/

namespace PythonDice
open Spec

variable {α : Type} [LinearOrder α] [PyVal α]

/-- The values the constructor works with: `vals`, or their truncations when truncation is on
(`truncate=True`, or `truncate=None` and the `RV_TRUNC` setting). -/
inductive TruncOf (st : Settings) (t : Option Bool) (vals : List α) : List α → Prop
  | off (h : t = some false ∨ (t = none ∧ st.rvTrunc = false)) : TruncOf st t vals vals
  | on (h : t = some true ∨ (t = none ∧ st.rvTrunc = true)) (vs : List α)
      (hv : List.Forall₂ (fun v w => PyVal.trunc v = Except.ok w) vals vs) : TruncOf st t vals vs

theorem truncOf_iff (st : Settings) (t : Option Bool) (vals vs : List α) :
    TruncOf st t vals vs ↔ RV.truncated st t vals = .ok vs := by
  unfold RV.truncated
  constructor
  · intro h
    cases h with
    | off h => rcases h with rfl | ⟨rfl, h⟩ <;> simp [*]
    | on h _ hv => rw [if_pos (by rcases h with rfl | ⟨rfl, h⟩ <;> simp [*]), RV.mapM_ok_iff]; exact hv
  · intro h
    split at h
    · rename_i hb
      refine .on ?_ _ ((RV.mapM_ok_iff _ _ _).1 h)
      cases t with
      | none => exact Or.inr ⟨rfl, hb⟩
      | some b => simp at hb; exact Or.inl (by rw [hb])
    · rename_i hb
      cases h
      refine .off ?_
      cases t with
      | none => exact Or.inr ⟨rfl, by simpa using hb⟩
      | some b => simp at hb; exact Or.inl (by rw [hb])

/-- C01. Whatever `RV(...)` returns is canonical: as many weights as outcomes, outcomes strictly
increasing, at least one outcome, coprime weights unless all are zero; and with
RV_IGNORE_ZERO_PROBS, no zero weights. -/
theorem C01_constructor_canonical (st : Settings) (vals : List α) (probs : List ℤ) (t : Option Bool)
    (r : RV α) (h : RV.mk' st vals probs t = .ok r) :
    r.vals.length = r.probs.length ∧ r.vals.Pairwise (· < ·) ∧ r.vals ≠ [] ∧
      ((∃ p ∈ r.probs, p ≠ 0) → Coprime r.probs) ∧
      (st.rvIgnoreZeroProbs = true → ∀ p ∈ r.probs, p ≠ 0) := by
  have hc := RV.mk'_canonical h
  refine ⟨hc.len, hc.sorted, hc.nonempty, hc.coprime, ?_⟩
  intro hi p hp
  obtain ⟨hl, _, vs, hv, hr⟩ := RV.mk'_ok h
  rcases hr with ⟨_, rfl⟩ | ⟨_, rfl⟩
  · simp at hp; omega
  · simp only [RV.normPairs, List.map_map, List.mem_map] at hp
    obtain ⟨x, hx, rfl⟩ := hp
    have hd := RV.normFactor_dvd ((RV.core st vs probs).map (·.2)) x.2 (List.mem_map_of_mem (f := (·.2)) hx)
    have hx0 : x.2 ≠ 0 := by
      rw [RV.core, hi, RV.newZipped_true, List.mem_filter] at hx
      simpa using hx.2
    have hpos := RV.normFactor_pos ((RV.core st vs probs).map (·.2))
    exact (Nat.div_pos (Nat.le_of_dvd (Nat.pos_of_ne_zero hx0) hd) hpos).ne'

example : RV.mk' {} ([3, 1, 3, 2] : List ℤ) [2, 4, 2, 0] = .ok { vals := [1, 2, 3], probs := [1, 0, 1] } := by
  decide +kernel

/-- C02. The law of the constructed die is the law of the input list: every expectation agrees. -/
theorem C02_constructor_preserves_law (st : Settings) (vals vs : List α) (probs : List ℤ)
    (t : Option Bool) (r : RV α) (h : RV.mk' st vals probs t = .ok r) (hv : TruncOf st t vals vs)
    (hm : ∃ x ∈ vs.zip probs, 0 < x.2) (f : α → ℚ) :
    Ex r.pairs f = Ex (vs.zip (probs.map Int.toNat)) f := by
  refine RV.mk'_Ex h ((truncOf_iff _ _ _ _).1 hv) ?_ f
  rw [mass_ne_zero_iff]
  obtain ⟨x, hx, hpos⟩ := hm
  refine ⟨(x.1, x.2.toNat), ?_, by simp; omega⟩
  rw [List.zip_map_right]
  exact List.mem_map_of_mem (f := Prod.map id Int.toNat) hx

/-- C02, pointwise form: the probability of `v` is the weight listed for `v` over the total. -/
theorem C02_constructor_probability (st : Settings) (vals vs : List α) (probs : List ℤ)
    (t : Option Bool) (r : RV α) (h : RV.mk' st vals probs t = .ok r) (hv : TruncOf st t vals vs)
    (hm : ∃ x ∈ vs.zip probs, 0 < x.2) (v : α) :
    (weightOf r.pairs v : ℚ) / (r.probs.sum : ℕ) =
      (weightOf (vs.zip (probs.map Int.toNat)) v : ℚ) / ((probs.map Int.toNat).sum : ℕ) := by
  have hE := C02_constructor_preserves_law st vals vs probs t r h hv hm fun x => if x = v then 1 else 0
  have hc := RV.mk'_canonical h
  have hl := (RV.mk'_ok h).1
  have hl2 := RV.truncated_length _ _ _ _ ((truncOf_iff _ _ _ _).1 hv)
  simp only [Ex, ← RV.weightOf_eq_wsum, mass_eq_sum] at hE
  rw [RV.pairs_map_snd r hc.len, List.map_snd_zip (by simp; omega)] at hE
  exact hE

/-- C02, support: with RV_IGNORE_ZERO_PROBS off exactly the listed values are outcomes, zero-weight
ones included; with it on, exactly those with positive weight. -/
theorem C02_constructor_support (st : Settings) (vals vs : List α) (probs : List ℤ)
    (t : Option Bool) (r : RV α) (h : RV.mk' st vals probs t = .ok r) (hv : TruncOf st t vals vs) :
    (st.rvIgnoreZeroProbs = false → vals ≠ [] → ∀ v, v ∈ r.vals ↔ v ∈ vs) ∧
    (st.rvIgnoreZeroProbs = true → (∃ x ∈ vs.zip probs, 0 < x.2) →
      ∀ v, v ∈ r.vals ↔ 0 < weightOf (vs.zip (probs.map Int.toNat)) v) ∧
    (st.rvIgnoreZeroProbs = true → (¬ ∃ x ∈ vs.zip probs, 0 < x.2) → r.vals = [PyVal.zero] ∧ r.probs = [1]) ∧
    (vals = [] → r.vals = [PyVal.zero] ∧ r.probs = [1]) := by
  have hv' := (truncOf_iff _ _ _ _).1 hv
  have hlen := RV.truncated_length _ _ _ _ hv'
  have hmass : (∃ x ∈ vs.zip probs, 0 < x.2) ↔ mass (vs.zip (probs.map Int.toNat)) ≠ 0 := by
    rw [mass_ne_zero_iff, List.zip_map_right]
    simp only [List.mem_map]
    constructor
    · rintro ⟨x, hx, hp⟩; exact ⟨_, ⟨x, hx, rfl⟩, by simp [Prod.map]; omega⟩
    · rintro ⟨_, ⟨x, hx, rfl⟩, hp⟩; exact ⟨x, hx, by simp [Prod.map] at hp; omega⟩
  obtain ⟨hl, hnn, vs', hv'', hr⟩ := RV.mk'_ok h
  rw [hv'] at hv''; cases hv''
  refine ⟨fun hi hne v => RV.mk'_mem h hv' hi hne v, ?_, ?_, ?_⟩
  · intro hi hm v
    rw [RV.mk'_mem_ignore h hv' hi (hmass.1 hm), Nat.pos_iff_ne_zero]
  · intro hi hm
    rw [hmass, not_not] at hm
    rcases hr with ⟨_, rfl⟩ | ⟨hc, _⟩
    · exact ⟨rfl, rfl⟩
    · exfalso
      obtain ⟨x, hx⟩ := List.exists_mem_of_ne_nil _ hc
      have : mass (RV.core st vs probs) ≠ 0 := by
        rw [mass_ne_zero_iff]
        refine ⟨x, hx, ?_⟩
        rw [RV.core, hi, RV.newZipped_true, List.mem_filter] at hx
        simpa using hx.2
      rw [mass, RV.core_wsum] at this
      exact this hm
  · rintro rfl
    have : vs = [] := by simpa using hlen
    subst this
    have hc : RV.core st ([] : List α) probs = [] := by
      simp only [RV.core, RV.getZip, List.zip_nil_left, List.insertionSort_nil, RV.newZipped]
      cases st.rvIgnoreZeroProbs <;> simp
    rcases hr with ⟨_, rfl⟩ | ⟨hc', _⟩
    · exact ⟨rfl, rfl⟩
    · exact absurd hc hc'

example : RV.mk' { rvTrunc := true } ([3/2, 1, -3/2] : List ℚ) [1, 2, 3] =
    .ok { vals := [-1, 1], probs := [1, 1] } := by decide +kernel

/-- Common form of C03: inputs that list the same values, with weights proportional value by value,
give the same die. -/
theorem ctor_ext (st : Settings) (vals vals' vs vs' : List α) (probs probs' : List ℤ)
    (t : Option Bool) (r r' : RV α) (h : RV.mk' st vals probs t = .ok r)
    (h' : RV.mk' st vals' probs' t = .ok r')
    (hv : RV.truncated st t vals = .ok vs) (hv' : RV.truncated st t vals' = .ok vs')
    (hs : ∀ v, v ∈ vs ↔ v ∈ vs') (a b : ℕ) (ha : 0 < a) (hb : 0 < b)
    (hw : ∀ f, (a : ℚ) * wsum (vs.zip (probs.map Int.toNat)) f = b * wsum (vs'.zip (probs'.map Int.toNat)) f) :
    r = r' := by
  obtain ⟨hl, hnn, w, hw1, hr⟩ := RV.mk'_ok h
  rw [hv] at hw1; cases hw1
  obtain ⟨hl', hnn', w', hw2, hr'⟩ := RV.mk'_ok h'
  rw [hv'] at hw2; cases hw2
  have haq : (a : ℚ) ≠ 0 := by positivity
  have hbq : (b : ℚ) ≠ 0 := by positivity
  have hlen := RV.truncated_length _ _ _ _ hv
  have hlen' := RV.truncated_length _ _ _ _ hv'
  have hmass : mass (vs.zip (probs.map Int.toNat)) ≠ 0 ↔ mass (vs'.zip (probs'.map Int.toNat)) ≠ 0 := by
    have := hw fun _ => 1
    simp only [mass] at *
    constructor
    · intro h1 h2; rw [h2, mul_zero] at this; exact h1 ((mul_eq_zero.1 this).resolve_left haq)
    · intro h1 h2; rw [h2, mul_zero] at this; exact h1 ((mul_eq_zero.1 this.symm).resolve_left hbq)
  -- both sides are empty or neither
  have hcore : ∀ v, v ∈ (RV.core st vs probs).map (·.1) ↔ v ∈ (RV.core st vs' probs').map (·.1) := by
    intro v
    cases hi : st.rvIgnoreZeroProbs with
    | false =>
      rw [RV.core, RV.core, hi]
      change v ∈ (RV.grouped _).map _ ↔ v ∈ (RV.grouped _).map _
      rw [RV.grouped_mem, RV.grouped_mem, (RV.getZip_perm _ _).map (·.1) |>.mem_iff,
        (RV.getZip_perm _ _).map (·.1) |>.mem_iff, List.map_fst_zip (by simp; omega),
        List.map_fst_zip (by simp; omega)]
      exact hs v
    | true =>
      have key : ∀ (ws : List α) (ps : List ℤ), v ∈ (RV.core st ws ps).map (·.1) ↔
          weightOf (ws.zip (ps.map Int.toNat)) v ≠ 0 := by
        intro ws ps
        have hnd : ((RV.core st ws ps).map (·.1)).Nodup := by
          have h2 : ((RV.core st ws ps).map (·.1)).Pairwise (· < ·) := by
            rw [List.pairwise_map]; exact RV.core_sorted st ws ps
          exact h2.imp ne_of_lt
        have hwt : weightOf (ws.zip (ps.map Int.toNat)) v = weightOf (RV.core st ws ps) v := by
          have : (weightOf (ws.zip (ps.map Int.toNat)) v : ℚ) = weightOf (RV.core st ws ps) v := by
            rw [RV.weightOf_eq_wsum, RV.weightOf_eq_wsum, RV.core_wsum]
          exact_mod_cast this
        rw [hwt]
        constructor
        · intro hmem
          obtain ⟨x, hx, rfl⟩ := List.mem_map.1 hmem
          rw [RV.weightOf_of_mem hnd hx]
          rw [RV.core, hi, RV.newZipped_true, List.mem_filter] at hx
          simpa using hx.2
        · intro hne
          by_contra hc
          apply hne
          have := RV.wsum_eq_zero_of_notMem _ _ hc
          rw [← RV.weightOf_eq_wsum] at this
          exact_mod_cast this
      rw [key, key]
      have := hw fun x => if x = v then 1 else 0
      rw [← RV.weightOf_eq_wsum, ← RV.weightOf_eq_wsum] at this
      have hnat : a * weightOf (vs.zip (probs.map Int.toNat)) v =
          b * weightOf (vs'.zip (probs'.map Int.toNat)) v := by exact_mod_cast this
      constructor
      · intro h1 h2; rw [h2] at hnat; simp at hnat; omega
      · intro h1 h2; rw [h2] at hnat; simp at hnat; omega
  have hnil : RV.core st vs probs = [] ↔ RV.core st vs' probs' = [] := by
    constructor
    · intro h0
      by_contra hne
      obtain ⟨x, hx⟩ := List.exists_mem_of_ne_nil _ hne
      have := (hcore x.1).2 (List.mem_map_of_mem (f := (·.1)) hx)
      rw [h0] at this; simp at this
    · intro h0
      by_contra hne
      obtain ⟨x, hx⟩ := List.exists_mem_of_ne_nil _ hne
      have := (hcore x.1).1 (List.mem_map_of_mem (f := (·.1)) hx)
      rw [h0] at this; simp at this
  rcases hr with ⟨hc, rfl⟩ | ⟨hc, hr⟩
  · rcases hr' with ⟨_, rfl⟩ | ⟨hc', _⟩
    · rfl
    · exact absurd (hnil.1 hc) hc'
  · rcases hr' with ⟨hc', _⟩ | ⟨hc', hr'⟩
    · exact absurd (hnil.2 hc') hc
    · have e : r.vals = r'.vals ∧ r.probs = r'.probs := by
        refine RV.Canonical.ext' (RV.mk'_canonical h) (RV.mk'_canonical h') ?_
          (s := a * RV.normFactor ((RV.core st vs probs).map (·.2)))
          (t := b * RV.normFactor ((RV.core st vs' probs').map (·.2)))
          (Nat.mul_pos ha (RV.normFactor_pos _)) (Nat.mul_pos hb (RV.normFactor_pos _)) ?_
        · rw [hr, hr']; exact hcore
        · intro f
          have := hw f
          rw [hr, hr', RV.pairs_of_map, RV.pairs_of_map]
          rw [← RV.core_wsum st, ← RV.core_wsum st, RV.normPairs_wsum, RV.normPairs_wsum (RV.core st vs' probs')] at this
          push_cast
          linarith
      rw [hr, hr'] at e ⊢
      simp only at e
      rw [e.1, e.2]

/-- C03. The constructor accepts exactly equal-length inputs with non-negative weights
(whenever the outcomes can be truncated, if truncation is on). -/
theorem C03_constructor_accepts (st : Settings) (vals vs : List α) (probs : List ℤ) (t : Option Bool)
    (hv : TruncOf st t vals vs) :
    (∃ r, RV.mk' st vals probs t = .ok r) ↔ vals.length = probs.length ∧ ∀ p ∈ probs, 0 ≤ p := by
  constructor
  · rintro ⟨r, h⟩
    exact ⟨(RV.mk'_ok h).1, (RV.mk'_ok h).2.1⟩
  · rintro ⟨h1, h2⟩
    rw [RV.mk'_eq, if_neg (by simpa using h1), (truncOf_iff _ _ _ _).1 hv]
    simp only
    rw [if_pos (by simpa using h2)]
    split <;> exact ⟨_, rfl⟩

/-- C03. If the inputs list the same values and, value by value, the listed weights are proportional
(`a` times the one = `b` times the other), the dice are identical.  Reordering, splitting weights over
repeated entries and scaling are special cases. -/
theorem C03_constructor_invariance (st : Settings) (vals vals' : List α)
    (probs probs' : List ℤ) (t : Option Bool) (r r' : RV α)
    (ht : t = some false ∨ (t = none ∧ st.rvTrunc = false))
    (h : RV.mk' st vals probs t = .ok r) (h' : RV.mk' st vals' probs' t = .ok r')
    (hs : ∀ v, v ∈ vals ↔ v ∈ vals') (a b : ℕ) (ha : 0 < a) (hb : 0 < b)
    (hw : ∀ v, a * weightOf (vals.zip (probs.map Int.toNat)) v =
      b * weightOf (vals'.zip (probs'.map Int.toNat)) v) : r = r' := by
  have hv := (truncOf_iff st t vals vals).1 (.off ht)
  have hv' := (truncOf_iff st t vals' vals').1 (.off ht)
  refine ctor_ext st vals vals' vals vals' probs probs' t r r' h h' hv hv' hs a b ha hb ?_
  intro f
  let L := (vals.zip (probs.map Int.toNat)).map fun x => (x.1, a * x.2)
  let M := (vals'.zip (probs'.map Int.toNat)).map fun x => (x.1, b * x.2)
  have scale : ∀ (l : List (α × ℕ)) (c : ℕ) (f : α → ℚ), wsum (l.map fun x => (x.1, c * x.2)) f = c * wsum l f := by
    intro l c f
    induction l with
    | nil => simp
    | cons x l ih => simp only [List.map_cons, wsum_cons, ih]; push_cast; ring
  have hLM : ∀ v, weightOf L v = weightOf M v := by
    intro v
    have : (weightOf L v : ℚ) = weightOf M v := by
      rw [RV.weightOf_eq_wsum, RV.weightOf_eq_wsum, scale, scale, ← RV.weightOf_eq_wsum, ← RV.weightOf_eq_wsum]
      exact_mod_cast hw v
    exact_mod_cast this
  have := RV.wsum_of_weightOf hLM f
  rwa [scale, scale] at this

omit [LinearOrder α] [PyVal α] in
theorem mapM_ok_perm {ε β : Type} (f : α → Except ε β) {l l' : List (α × ℤ)} (hp : l.Perm l') {r : List β}
    (h : (l.map (·.1)).mapM f = .ok r) :
    ∃ r', (l'.map (·.1)).mapM f = .ok r' ∧ (r.zip (l.map (·.2))).Perm (r'.zip (l'.map (·.2))) := by
  simp only [RV.mapM_ok_iff] at *
  induction hp generalizing r with
  | nil => exact ⟨[], by simpa using h⟩
  | cons x _ ih =>
    cases h with
    | cons h1 h2 =>
      obtain ⟨r', h3, h4⟩ := ih h2
      exact ⟨_ :: r', .cons h1 h3, by simpa using h4⟩
  | swap x y l =>
    cases h with
    | cons h1 h2 => cases h2 with
      | cons h2 h3 => exact ⟨_ :: _ :: _, .cons h2 (.cons h1 h3), List.Perm.swap _ _ _⟩
  | trans _ _ ih1 ih2 =>
    obtain ⟨r1, h1, p1⟩ := ih1 h
    obtain ⟨r2, h2, p2⟩ := ih2 h1
    exact ⟨r2, h2, p1.trans p2⟩

/-- C03. Permuting the (value, weight) pairs gives the same die, for every truncation mode and every
setting. -/
theorem C03_constructor_perm (st : Settings) (pairs pairs' : List (α × ℤ)) (t : Option Bool) (r : RV α)
    (hp : pairs.Perm pairs')
    (h : RV.mk' st (pairs.map (·.1)) (pairs.map (·.2)) t = .ok r) :
    RV.mk' st (pairs'.map (·.1)) (pairs'.map (·.2)) t = .ok r := by
  obtain ⟨hl, hnn, vs, hv, _⟩ := RV.mk'_ok h
  obtain ⟨vs', hv', hpp⟩ : ∃ vs', RV.truncated st t (pairs'.map (·.1)) = .ok vs' ∧
      (vs.zip (pairs.map (·.2))).Perm (vs'.zip (pairs'.map (·.2))) := by
    unfold RV.truncated at *
    split at hv
    · rename_i hb
      rw [if_pos hb]
      exact mapM_ok_perm _ hp hv
    · rename_i hb
      rw [if_neg hb]
      cases hv
      exact ⟨_, rfl, by simpa [List.zip_map'] using hp⟩
  have hlen := RV.truncated_length _ _ _ _ hv
  have hlen' := RV.truncated_length _ _ _ _ hv'
  obtain ⟨r', h'⟩ := (C03_constructor_accepts st (pairs'.map (·.1)) vs' (pairs'.map (·.2)) t
    ((truncOf_iff _ _ _ _).2 hv')).2 ⟨by simp, fun p hp' => hnn p ((hp.map _).mem_iff.2 hp')⟩
  have hz : ((vs.zip ((pairs.map (·.2)).map Int.toNat))).Perm (vs'.zip ((pairs'.map (·.2)).map Int.toNat)) := by
    have := hpp.map (Prod.map id Int.toNat)
    rwa [← List.zip_map_right, ← List.zip_map_right] at this
  rw [h', ctor_ext st _ _ vs vs' _ _ t r r' h h' hv hv' ?_ 1 1 one_pos one_pos ?_]
  · intro v
    have := (hpp.map (·.1)).mem_iff (a := v)
    rwa [List.map_fst_zip (by simp at *; omega), List.map_fst_zip (by simp at *; omega)] at this
  · intro f; rw [wsum_perm hz]

/-- C03. Multiplying all weights by a positive constant gives the same die. -/
theorem C03_constructor_scale (st : Settings) (vals : List α) (probs : List ℤ) (t : Option Bool) (r : RV α)
    (c : ℤ) (hc : 0 < c) (h : RV.mk' st vals probs t = .ok r) :
    RV.mk' st vals (probs.map (c * ·)) t = .ok r := by
  obtain ⟨hl, hnn, vs, hv, _⟩ := RV.mk'_ok h
  obtain ⟨r', h'⟩ := (C03_constructor_accepts st vals vs (probs.map (c * ·)) t
    ((truncOf_iff _ _ _ _).2 hv)).2 ⟨by simpa using hl, by
      intro p hp
      obtain ⟨q, hq, rfl⟩ := List.mem_map.1 hp
      exact mul_nonneg hc.le (hnn q hq)⟩
  rw [h', ctor_ext st _ _ vs vs _ _ t r r' h h' hv hv (fun _ => Iff.rfl) c.toNat 1 (by omega) one_pos ?_]
  intro f
  rw [List.map_map]
  have : ∀ (ps : List ℤ) (vs : List α), (∀ p ∈ ps, 0 ≤ p) →
      (c.toNat : ℚ) * wsum (vs.zip (ps.map Int.toNat)) f =
      wsum (vs.zip (ps.map (Int.toNat ∘ (c * ·)))) f := by
    intro ps
    induction ps with
    | nil => intro vs _; simp
    | cons p ps ih =>
      intro vs hnn
      cases vs with
      | nil => simp
      | cons v vs =>
        simp only [List.map_cons, List.zip_cons_cons, wsum_cons]
        rw [← ih vs fun q hq => hnn q (List.mem_cons_of_mem _ hq)]
        simp only [Function.comp]
        rw [Int.toNat_mul hc.le (hnn p List.mem_cons_self)]
        push_cast; ring
  rw [this probs vs hnn]; simp

example : RV.mk' {} ([1, 2, 1] : List ℤ) [3, 6, 3] = RV.mk' {} [2, 1] [1, 1] := by decide +kernel

/-- C04, general form: `dices_are_equal` on two constructed dice holds exactly when they list the same
outcomes and give every outcome the same probability. -/
theorem C04_dices_equal_iff (st st1 st2 : Settings) (v1 v2 : List α) (p1 p2 : List ℤ)
    (t1 t2 : Option Bool) (a b : RV α)
    (ha : RV.mk' st1 v1 p1 t1 = .ok a) (hb : RV.mk' st2 v2 p2 t2 = .ok b)
    (hma : ∃ p ∈ a.probs, p ≠ 0) (hmb : ∃ p ∈ b.probs, p ≠ 0) :
    RV.dicesAreEqual st (.rv a) (.rv b) = .ok true ↔
      (∀ v, v ∈ a.vals ↔ v ∈ b.vals) ∧ ∀ v, Pr a.pairs (· = v) = Pr b.pairs (· = v) := by
  have ca := RV.mk'_canonical ha
  have cb := RV.mk'_canonical hb
  have e : RV.dicesAreEqual st (.rv a) (.rv b) = .ok (decide (a.vals = b.vals ∧ a.probs = b.probs)) := rfl
  rw [e]
  simp only [Except.ok.injEq, decide_eq_true_eq]
  constructor
  · rintro ⟨h1, h2⟩
    refine ⟨fun v => by rw [h1], fun v => ?_⟩
    simp only [RV.pairs, h1, h2]
  · rintro ⟨h1, h2⟩
    have hsa : a.probs.sum ≠ 0 := by
      intro h0; obtain ⟨p, hp, hne⟩ := hma; exact hne (List.sum_eq_zero_iff.1 h0 p hp)
    have hsb : b.probs.sum ≠ 0 := by
      intro h0; obtain ⟨p, hp, hne⟩ := hmb; exact hne (List.sum_eq_zero_iff.1 h0 p hp)
    refine RV.Canonical.ext' ca cb h1 (s := b.probs.sum) (t := a.probs.sum) (by omega) (by omega) ?_
    have hnat : ∀ v, b.probs.sum * weightOf a.pairs v = a.probs.sum * weightOf b.pairs v := by
      intro v
      have := h2 v
      simp only [Pr, Ex, ← RV.weightOf_eq_wsum, mass_eq_sum, RV.pairs_map_snd a ca.len, RV.pairs_map_snd b cb.len] at this
      rw [div_eq_div_iff (by exact_mod_cast hsa) (by exact_mod_cast hsb)] at this
      have : weightOf a.pairs v * b.probs.sum = weightOf b.pairs v * a.probs.sum := by exact_mod_cast this
      linarith
    have scale : ∀ (l : List (α × ℕ)) (c : ℕ) (f : α → ℚ), wsum (l.map fun x => (x.1, c * x.2)) f = c * wsum l f := by
      intro l c f
      induction l with
      | nil => simp
      | cons x l ih => simp only [List.map_cons, wsum_cons, ih]; push_cast; ring
    intro f
    rw [← scale, ← scale]
    apply RV.wsum_of_weightOf
    intro v
    have : ((weightOf (a.pairs.map fun x => (x.1, b.probs.sum * x.2)) v : ℕ) : ℚ) =
        weightOf (b.pairs.map fun x => (x.1, a.probs.sum * x.2)) v := by
      rw [RV.weightOf_eq_wsum, RV.weightOf_eq_wsum, scale, scale, ← RV.weightOf_eq_wsum, ← RV.weightOf_eq_wsum]
      exact_mod_cast hnat v
    exact_mod_cast this

/-- C04. For dice constructed with RV_IGNORE_ZERO_PROBS on, `dices_are_equal` is exactly equality of
distributions. -/
theorem C04_dices_equal_iff_law (st st1 st2 : Settings) (v1 v2 : List α) (p1 p2 : List ℤ)
    (t1 t2 : Option Bool) (a b : RV α)
    (ha : RV.mk' st1 v1 p1 t1 = .ok a) (hb : RV.mk' st2 v2 p2 t2 = .ok b)
    (h1 : st1.rvIgnoreZeroProbs = true) (h2 : st2.rvIgnoreZeroProbs = true) :
    RV.dicesAreEqual st (.rv a) (.rv b) = .ok true ↔ ∀ v, Pr a.pairs (· = v) = Pr b.pairs (· = v) := by
  obtain ⟨la, sa, na, -, za⟩ := C01_constructor_canonical st1 v1 p1 t1 a ha
  obtain ⟨lb, sb, nb, -, zb⟩ := C01_constructor_canonical st2 v2 p2 t2 b hb
  have ne : ∀ {r : RV α}, r.vals.length = r.probs.length → r.vals ≠ [] → (∀ p ∈ r.probs, p ≠ 0) →
      ∃ p ∈ r.probs, p ≠ 0 := by
    intro r hl hn hz
    have : r.probs ≠ [] := by
      intro h0; rw [h0] at hl; simp at hl; exact hn hl
    obtain ⟨p, hp⟩ := List.exists_mem_of_ne_nil _ this
    exact ⟨p, hp, hz p hp⟩
  rw [C04_dices_equal_iff st st1 st2 v1 v2 p1 p2 t1 t2 a b ha hb (ne la na (za h1)) (ne lb nb (zb h2))]
  refine ⟨fun h => h.2, fun h => ⟨?_, h⟩⟩
  have mem : ∀ {r : RV α}, r.vals.length = r.probs.length → r.vals.Pairwise (· < ·) → r.vals ≠ [] →
      (∀ p ∈ r.probs, p ≠ 0) → ∀ v, v ∈ r.vals ↔ Pr r.pairs (· = v) ≠ 0 := by
    intro r hl hs hn hz v
    have hm : mass r.pairs ≠ 0 := by
      rw [mass_eq_sum, RV.pairs_map_snd r hl]
      obtain ⟨p, hp, hne⟩ := ne hl hn hz
      intro h0
      exact hne (List.sum_eq_zero_iff.1 (by exact_mod_cast h0) p hp)
    have hnd : (r.pairs.map (·.1)).Nodup := by rw [RV.pairs_map_fst r hl]; exact hs.imp ne_of_lt
    rw [Pr, Ex, ← RV.weightOf_eq_wsum, Ne, div_eq_zero_iff, not_or]
    constructor
    · intro hv
      rw [← RV.pairs_map_fst r hl] at hv
      obtain ⟨x, hx, rfl⟩ := List.mem_map.1 hv
      rw [RV.weightOf_of_mem hnd hx]
      refine ⟨?_, hm⟩
      have := hz x.2 (by rw [← RV.pairs_map_snd r hl]; exact List.mem_map_of_mem (f := (·.2)) hx)
      exact_mod_cast this
    · rintro ⟨h0, -⟩
      by_contra hc
      rw [← RV.pairs_map_fst r hl] at hc
      rw [RV.weightOf_eq_wsum, RV.wsum_eq_zero_of_notMem _ _ hc] at h0
      exact h0 rfl
  intro v
  rw [mem la sa na (za h1), mem lb sb nb (zb h2), h v]

/-- C04. Numbers and sequences are compared as the dice they denote, blanks only equal blanks. -/
theorem C04_dices_equal_args (st : Settings) (s : List α) (v : α) (r : RV α) :
    RV.dicesAreEqual st (.blank : RV.DieArg α) .blank = .ok true ∧
    RV.dicesAreEqual st .blank (.rv r) = .ok false ∧
    RV.dicesAreEqual st (.rv r) .blank = .ok false ∧
    RV.dicesAreEqual st .blank (.num v) = .ok false ∧
    (∀ d, RV.fromSeq st s = .ok d → RV.dicesAreEqual st (.seq s) (.rv r) = RV.dicesAreEqual st (.rv d) (.rv r) ∧
      RV.dicesAreEqual st (.rv r) (.seq s) = RV.dicesAreEqual st (.rv r) (.rv d)) ∧
    RV.dicesAreEqual st (.num v) (.rv r) = RV.dicesAreEqual st (.seq [v]) (.rv r) := by
  refine ⟨rfl, rfl, rfl, rfl, ?_, rfl⟩
  intro d hd
  simp only [RV.dicesAreEqual, RV.DieArg.toRV, hd]
  exact ⟨rfl, rfl⟩

example : RV.dicesAreEqual {} (.num (1 : ℤ)) (.rv { vals := [1], probs := [1] }) = .ok true := by
  decide +kernel

/-- Without RV_IGNORE_ZERO_PROBS equality of laws is not enough (hence the first form of C04). -/
example : RV.dicesAreEqual {} (.rv { vals := [(1 : ℤ), 2], probs := [1, 0] })
    (.rv { vals := [1], probs := [1] }) = .ok false := by decide +kernel

end PythonDice
