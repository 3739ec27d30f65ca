import Verif.Proofs.Compound
import Verif.Spec.Pool

/-!
# Properties of rolling: C09, C10, C11, C12, C48
-/

namespace PythonDice
open Spec

/-! ## C09 -/

theorem roll_num_rv (n : ℤ) (d : RV ℤ) : roll (.num n) (.rv d) = Obj.rv <$> rollInt n d := rfl

/-- C09. In every reachable state: if `roll(n, d)` returns and no reduction warning has been logged, the result is
the law of the sum of `|n|` independent draws of `d`, negated when `n` is negative. -/
theorem C09_roll_law {w w' : World} (hw : Reachable w) (n : ℤ) (d : RV ℤ) (hd : d.Proper) {o : Obj}
    (h : roll (.num n) (.rv d) w = (.ok o, w')) (h0 : w'.warns = 0) :
    ∃ r, o = .rv r ∧ mass r.pairs ≠ 0 ∧
      ∀ f, Ex r.pairs f = ExN n.natAbs d.pairs fun xs => f (n.sign * xs.sum) := by
  rw [roll_num_rv, M.map_ok_iff] at h
  obtain ⟨r, hr, rfl⟩ := h
  have hs := rollInt_spec n d w hw.memoOk
  rw [hr] at hs
  have := hs.law hd r rfl (Or.inl h0)
  exact ⟨r, rfl, this.proper.pos, this.law⟩

/-- C09. `roll(n, d)` always succeeds with the exact law, without a warning, when the total weight of the pool
is within the limit – whatever happened before (even if other dice were reduced). -/
theorem C09_roll_succeeds {w : World} (hw : Reachable w) (n : ℤ) (d : RV ℤ) (hd : d.Proper)
    (hs : d.probs.sum ^ n.natAbs ≤ RV.sumLimit) :
    ∃ r w', roll (.num n) (.rv d) w = (.ok (.rv r), w') ∧ w'.warns = w.warns ∧ w'.settings = w.settings ∧
      mass r.pairs ≠ 0 ∧ ∀ f, Ex r.pairs f = ExN n.natAbs d.pairs fun xs => f (n.sign * xs.sum) := by
  have hsp := rollInt_spec n d w hw.memoOk
  obtain ⟨⟨r, hr⟩, hwn⟩ := hsp.total hd hs
  have := hsp.law hd r hr (Or.inr hs)
  refine ⟨r, (rollInt n d w).2, ?_, hwn, hsp.settings, this.proper.pos, this.law⟩
  rw [roll_num_rv, M.map_ok_iff]
  exact ⟨r, by rw [← hr], rfl⟩

/-- C09. `roll(1, d)` is `d` itself and `roll(0, d)` is the constant 0, in every state. -/
theorem C09_roll_trivial (w : World) (d : RV ℤ) :
    roll (.num 1) (.rv d) w = (.ok (.rv d), w) ∧ roll (.num 0) (.rv d) w = (.ok (.rv ⟨[0], [1], none⟩), w) := by
  refine ⟨rfl, ?_⟩
  rw [roll_num_rv, M.map_ok_iff]
  exact ⟨_, by
    change (RV.fromConst w.settings 0, w) = _
    rw [fromConst_eq], rfl⟩

example : (roll (.num 3) (.rv ⟨[1, 2], [1, 1], none⟩) {}).1 =
    .ok (.rv ⟨[3, 4, 5, 6], [1, 3, 3, 1], some (3, [1, 2], [1, 1])⟩) := by decide +kernel
example : (roll (.num (-2)) (.rv ⟨[1, 2], [1, 1], none⟩) {}).1 =
    .ok (.rv ⟨[-4, -3, -2], [1, 2, 1], none⟩) := by decide +kernel
example : (⟨[1, 2], [1, 1], none⟩ : RV ℤ).Proper := ⟨rfl, by decide, by decide, by norm_num [mass, wsum, RV.pairs]⟩
example : (⟨[1, 2], [1, 1], none⟩ : RV ℤ).probs.sum ^ (100 : ℤ).natAbs ≤ RV.sumLimit := by decide +kernel

/-! ## C10 -/

theorem fromSeq_nodup (st : Settings) (s : List ℤ) (hs : s.Pairwise (· < ·)) (hne : s ≠ []) :
    RV.fromSeq st s = .ok ⟨s, List.replicate s.length 1, none⟩ := by
  unfold RV.fromSeq
  rw [if_neg (by simpa using hne)]
  have h := RV.mk'_sorted (st := st) (vals := s) (probs := List.replicate s.length 1) (fun _ _ => rfl) (by simp) hs hne
    (by intro _ p hp; rw [List.eq_of_mem_replicate hp]; decide)
  have hc : Coprime (List.replicate s.length 1) := by
    intro d hd
    exact Nat.dvd_one.1 (hd 1 (by simpa using hne))
  rw [RV.normFactor_of_coprime hc] at h
  simpa using h

/-- C10. `roll(m)` for `m > 0`: uniform on `1, …, m`. -/
theorem C10_roll_sides_pos (w : World) (m : ℕ) (hm : 0 < m) :
    roll1 (.num m) w = (.ok (.rv ⟨(List.range m).map fun i : ℕ => (i : ℤ) + 1, List.replicate m 1, none⟩), w) := by
  have e : pyRange 1 ((m : ℤ) + 1) = (List.range m).map fun i : ℕ => (i : ℤ) + 1 := by
    unfold pyRange
    have : ((m : ℤ) + 1 - 1).toNat = m := by omega
    rw [this]
    apply List.map_congr_left; intro i _; omega
  have hs : ((List.range m).map fun i : ℕ => (i : ℤ) + 1).Pairwise (· < ·) := by
    rw [List.pairwise_map]
    exact List.pairwise_lt_range.imp (by intro a b h; omega)
  have hf := fromSeq_nodup w.settings _ hs (by simp; omega)
  rw [List.length_map, List.length_range] at hf
  have ha : asDie (.num m) w = (.ok (some ⟨(List.range m).map fun i : ℕ => (i : ℤ) + 1, List.replicate m 1, none⟩), w) := by
    unfold asDie
    simp only
    rw [if_pos (by omega), e, M.map_ok_iff]
    exact ⟨_, by change (RV.fromSeq w.settings _, w) = _; rw [hf], rfl⟩
  change (asDie (.num m) >>= _) w = _
  rw [M.bind_ok ha]
  rfl

/-- C10. `roll(-m)` for `m > 0`: uniform on `-m, …, -1`. -/
theorem C10_roll_sides_neg (w : World) (m : ℕ) (hm : 0 < m) :
    roll1 (.num (-m)) w = (.ok (.rv ⟨(List.range m).map fun i : ℕ => -(m : ℤ) + i, List.replicate m 1, none⟩), w) := by
  have e : pyRange (-(m : ℤ)) 0 = (List.range m).map fun i : ℕ => -(m : ℤ) + i := by
    unfold pyRange
    have : (0 - -(m : ℤ)).toNat = m := by omega
    rw [this]
  have hs : ((List.range m).map fun i : ℕ => -(m : ℤ) + i).Pairwise (· < ·) := by
    rw [List.pairwise_map]
    exact List.pairwise_lt_range.imp (by intro a b h; omega)
  have hf := fromSeq_nodup w.settings _ hs (by simp; omega)
  rw [List.length_map, List.length_range] at hf
  have ha : asDie (.num (-m)) w = (.ok (some ⟨(List.range m).map fun i : ℕ => -(m : ℤ) + i, List.replicate m 1, none⟩), w) := by
    unfold asDie
    simp only
    rw [if_neg (by omega), if_neg (by omega), e, M.map_ok_iff]
    exact ⟨_, by change (RV.fromSeq w.settings _, w) = _; rw [hf], rfl⟩
  change (asDie (.num (-m)) >>= _) w = _
  rw [M.bind_ok ha]
  rfl

/-- C10. `roll(0)` is the constant 0. -/
theorem C10_roll_sides_zero (w : World) : roll1 (.num 0) w = (.ok (.rv ⟨[0], [1], none⟩), w) := by
  have ha : asDie (.num 0) w = (.ok (some ⟨[0], [1], none⟩), w) := by
    unfold asDie
    simp only
    rw [if_neg (by omega), if_pos trivial, M.map_ok_iff]
    exact ⟨_, by change (RV.fromConst w.settings _, w) = _; rw [fromConst_eq], rfl⟩
  change (asDie (.num 0) >>= _) w = _
  rw [M.bind_ok ha]
  rfl

/-- A die made of the elements of a sequence: each element one face. -/
theorem fromSeq_spec (st : Settings) (s : List ℤ) (hne : s ≠ []) :
    ∃ d, RV.fromSeq st s = .ok d ∧ d.Proper ∧ d.Canonical ∧ d.probs.sum ≤ s.length ∧ d.src = none ∧
      (∀ p ∈ d.probs, p ≠ 0) ∧ ∀ f, Ex d.pairs f = Ex (s.map fun v => (v, 1)) f := by
  have h1 : (s.map fun v => (v, 1)).map (·.1) = s := by rw [List.map_map]; exact List.map_id _
  have h2 : (s.map fun v : ℤ => (v, 1)).map (fun x => ((x.2 : ℕ) : ℤ)) = List.replicate s.length 1 := by
    rw [List.map_map, ← List.map_const']; rfl
  have hz : (List.replicate s.length 1 : List ℤ) = (List.replicate s.length 1).map fun p : ℕ => (p : ℤ) := by simp
  obtain ⟨d, hd⟩ := RV.mk'_int_ok st (s.map fun v => (v, 1))
  have hd' := hd
  rw [h1, h2] at hd'
  have hm : mass (s.map fun v => (v, 1)) ≠ 0 := by
    rw [mass_eq_sum, List.map_map]
    simp only [Function.comp_def, List.map_const', List.sum_replicate_nat, mul_one]
    have : s.length ≠ 0 := by simpa using hne
    exact_mod_cast this
  obtain ⟨g, hg, hw⟩ := RV.mk'_wsum_any hd (Or.inl hm)
  have hg' : (g : ℚ) ≠ 0 := by positivity
  have hmd : mass d.pairs ≠ 0 := by
    intro h0; apply hm
    rw [mass, hw, ← mass, h0, mul_zero]
  refine ⟨d, ?_, (RV.mk'_canonical hd).proper hmd, RV.mk'_canonical hd, ?_, mk'_src hd, ?_, fun f => ?_⟩
  · unfold RV.fromSeq
    rw [if_neg (by simpa using hne)]; exact hd'
  · refine (RV.mk'_sum_le hd').trans (max_le ?_ ?_)
    · have : s.length ≠ 0 := by simpa using hne
      omega
    · simp
  · rw [hz] at hd'
    exact mk'_nz hd' (by intro p hp; rw [List.eq_of_mem_replicate hp]; decide)
  · exact (Ex_of_scale hg' hw f).symm

/-- C10. `roll(n, seq)`: the faces are the elements of the sequence, each with weight one. -/
theorem C10_roll_seq_faces {w w' : World} (hw : Reachable w) (n : ℤ) (s : List ℤ) (hne : s ≠ []) {o : Obj}
    (h : roll (.num n) (.seq s) w = (.ok o, w')) (h0 : w'.warns = 0) :
    ∃ r, o = .rv r ∧ ∀ f, Ex r.pairs f = ExN n.natAbs (s.map fun v => (v, 1)) fun xs => f (n.sign * xs.sum) := by
  obtain ⟨d, hd, hp, _, _, _, _, hlaw⟩ := fromSeq_spec w.settings s hne
  have ha : asDie (.seq s) w = (.ok (some d), w) := by
    unfold asDie
    simp only
    rw [if_neg (by simpa using hne), M.map_ok_iff]
    exact ⟨_, by change (RV.fromSeq w.settings _, w) = _; rw [hd], rfl⟩
  have h' : roll (.num n) (.rv d) w = (.ok o, w') := by
    change (asDie (.seq s) >>= _) w = _ at h
    rw [M.bind_ok ha] at h
    exact h
  obtain ⟨r, hr, _, hl⟩ := C09_roll_law hw n d hp h' h0
  exact ⟨r, hr, fun f => by rw [hl, ExN_law hlaw]⟩

/-- C10. `roll(n, seq)` succeeds when the number of outcomes is within the limit. -/
theorem C10_roll_seq_succeeds {w : World} (hw : Reachable w) (n : ℤ) (s : List ℤ) (hne : s ≠ [])
    (hs : s.length ^ n.natAbs ≤ RV.sumLimit) :
    ∃ r w', roll (.num n) (.seq s) w = (.ok (.rv r), w') ∧ w'.warns = w.warns ∧
      ∀ f, Ex r.pairs f = ExN n.natAbs (s.map fun v => (v, 1)) fun xs => f (n.sign * xs.sum) := by
  obtain ⟨d, hd, hp, _, hsum, _, _, hlaw⟩ := fromSeq_spec w.settings s hne
  have ha : asDie (.seq s) w = (.ok (some d), w) := by
    unfold asDie
    simp only
    rw [if_neg (by simpa using hne), M.map_ok_iff]
    exact ⟨_, by change (RV.fromSeq w.settings _, w) = _; rw [hd], rfl⟩
  obtain ⟨r, w', h1, h2, _, _, h3⟩ := C09_roll_succeeds hw n d hp ((Nat.pow_le_pow_left hsum _).trans hs)
  refine ⟨r, w', ?_, h2, fun f => by rw [h3, ExN_law hlaw]⟩
  change (asDie (.seq s) >>= _) w = _
  rw [M.bind_ok ha]
  exact h1

/-- C10. `roll(seq, d)` is `roll(sum of seq, d)`, for every kind of `d`. -/
theorem C10_roll_seq_count (s : List ℤ) (d : Obj) : roll (.seq s) d = roll (.num s.sum) d := by
  cases d <;> rfl

theorem triple_rollRV {I : Settings → Prop} (X d : RV ℤ) (hX : X.Proper) (hd : d.Proper) :
    Triple I (rollRV X d) fun o => ∃ r : RV ℤ, o = .rv (r.setSource 1 d) ∧ r.Proper ∧ r.Canonical ∧
      ∀ f, Ex r.pairs f = Ex X.pairs fun n => ExN n.natAbs d.pairs fun xs => f (n.sign * xs.sum) := by
  unfold rollRV
  have h1 := Triple.forList (I := I) (f := fun v => rollInt v d) (P := fun v r => RollIntOk v d r) (l := X.vals)
    fun v _ => triple_rollInt v d hd
  have hT : ∀ dies : List (RV ℤ), Triple I (M.ofLimited fun st =>
      RV.fromRvs st (dies.map RV.Entry.rv) (some (X.probs.map fun p : ℕ => (p : ℤ)))) fun _ => True :=
    fun dies => Triple.ofLimited fun _ _ _ _ => True.intro
  have hM : ∀ r : Option (RV ℤ), Triple I (match r with
      | some r => pure (.rv (r.setSource 1 d))
      | none => M.throw .notImplemented : M Obj) fun _ => True := by
    intro r
    cases r
    · exact Triple.throw
    · exact Triple.pure True.intro
  refine Triple.bind h1 (fun dies hdies => ?_) fun dies => Triple.bind' (hT dies) hM
  have hK : List.Forall₂ (fun v die => die.Proper ∧ ∀ f, Ex die.pairs f =
      (fun (n : ℤ) (f : ℤ → ℚ) => ExN n.natAbs d.pairs fun xs => f (n.sign * xs.sum)) v f) X.vals dies :=
    hdies.imp fun v r h => ⟨h.proper, h.law⟩
  refine Triple.bind (P := fun o => ∀ r, o = some r → r.Proper ∧ r.Canonical ∧
      ∀ f, Ex r.pairs f = Ex X.pairs fun n => ExN n.natAbs d.pairs fun xs => f (n.sign * xs.sum))
    (Triple.ofLimited ?_) (fun o ho => ?_) hM
  · intro st x _ hx r hr
    subst hr
    obtain ⟨a, b, _, c⟩ := mixRolls hX hK hx
    exact ⟨a, b, c⟩
  · cases o with
    | none => exact Triple.throw
    | some r => exact Triple.pure ⟨r, rfl, ho r rfl⟩

/-- C10. `roll(X, d)` for a die `X`: draw a count from `X`, then add that many independent draws of `d` (subtract them
when the count is negative). -/
theorem C10_roll_compound {w w' : World} (hw : Reachable w) (X d : RV ℤ) (hX : X.Proper) (hd : d.Proper) {o : Obj}
    (h : roll (.rv X) (.rv d) w = (.ok o, w')) (h0 : w'.warns = 0) :
    ∃ r, o = .rv r ∧ mass r.pairs ≠ 0 ∧
      ∀ f, Ex r.pairs f = Ex X.pairs fun n => ExN n.natAbs d.pairs fun xs => f (n.sign * xs.sum) := by
  have h' : rollRV X d w = (.ok o, w') := h
  obtain ⟨r, rfl, hp, _, hl⟩ := (triple_rollRV (I := fun _ => True) X d hX hd).run hw trivial h' h0
  exact ⟨_, rfl, (setSource_proper hp 1 d).pos, hl⟩

example : (roll (.rv ⟨[1, 2], [1, 1], none⟩) (.rv ⟨[0, 1], [1, 1], none⟩) {}).1 =
    .ok (.rv ⟨[0, 1, 2], [3, 4, 1], some (1, [0, 1], [1, 1])⟩) := by decide +kernel
example : (roll (.num 2) (.seq [1, 1, 5]) {}).1 =
    .ok (.rv ⟨[2, 6, 10], [4, 4, 1], some (2, [1, 5], [2, 1])⟩) := by decide +kernel

/-! ## C11 -/

/-- C11, full statement: FALSE of the code.  The memo table's key ignores 'RV_IGNORE_ZERO_PROBS': the same
`roll(2, d)` under the same current settings differs between two histories. -/
theorem C11_history_counterexample :
    ∃ (w1 w2 : World) (d : RV ℤ), Reachable w1 ∧ Reachable w2 ∧ w1.settings = w2.settings ∧ d.Proper ∧
      (roll (.num 2) (.rv d) w1).1 ≠ (roll (.num 2) (.rv d) w2).1 := by
  let d : RV ℤ := ⟨[1, 2], [1, 0], none⟩
  let st : Settings := { rvIgnoreZeroProbs := true }
  refine ⟨{ settings := st }, { (rollInt 2 d {}).2 with settings := st }, d, .settings st .init,
    .settings st (.roll 2 d .init), rfl, ⟨rfl, by decide, by decide, by norm_num [d, mass, wsum, RV.pairs]⟩, ?_⟩
  decide +kernel

/-- C11, as far as it holds: while 'RV_IGNORE_ZERO_PROBS' keeps one value `z`, the outcome of any roll (the returned
object – with its source – or the exception) is the same after every history; other settings may differ.
Missing from the full statement: histories changing 'RV_IGNORE_ZERO_PROBS'
(see `C11_history_counterexample` and `C11_roll_any_history_partial`). -/
theorem C11_roll_history_partial (z : Bool) (w1 w2 : World) (h1 : History z w1) (h2 : History z w2) (n d : Obj) :
    (roll n d w1).1 = (roll n d w2).1 := by
  obtain ⟨v, hv⟩ := roll_det z n d
  rw [(hv w1 h1.memoPure).1, (hv w2 h2.memoPure).1]

theorem Canonical_law_ext {a b : RV ℤ} (ha : a.Canonical) (hb : b.Canonical) (pa : mass a.pairs ≠ 0)
    (pb : mass b.pairs ≠ 0) (za : ∀ p ∈ a.probs, p ≠ 0) (zb : ∀ p ∈ b.probs, p ≠ 0)
    (h : ∀ f, Ex a.pairs f = Ex b.pairs f) : a.vals = b.vals ∧ a.probs = b.probs := by
  have mem : ∀ {r : RV ℤ}, r.Canonical → (∀ p ∈ r.probs, p ≠ 0) → mass r.pairs ≠ 0 → ∀ v, v ∈ r.vals ↔
      Ex r.pairs (fun x => if x = v then 1 else 0) ≠ 0 := by
    intro r hc hz hm v
    have hnd : (r.pairs.map (·.1)).Nodup := by rw [RV.pairs_map_fst r hc.len]; exact hc.sorted.imp ne_of_lt
    rw [Ex, ← RV.weightOf_eq_wsum, Ne, div_eq_zero_iff, not_or]
    constructor
    · intro hv
      rw [← RV.pairs_map_fst r hc.len] at hv
      obtain ⟨x, hx, rfl⟩ := List.mem_map.1 hv
      rw [RV.weightOf_of_mem hnd hx]
      refine ⟨?_, hm⟩
      have := hz x.2 (by rw [← RV.pairs_map_snd r hc.len]; exact List.mem_map_of_mem (f := (·.2)) hx)
      exact_mod_cast this
    · rintro ⟨h0, -⟩
      by_contra hc'
      rw [← RV.pairs_map_fst r hc.len] at hc'
      rw [RV.weightOf_eq_wsum, RV.wsum_eq_zero_of_notMem _ _ hc'] at h0
      exact h0 rfl
  have hA : mass a.pairs = (a.probs.sum : ℕ) := RV.mass_eq_probs ha.len
  have hB : mass b.pairs = (b.probs.sum : ℕ) := RV.mass_eq_probs hb.len
  refine ha.ext' hb (fun v => by rw [mem ha za pa, mem hb zb pb, h]) (s := b.probs.sum) (t := a.probs.sum) ?_ ?_ fun f => ?_
  · rw [hB] at pb; exact Nat.pos_of_ne_zero (by exact_mod_cast pb)
  · rw [hA] at pa; exact Nat.pos_of_ne_zero (by exact_mod_cast pa)
  · have := h f
    rw [Ex, Ex, div_eq_div_iff pa pb] at this
    rw [← hA, ← hB, mul_comm, this, mul_comm]

/-- C11, the other part that holds: for a die without zero-weight faces whose pool is within the weight limit, the roll is
the same after *every* history, including changes of 'RV_IGNORE_ZERO_PROBS' and reductions of other dice.
Missing: dice with zero-weight faces, and pools beyond the limit. -/
theorem C11_roll_any_history_partial (w1 w2 : World) (h1 : Reachable w1) (h2 : Reachable w2) (n : ℤ) (d : RV ℤ)
    (hd : d.Proper) (hz : ∀ p ∈ d.probs, p ≠ 0) (hs : d.probs.sum ^ n.natAbs ≤ RV.sumLimit) :
    (roll (.num n) (.rv d) w1).1 = (roll (.num n) (.rv d) w2).1 := by
  by_cases hn1 : n = 1
  · subst hn1; rfl
  have s1 := rollInt_spec n d w1 h1.memoOk
  have s2 := rollInt_spec n d w2 h2.memoOk
  obtain ⟨⟨r1, e1⟩, _⟩ := s1.total hd hs
  obtain ⟨⟨r2, e2⟩, _⟩ := s2.total hd hs
  have k1 := s1.law hd r1 e1 (Or.inr hs)
  have k2 := s2.law hd r2 e2 (Or.inr hs)
  have hv := Canonical_law_ext (k1.canon hn1) (k2.canon hn1) k1.proper.pos k2.proper.pos (k1.nz hz) (k2.nz hz)
    fun f => by rw [k1.law, k2.law]
  have hsrc : r1.src = r2.src := by
    rcases lt_or_ge n 2 with h | h
    · rw [k1.zero (by omega), k2.zero (by omega)]
    · rw [k1.src h, k2.src h]
  have : r1 = r2 := by
    cases r1; cases r2
    simp only [RV.mk.injEq]
    exact ⟨hv.1, hv.2, hsrc⟩
  subst this
  have t : ∀ w : World, (rollInt n d w).1 = .ok r1 → (roll (.num n) (.rv d) w).1 = .ok (.rv r1) := by
    intro w hw
    rw [roll_num_rv, M.map_apply]
    cases h : rollInt n d w with
    | mk r w' => rw [h] at hw; cases hw; rfl
  rw [t w1 e1, t w2 e2]

example : History true { settings := { rvIgnoreZeroProbs := true } } := .init _ rfl
example : History true (roll (.num 5) (.num 6) { settings := { rvIgnoreZeroProbs := true } }).2 := .roll _ _ (.init _ rfl)
example : (roll (.num 5) (.num 6) {}).2.memo.length = 2 := by decide +kernel

end PythonDice
