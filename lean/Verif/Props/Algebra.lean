import Verif.Props.Ops

/-! # C07: commutativity and associativity as dice -/

namespace PythonDice
open Spec

namespace RV

/-- The constructor on int outcomes only depends on the listed values and the weighted sums. -/
theorem mk'_ext_int (st : Settings) (l m : List (ℤ × ℕ))
    (hk : ∀ v, v ∈ l.map (·.1) ↔ v ∈ m.map (·.1)) (hw : ∀ f, wsum l f = wsum m f) :
    mk' st (l.map (·.1)) (l.map fun x => (x.2 : ℤ)) = mk' st (m.map (·.1)) (m.map fun x => (x.2 : ℤ)) := by
  obtain ⟨r, hr⟩ := mk'_int_ok st l
  obtain ⟨r', hr'⟩ := mk'_int_ok st m
  have hz : ∀ l : List (ℤ × ℕ), (l.map (·.1)).zip ((l.map fun x => (x.2 : ℤ)).map Int.toNat) = l := by
    intro l; rw [List.map_map, List.zip_map']; simp [Function.comp_def]
  rw [hr, hr', ctor_ext st _ _ _ _ _ _ none r r' hr hr' (truncated_int _ _ _) (truncated_int _ _ _) hk 1 1
    one_pos one_pos (by intro f; rw [hz, hz, hw])]

theorem convolve_ext_int {st : Settings} {α β α' β' : Type} {X : RV α} {Y : RV β} {X' : RV α'} {Y' : RV β'}
    {op : α → β → Except Err ℤ} {op' : α' → β' → Except Err ℤ} {F : α → β → ℤ} {F' : α' → β' → ℤ}
    (h : ∀ x ∈ X.pairs, ∀ y ∈ Y.pairs, op x.1 y.1 = .ok (F x.1 y.1))
    (h' : ∀ x ∈ X'.pairs, ∀ y ∈ Y'.pairs, op' x.1 y.1 = .ok (F' x.1 y.1))
    (hk : ∀ v, v ∈ (prodPairs X.pairs Y.pairs F).map (·.1) ↔ v ∈ (prodPairs X'.pairs Y'.pairs F').map (·.1))
    (hw : ∀ f, wsum (prodPairs X.pairs Y.pairs F) f = wsum (prodPairs X'.pairs Y'.pairs F') f) :
    convolveRV st X Y op = convolveRV st X' Y' op' := by
  rw [convolveRV_ok h, convolveRV_ok h', mk'_ext_int st _ (toTuples (rdictOf (prodPairs X'.pairs Y'.pairs F')))]
  · intro v; rw [tuples_mem, tuples_mem, hk]
  · intro f; rw [tuples_wsum, tuples_wsum, hw]

theorem mem_prodPairs {α β γ : Type} (l : List (α × ℕ)) (m : List (β × ℕ)) (F : α → β → γ) (v : γ) :
    v ∈ (prodPairs l m F).map (·.1) ↔ ∃ x ∈ l, ∃ y ∈ m, v = F x.1 y.1 := by
  simp only [prodPairs, List.mem_map, List.mem_flatMap]
  constructor
  · rintro ⟨_, ⟨x, hx, y, hy, rfl⟩, rfl⟩; exact ⟨x, hx, y, hy, rfl⟩
  · rintro ⟨x, hx, y, hy, rfl⟩; exact ⟨_, ⟨x, hx, y, hy, rfl⟩, rfl⟩

/-- Swapping the operands. -/
theorem convolve_swap (st : Settings) (X Y : RV ℤ) (op op' : BinOp)
    (h : ∀ x y, op.eval x y = op'.eval y x) (hd : ∀ x y, ∃ z, op.eval x y = .ok z) :
    X.binop st op Y = Y.binop st op' X := by
  have e1 : ∀ x y, op.eval x y = .ok (valueOf op.eval x y) := fun x y => valueOf_ok (hd x y)
  have e2 : ∀ x y, op'.eval x y = .ok (valueOf op'.eval x y) := fun x y => valueOf_ok (by rw [← h]; exact hd y x)
  have hv : ∀ x y, valueOf op.eval x y = valueOf op'.eval y x := by
    intro x y; simp only [valueOf, h]
  refine convolve_ext_int (fun x _ y _ => e1 _ _) (fun x _ y _ => e2 _ _) ?_ ?_
  · intro v
    rw [mem_prodPairs, mem_prodPairs]
    constructor
    · rintro ⟨x, hx, y, hy, rfl⟩; exact ⟨y, hy, x, hx, hv _ _⟩
    · rintro ⟨x, hx, y, hy, rfl⟩; exact ⟨y, hy, x, hx, (hv _ _).symm⟩
  · intro f
    rw [prodPairs_wsum, prodPairs_wsum, wsum_comm]
    simp only [hv]

/-- Scale factor of a construction, also for total weight 0 when zero weights are kept. -/
theorem mk'_wsum_any {st : Settings} {l : List (ℤ × ℕ)} {r : RV ℤ}
    (h : mk' st (l.map (·.1)) (l.map fun x => (x.2 : ℤ)) = .ok r)
    (hm : mass l ≠ 0 ∨ (st.rvIgnoreZeroProbs = false ∧ l ≠ [])) :
    ∃ g : ℕ, 0 < g ∧ ∀ f, wsum l f = (g : ℚ) * wsum r.pairs f := by
  have hz : (l.map (·.1)).zip ((l.map fun x => (x.2 : ℤ)).map Int.toNat) = l := by
    rw [List.map_map, List.zip_map']; simp [Function.comp_def]
  rcases hm with hm | ⟨hi, hne⟩
  · have := mk'_wsum h (truncated_int _ _ _) (by rw [hz]; exact hm)
    rwa [hz] at this
  · obtain ⟨_, _, vs, hv, hr⟩ := mk'_ok h
    rw [truncated_int] at hv; cases hv
    rcases hr with ⟨hc, _⟩ | ⟨_, rfl⟩
    · exfalso
      rw [core, hi, ← grouped, grouped_eq_nil] at hc
      have := (getZip_perm (l.map (·.1)) ((l.map fun x => (x.2 : ℤ)).map Int.toNat)).length_eq
      rw [hc, hz] at this
      simp at this; exact hne (List.length_eq_zero_iff.1 this.symm)
    · refine ⟨_, normFactor_pos ((core st (l.map (·.1)) (l.map fun x => (x.2 : ℤ))).map (·.2)), fun f => ?_⟩
      rw [pairs_of_map, ← normPairs_wsum, core_wsum, hz]

/-- The outcomes of a constructed die. -/
theorem mk'_mem_any {st : Settings} {l : List (ℤ × ℕ)} {r : RV ℤ}
    (h : mk' st (l.map (·.1)) (l.map fun x => (x.2 : ℤ)) = .ok r) :
    (st.rvIgnoreZeroProbs = false → l ≠ [] → ∀ v, v ∈ r.vals ↔ v ∈ l.map (·.1)) ∧
    (st.rvIgnoreZeroProbs = true → mass l ≠ 0 → ∀ v, v ∈ r.vals ↔ wsum l (fun x => if x = v then 1 else 0) ≠ 0) := by
  have hz : (l.map (·.1)).zip ((l.map fun x => (x.2 : ℤ)).map Int.toNat) = l := by
    rw [List.map_map, List.zip_map']; simp [Function.comp_def]
  refine ⟨fun hi hne v => mk'_mem h (truncated_int _ _ _) hi (by simpa using hne) v, fun hi hm v => ?_⟩
  rw [mk'_mem_ignore h (truncated_int _ _ _) hi (by rw [hz]; exact hm), hz, ← weightOf_eq_wsum]
  exact_mod_cast Iff.rfl

/-- Everything about a convolution of int dice, in one statement. -/
theorem conv_summary {st : Settings} {X Y r : RV ℤ} {op : ℤ → ℤ → Except Err ℤ} {F : ℤ → ℤ → ℤ}
    (h : ∀ x y, op x y = .ok (F x y))
    (hr : convolveRV st X Y op = .ok (r, false))
    (hX : X.pairs ≠ []) (hY : Y.pairs ≠ [])
    (hm : (mass X.pairs ≠ 0 ∧ mass Y.pairs ≠ 0) ∨ st.rvIgnoreZeroProbs = false) :
    r.Canonical ∧ (∃ g : ℕ, 0 < g ∧ ∀ f, (wsum X.pairs fun x => wsum Y.pairs fun y => f (F x y)) = g * wsum r.pairs f) ∧
    (st.rvIgnoreZeroProbs = false → ∀ v, v ∈ r.pairs.map (·.1) ↔ ∃ x ∈ X.pairs.map (·.1), ∃ y ∈ Y.pairs.map (·.1), v = F x y) ∧
    (st.rvIgnoreZeroProbs = true → ∀ v, v ∈ r.pairs.map (·.1) ↔ wsum r.pairs (fun x => if x = v then 1 else 0) ≠ 0) := by
  rw [convolveRV_ok (F := F) fun x _ y _ => h _ _, bind_ok_iff] at hr
  obtain ⟨r0, h0, h1⟩ := hr
  have := probLimit_false h1
  subst this
  have hw := tuples_wsum (prodPairs X.pairs Y.pairs F)
  have hk := tuples_mem (prodPairs X.pairs Y.pairs F)
  set l := toTuples (rdictOf (prodPairs X.pairs Y.pairs F)) with hl
  have hne : l ≠ [] := by
    intro h0
    obtain ⟨x, hx⟩ := List.exists_mem_of_ne_nil _ hX
    obtain ⟨y, hy⟩ := List.exists_mem_of_ne_nil _ hY
    have := (hk (F x.1 y.1)).2 ((mem_prodPairs _ _ _ _).2 ⟨x, hx, y, hy, rfl⟩)
    rw [h0] at this; simp at this
  have hmass : mass l = mass X.pairs * mass Y.pairs := by rw [mass, hw, ← mass, prodPairs_mass]
  have hm' : mass l ≠ 0 ∨ (st.rvIgnoreZeroProbs = false ∧ l ≠ []) := by
    rcases hm with ⟨h1, h2⟩ | hi
    · exact Or.inl (by rw [hmass]; exact mul_ne_zero h1 h2)
    · exact Or.inr ⟨hi, hne⟩
  have hc := mk'_canonical h0
  obtain ⟨g, hg, hs⟩ := mk'_wsum_any h0 hm'
  refine ⟨hc, ⟨g, hg, fun f => ?_⟩, fun hi v => ?_, fun hi v => ?_⟩
  · rw [← hs, hw, prodPairs_wsum]
  · rw [pairs_map_fst r hc.len, (mk'_mem_any h0).1 hi hne v, hk, mem_prodPairs]
    constructor
    · rintro ⟨x, hx, y, hy, rfl⟩
      exact ⟨x.1, List.mem_map_of_mem (f := (·.1)) hx, y.1, List.mem_map_of_mem (f := (·.1)) hy, rfl⟩
    · rintro ⟨_, hx, _, hy, rfl⟩
      obtain ⟨x, hx', rfl⟩ := List.mem_map.1 hx
      obtain ⟨y, hy', rfl⟩ := List.mem_map.1 hy
      exact ⟨x, hx', y, hy', rfl⟩
  · have hml : mass l ≠ 0 := by
      rcases hm' with h | ⟨h, _⟩
      · exact h
      · rw [hi] at h; cases h
    rw [pairs_map_fst r hc.len, (mk'_mem_any h0).2 hi hml v, hs]
    have : (g : ℚ) ≠ 0 := by positivity
    simp [this]

/-- Associativity of any associative operation on outcomes. -/
theorem conv_assoc {st : Settings} {X Y Z a b r r' : RV ℤ} {op : ℤ → ℤ → Except Err ℤ} {F : ℤ → ℤ → ℤ}
    (h : ∀ x y, op x y = .ok (F x y)) (hassoc : ∀ x y z, F (F x y) z = F x (F y z))
    (hX : X.pairs ≠ []) (hY : Y.pairs ≠ []) (hZ : Z.pairs ≠ [])
    (hm : (mass X.pairs ≠ 0 ∧ mass Y.pairs ≠ 0 ∧ mass Z.pairs ≠ 0) ∨ st.rvIgnoreZeroProbs = false)
    (ha : convolveRV st X Y op = .ok (a, false)) (hr : convolveRV st a Z op = .ok (r, false))
    (hb : convolveRV st Y Z op = .ok (b, false)) (hr' : convolveRV st X b op = .ok (r', false)) :
    r.vals = r'.vals ∧ r.probs = r'.probs := by
  have hm1 : (mass X.pairs ≠ 0 ∧ mass Y.pairs ≠ 0) ∨ st.rvIgnoreZeroProbs = false := by tauto
  have hm2 : (mass Y.pairs ≠ 0 ∧ mass Z.pairs ≠ 0) ∨ st.rvIgnoreZeroProbs = false := by tauto
  obtain ⟨ca, ⟨g1, p1, s1⟩, k1, -⟩ := conv_summary h ha hX hY hm1
  obtain ⟨cb, ⟨g2, p2, s2⟩, k2, -⟩ := conv_summary h hb hY hZ hm2
  have hane : a.pairs ≠ [] := by
    intro h0; have := pairs_map_fst a ca.len; rw [h0] at this; exact ca.nonempty this.symm
  have hbne : b.pairs ≠ [] := by
    intro h0; have := pairs_map_fst b cb.len; rw [h0] at this; exact cb.nonempty this.symm
  have scale_mass : ∀ {X Y a : RV ℤ} {g : ℕ}, 0 < g →
      (∀ f, (wsum X.pairs fun x => wsum Y.pairs fun y => f (F x y)) = g * wsum a.pairs f) →
      mass X.pairs ≠ 0 → mass Y.pairs ≠ 0 → mass a.pairs ≠ 0 := by
    intro X Y a g hg hs h1 h2 h0
    have := hs fun _ => 1
    simp only [wsum_const] at this
    rw [h0] at this
    simp only [one_mul, mul_zero] at this
    exact (mul_ne_zero h2 h1) this
  have hm3 : (mass a.pairs ≠ 0 ∧ mass Z.pairs ≠ 0) ∨ st.rvIgnoreZeroProbs = false := by
    rcases hm with ⟨h1, h2, h3⟩ | hi
    · exact Or.inl ⟨scale_mass p1 s1 h1 h2, h3⟩
    · exact Or.inr hi
  have hm4 : (mass X.pairs ≠ 0 ∧ mass b.pairs ≠ 0) ∨ st.rvIgnoreZeroProbs = false := by
    rcases hm with ⟨h1, h2, h3⟩ | hi
    · exact Or.inl ⟨h1, scale_mass p2 s2 h2 h3⟩
    · exact Or.inr hi
  obtain ⟨cr, ⟨g3, p3, s3⟩, k3, m3⟩ := conv_summary h hr hane hZ hm3
  obtain ⟨cr', ⟨g4, p4, s4⟩, k4, m4⟩ := conv_summary h hr' hX hbne hm4
  have hL : ∀ f, (wsum X.pairs fun x => wsum Y.pairs fun y => wsum Z.pairs fun z => f (F (F x y) z)) =
      ((g1 * g3 : ℕ) : ℚ) * wsum r.pairs f := by
    intro f
    rw [s1 fun u => wsum Z.pairs fun z => f (F u z), s3]; push_cast; ring
  have hR : ∀ f, (wsum X.pairs fun x => wsum Y.pairs fun y => wsum Z.pairs fun z => f (F x (F y z))) =
      ((g2 * g4 : ℕ) : ℚ) * wsum r'.pairs f := by
    intro f
    have : ∀ x, (wsum Y.pairs fun y => wsum Z.pairs fun z => f (F x (F y z))) = g2 * wsum b.pairs fun u => f (F x u) :=
      fun x => s2 fun u => f (F x u)
    simp only [this, wsum_mul_left, s4]; push_cast; ring
  have hLR : ∀ f, ((g1 * g3 : ℕ) : ℚ) * wsum r.pairs f = ((g2 * g4 : ℕ) : ℚ) * wsum r'.pairs f := by
    intro f; rw [← hL, ← hR]; simp only [hassoc]
  have q1 : 0 < g1 * g3 := Nat.mul_pos p1 p3
  have q2 : 0 < g2 * g4 := Nat.mul_pos p2 p4
  refine Canonical.ext' cr cr' ?_ q1 q2 hLR
  intro v
  rw [← pairs_map_fst r cr.len, ← pairs_map_fst r' cr'.len]
  cases hi : st.rvIgnoreZeroProbs with
  | false =>
    rw [k3 hi, k4 hi]
    constructor
    · rintro ⟨u, hu, z, hz, rfl⟩
      obtain ⟨x, hx, y, hy, rfl⟩ := (k1 hi u).1 hu
      exact ⟨x, hx, F y z, (k2 hi _).2 ⟨y, hy, z, hz, rfl⟩, hassoc _ _ _⟩
    · rintro ⟨x, hx, u, hu, rfl⟩
      obtain ⟨y, hy, z, hz, rfl⟩ := (k2 hi u).1 hu
      exact ⟨F x y, (k1 hi _).2 ⟨x, hx, y, hy, rfl⟩, z, hz, (hassoc _ _ _).symm⟩
  | true =>
    rw [m3 hi, m4 hi]
    have := hLR fun x => if x = v then 1 else 0
    have h1 : ((g1 * g3 : ℕ) : ℚ) ≠ 0 := by exact_mod_cast q1.ne'
    have h2 : ((g2 * g4 : ℕ) : ℚ) ≠ 0 := by exact_mod_cast q2.ne'
    constructor
    · intro h3 h4; rw [h4, mul_zero] at this; exact (mul_ne_zero h1 h3) this
    · intro h3 h4; rw [h4, mul_zero] at this; exact (mul_ne_zero h2 h3) this.symm

end RV

/-- C07. `X + Y` and `Y + X` are the same result: same outcomes, weights, warning, error. -/
theorem C07_add_comm (st : Settings) (X Y : RV ℤ) : X.binop st .add Y = Y.binop st .add X :=
  RV.convolve_swap st X Y .add .add (fun x y => by simp [BinOp.eval, add_comm]) fun _ _ => ⟨_, rfl⟩

/-- C07. `X * Y` and `Y * X` are the same result. -/
theorem C07_mul_comm (st : Settings) (X Y : RV ℤ) : X.binop st .mul Y = Y.binop st .mul X :=
  RV.convolve_swap st X Y .mul .mul (fun x y => by simp [BinOp.eval, mul_comm]) fun _ _ => ⟨_, rfl⟩

/-- C07. `X < Y` is `Y > X`; likewise `<=` / `>=`, `==`, `!=`, `&`, `|`. -/
theorem C07_cmp_swap (st : Settings) (X Y : RV ℤ) :
    X.binop st .lt Y = Y.binop st .gt X ∧ X.binop st .le Y = Y.binop st .ge X ∧
    X.binop st .eq Y = Y.binop st .eq X ∧ X.binop st .ne Y = Y.binop st .ne X ∧
    X.binop st .and_ Y = Y.binop st .and_ X ∧ X.binop st .or_ Y = Y.binop st .or_ X := by
  refine ⟨?_, ?_, ?_, ?_, ?_, ?_⟩ <;>
    exact RV.convolve_swap st X Y _ _ (fun x y => by simp [BinOp.eval, eq_comm, and_comm, or_comm]) fun _ _ => ⟨_, rfl⟩

/-- C07. `(X + Y) + Z` and `X + (Y + Z)` are the same die when no warning is logged.  `X`, `Y`, `Z` are
any non-empty dice; they must have positive total weight unless zero-weight outcomes are kept. -/
theorem C07_add_assoc (st : Settings) (X Y Z a b r r' : RV ℤ)
    (hX : X.pairs ≠ []) (hY : Y.pairs ≠ []) (hZ : Z.pairs ≠ [])
    (hm : (mass X.pairs ≠ 0 ∧ mass Y.pairs ≠ 0 ∧ mass Z.pairs ≠ 0) ∨ st.rvIgnoreZeroProbs = false)
    (ha : X.binop st .add Y = .ok (a, false)) (hr : a.binop st .add Z = .ok (r, false))
    (hb : Y.binop st .add Z = .ok (b, false)) (hr' : X.binop st .add b = .ok (r', false)) :
    r.vals = r'.vals ∧ r.probs = r'.probs :=
  RV.conv_assoc (F := (· + ·)) (fun _ _ => rfl) add_assoc hX hY hZ hm ha hr hb hr'

/-- C07. `(X * Y) * Z` and `X * (Y * Z)` are the same die when no warning is logged. -/
theorem C07_mul_assoc (st : Settings) (X Y Z a b r r' : RV ℤ)
    (hX : X.pairs ≠ []) (hY : Y.pairs ≠ []) (hZ : Z.pairs ≠ [])
    (hm : (mass X.pairs ≠ 0 ∧ mass Y.pairs ≠ 0 ∧ mass Z.pairs ≠ 0) ∨ st.rvIgnoreZeroProbs = false)
    (ha : X.binop st .mul Y = .ok (a, false)) (hr : a.binop st .mul Z = .ok (r, false))
    (hb : Y.binop st .mul Z = .ok (b, false)) (hr' : X.binop st .mul b = .ok (r', false)) :
    r.vals = r'.vals ∧ r.probs = r'.probs :=
  RV.conv_assoc (F := (· * ·)) (fun _ _ => rfl) mul_assoc hX hY hZ hm ha hr hb hr'

example : ((⟨[1, 2], [1, 1], none⟩ : RV ℤ).binop {} .add ⟨[0, 1], [1, 2], none⟩) =
    .ok (⟨[1, 2, 3], [1, 3, 2], none⟩, false) ∧
    ((⟨[1, 2, 3], [1, 3, 2], none⟩ : RV ℤ).binop {} .add ⟨[1, 2], [1, 1], none⟩) =
    .ok (⟨[2, 3, 4, 5], [1, 4, 5, 2], none⟩, false) := by decide +kernel

/-- C07. `P(X < Y) + P(X >= Y) = 1`. -/
theorem C07_lt_add_ge (st : Settings) (X Y r s : RV ℤ) (hX : mass X.pairs ≠ 0) (hY : mass Y.pairs ≠ 0)
    (hr : X.binop st .lt Y = .ok (r, false)) (hs : X.binop st .ge Y = .ok (s, false)) :
    Pr r.pairs (· = 1) + Pr s.pairs (· = 1) = 1 := by
  simp only [Pr]
  rw [C05_binop_law st .lt X Y r (fun x y => if x < y then 1 else 0) ?_ hr hX hY,
    C05_binop_law st .ge X Y s (fun x y => if y ≤ x then 1 else 0) ?_ hs hX hY, ← Ex_add]
  · have : ∀ x y : ℤ, (if (if x < y then (1 : ℤ) else 0) = 1 then (1 : ℚ) else 0) +
        (if (if y ≤ x then (1 : ℤ) else 0) = 1 then 1 else 0) = 1 := by
      intro x y
      rcases lt_or_ge x y with h | h
      · simp [h, not_le.2 h]
      · simp [h, not_lt.2 h]
    simp only [← Ex_add, this, Ex_const hY, Ex_const hX]
  · intro x _ y _
    split
    · exact .geT _ _ ‹_›
    · exact .geF _ _ (not_le.1 ‹_›)
  · intro x _ y _
    split
    · exact .ltT _ _ ‹_›
    · exact .ltF _ _ (not_lt.1 ‹_›)

end PythonDice
