import Verif.Proofs.Rounding
import Verif.Props.Stats
import Verif.Props.Ops
import Verif.Proofs.Identities

/-!
# C77: rounding dice, and dividing them with `/`
-/

namespace PythonDice
open Spec

/-! ## Rounding -/

/-- C77. The outcomes of `math.floor(X)` are the floors of those of `X`, with their probabilities. -/
theorem C77_floor (st : Settings) {X : RV ℚ} {r : RV ℤ} (hr : X.floor st = .ok r) (hX : mass X.pairs ≠ 0) (F : ℚ → ℤ)
    (hF : ∀ x ∈ X.vals, IsFloor x (F x)) (f : ℤ → ℚ) : Ex r.pairs f = Ex X.pairs fun x => f (F x) := by
  have := RV.mapVals_Ex (F := F) (fun x hx => by rw [isFloor_iff.1 (hF x hx)]) hr hX f
  simpa using this

/-- C77. The outcomes of `math.ceil(X)` are the ceilings of those of `X`, with their probabilities. -/
theorem C77_ceil (st : Settings) {X : RV ℚ} {r : RV ℤ} (hr : X.ceil st = .ok r) (hX : mass X.pairs ≠ 0) (F : ℚ → ℤ)
    (hF : ∀ x ∈ X.vals, IsCeil x (F x)) (f : ℤ → ℚ) : Ex r.pairs f = Ex X.pairs fun x => f (F x) := by
  have := RV.mapVals_Ex (F := F) (fun x hx => by rw [isCeil_iff.1 (hF x hx)]) hr hX f
  simpa using this

/-- C77. The outcomes of `math.trunc(X)` are those of `X` without their fractional parts, with their probabilities. -/
theorem C77_trunc (st : Settings) {X : RV ℚ} {r : RV ℤ} (hr : X.trunc st = .ok r) (hX : mass X.pairs ≠ 0) (F : ℚ → ℤ)
    (hF : ∀ x ∈ X.vals, IsTrunc x (F x)) (f : ℤ → ℚ) : Ex r.pairs f = Ex X.pairs fun x => f (F x) := by
  have := RV.mapVals_Ex (F := F) (fun x hx => by rw [isTrunc_iff.1 (hF x hx)]) hr hX f
  simpa using this

theorem truncFn_cast (st : Settings) (k : ℤ) : RV.truncFn st (k : ℚ) = k := by
  unfold RV.truncFn
  simp [PyVal.trunc]

/-- C77. The outcomes of `round(X)` are the nearest integers, halves going to the even neighbour. -/
theorem C77_round (st : Settings) {X r : RV ℚ} (hr : X.round st = .ok r) (hX : mass X.pairs ≠ 0) (F : ℚ → ℤ)
    (hF : ∀ x ∈ X.vals, IsNearest x (F x)) (f : ℚ → ℚ) : Ex r.pairs f = Ex X.pairs fun x => f (F x) := by
  have := RV.mapVals_Ex (F := fun x => (F x : ℚ)) (fun x hx => by rw [isNearest_iff.1 (hF x hx)]) hr hX f
  simpa only [truncFn_cast] using this

/-- C77. Rounding a die never fails. -/
theorem C77_rounding_succeeds (st : Settings) {X : RV ℚ} (hl : X.vals.length = X.probs.length) :
    (∃ r, X.floor st = .ok r) ∧ (∃ r, X.ceil st = .ok r) ∧ (∃ r, X.trunc st = .ok r) ∧ ∃ r, X.round st = .ok r :=
  ⟨mapVals_succeeds_int st (F := fun v => ⌊v⌋) hl fun _ _ => rfl, mapVals_succeeds_int st (F := fun v => ⌈v⌉) hl fun _ _ => rfl,
    mapVals_succeeds_int st (F := RV.truncQ) hl fun _ _ => rfl, mapVals_succeeds_rat st (F := fun v => (roundHalfEven v : ℚ)) hl fun _ _ => rfl⟩

/-- C77. The mean of `math.floor(X)` is at most that of `X`, and less than one away; the other way round for `math.ceil(X)`; `round(X)` moves
the mean by at most a half, `math.trunc(X)` by at most one. -/
theorem C77_rounding_mean (st : Settings) {X r : RV ℚ} {lo hi tr : RV ℤ} (h1 : X.floor st = .ok lo) (h2 : X.ceil st = .ok hi)
    (h3 : X.trunc st = .ok tr) (h4 : X.round st = .ok r) (hX : mass X.pairs ≠ 0) :
    (Ex X.pairs fun x => x) - 1 ≤ Mean lo.pairs ∧ Mean lo.pairs ≤ (Ex X.pairs fun x => x) ∧
    (Ex X.pairs fun x => x) ≤ Mean hi.pairs ∧ Mean hi.pairs ≤ (Ex X.pairs fun x => x) + 1 ∧
    Mean lo.pairs ≤ Mean tr.pairs ∧ Mean tr.pairs ≤ Mean hi.pairs ∧
    |(Ex r.pairs fun x => x) - Ex X.pairs fun x => x| ≤ 1 / 2 := by
  have c := Ex_const hX
  have e1 := C77_floor st h1 hX (fun x => ⌊x⌋) (fun _ _ => isFloor_iff.2 rfl) fun x => (x : ℚ)
  have e2 := C77_ceil st h2 hX (fun x => ⌈x⌉) (fun _ _ => isCeil_iff.2 rfl) fun x => (x : ℚ)
  have e3 := C77_trunc st h3 hX RV.truncQ (fun _ _ => isTrunc_iff.2 rfl) fun x => (x : ℚ)
  have e4 := C77_round st h4 hX roundHalfEven (fun _ _ => isNearest_iff.2 rfl) fun x => x
  unfold Mean
  rw [e1, e2, e3, e4]
  refine ⟨?_, ?_, ?_, ?_, ?_, ?_, ?_⟩
  · rw [← c 1, ← Ex_sub]; exact Ex_mono fun x _ => by linarith [Int.lt_floor_add_one x.1]
  · exact Ex_mono fun x _ => Int.floor_le x.1
  · exact Ex_mono fun x _ => Int.le_ceil x.1
  · rw [← c 1, ← Ex_add]; exact Ex_mono fun x _ => (Int.ceil_lt_add_one x.1).le
  · refine Ex_mono fun x _ => ?_
    unfold RV.truncQ; split
    · exact le_rfl
    · exact_mod_cast Int.floor_le_ceil x.1
  · refine Ex_mono fun x _ => ?_
    unfold RV.truncQ; split
    · exact_mod_cast Int.floor_le_ceil x.1
    · exact le_rfl
  · rw [← Ex_sub, abs_le]
    constructor
    · rw [← c (-(1 / 2))]; exact Ex_mono fun x _ => (abs_le.1 (roundHalfEven_error x.1)).1
    · rw [← c (1 / 2)]; exact Ex_mono fun x _ => (abs_le.1 (roundHalfEven_error x.1)).2

/-! ## Dice with int outcomes -/

theorem mapVals_self (st : Settings) {X r : RV ℤ} (hX : X.Canonical) (hp : mass X.pairs ≠ 0) (hz : ∀ p ∈ X.probs, p ≠ 0) {op : ℤ → Except Err ℤ}
    (ho : ∀ x ∈ X.vals, op x = .ok x) (hr : RV.mapVals st X op = .ok r) : r.vals = X.vals ∧ r.probs = X.probs := by
  have h0 := hr
  rw [RV.mapVals_ok (F := id) ho] at h0
  exact Canonical_law_ext (RV.mk'_canonical h0) hX (RV.mapVals_mass (F := id) ho hr hp) hp (mapVals_nz_any (F := id) ho hr hz) hz fun f => by
    simpa using RV.mapVals_Ex (F := id) ho hr hp f

/-- C77. `round(X)`, `math.floor(X)`, `math.ceil(X)` and `math.trunc(X)` of a die with int outcomes are that die, and so is `round(X, n)` for `n`
not negative. -/
theorem C77_integral (st : Settings) {X : RV ℤ} (hX : GoodDie X) (n : ℤ) (hn : 0 ≤ n) :
    (∃ r, X.integral st = .ok r ∧ r.vals = X.vals ∧ r.probs = X.probs) ∧
    ∃ r, X.roundI st n = .ok r ∧ r.vals = X.vals ∧ r.probs = X.probs := by
  have hc : X.Canonical := ⟨hX.len, hX.sorted, hX.nonempty, fun _ => hX.coprime⟩
  have hz : ∀ p ∈ X.probs, p ≠ 0 := fun p hp => (hX.pos p hp).ne'
  constructor
  · obtain ⟨r, hr⟩ := mapVals_succeeds_int st (a := X) (op := fun v => .ok v) (F := id) hX.len fun _ _ => rfl
    exact ⟨r, hr, mapVals_self st hc (Enum.GoodDie.proper hX).pos hz (fun _ _ => rfl) hr⟩
  · have ho : ∀ x ∈ X.vals, (Except.ok (RV.roundInt n x) : Except Err ℤ) = .ok x := fun x _ => by rw [RV.roundInt, if_pos hn]
    obtain ⟨r, hr⟩ := mapVals_succeeds_int st (a := X) (op := fun v => .ok (RV.roundInt n v)) (F := id) hX.len ho
    exact ⟨r, hr, mapVals_self st hc (Enum.GoodDie.proper hX).pos hz ho hr⟩

/-- C77. The outcomes of `round(X, -k)` of a die with int outcomes are the nearest multiples of `10 ** k`, an even multiple when between two. -/
theorem C77_round_tens (st : Settings) {X r : RV ℤ} (k : ℕ) (hk : 0 < k) (hr : X.roundI st (-k) = .ok r) (hX : mass X.pairs ≠ 0) (F : ℤ → ℤ)
    (hF : ∀ x ∈ X.vals, IsNearest ((x : ℚ) / 10 ^ k) (F x)) (f : ℤ → ℚ) : Ex r.pairs f = Ex X.pairs fun x => f (F x * 10 ^ k) := by
  have := RV.mapVals_Ex (F := fun x : ℤ => F x * 10 ^ k) (fun x hx => by
    rw [RV.roundInt, if_neg (by omega), neg_neg, Int.toNat_natCast, ← isNearest_iff.1 (hF x hx)]
    push_cast; rfl) hr hX f
  simpa using this

/-! ## Division -/

theorem pyDiv_ok {x y : ℤ} {z : ℚ} (h : RV.pyDiv x y = .ok z) : y ≠ 0 ∧ |(x : ℚ) / y| < RV.floatOverflow ∧ z = dbl ((x : ℚ) / y) := by
  unfold RV.pyDiv at h
  split at h
  · cases h
  · exact ⟨‹_›, toDouble_ok h⟩

set_option exponentiation.threshold 1100 in
theorem floatOverflow_cast : (RV.floatOverflow : ℚ) = 2 ^ 1024 - 2 ^ 970 := by
  unfold RV.floatOverflow
  rw [Nat.cast_sub (Nat.pow_le_pow_right (by norm_num) (by norm_num))]
  push_cast; rfl

theorem pyDiv_iff {x y : ℤ} : (∃ z, RV.pyDiv x y = .ok z) ↔ y ≠ 0 ∧ |(x : ℚ) / y| < 2 ^ 1024 - 2 ^ 970 := by
  rw [← floatOverflow_cast]
  constructor
  · rintro ⟨z, h⟩
    exact ⟨(pyDiv_ok h).1, (pyDiv_ok h).2.1⟩
  · rintro ⟨h1, h2⟩
    exact ⟨_, by rw [RV.pyDiv, if_neg h1]; exact toDouble_lt h2⟩

theorem pyDiv_value {x y : ℤ} (h : y ≠ 0 ∧ |(x : ℚ) / y| < 2 ^ 1024 - 2 ^ 970) : RV.pyDiv x y = .ok (dbl ((x : ℚ) / y)) := by
  rw [← floatOverflow_cast] at h
  rw [RV.pyDiv, if_neg h.1]; exact toDouble_lt h.2

theorem truncFn_on {st : Settings} (h : st.rvTrunc = true) (q : ℚ) : RV.truncFn st q = (RV.truncQ q : ℚ) := by
  unfold RV.truncFn RV.truncQ
  rw [if_pos h]
  simp only [PyVal.trunc]
  split <;> rfl

theorem div_mapVals (st : Settings) {X : RV ℤ} (hl : X.vals.length = X.probs.length) (a b : ℤ → ℤ) (hX : mass X.pairs ≠ 0) :
    ((∃ r, RV.mapVals st X (fun x => RV.pyDiv (a x) (b x)) = .ok r) ↔
      ∀ x ∈ X.vals, b x ≠ 0 ∧ |(a x : ℚ) / b x| < 2 ^ 1024 - 2 ^ 970) ∧
    ∀ r, RV.mapVals st X (fun x => RV.pyDiv (a x) (b x)) = .ok r →
      ∃ F : ℤ → ℚ, (∀ x ∈ X.vals, NearestDouble ((a x : ℚ) / b x) (F x)) ∧
      (st.rvTrunc = false → ∀ f, Ex r.pairs f = Ex X.pairs fun x => f (F x)) ∧
      (st.rvTrunc = true → ∀ G : ℤ → ℤ, (∀ x ∈ X.vals, IsTrunc (F x) (G x)) → ∀ f, Ex r.pairs f = Ex X.pairs fun x => f (G x)) := by
  constructor
  · constructor
    · rintro ⟨r, hr⟩ x hx
      exact pyDiv_iff.1 (RV.mapVals_inv hr x hx)
    · intro h
      exact mapVals_succeeds_rat st hl fun x hx => pyDiv_value (h x hx)
  · intro r hr
    have h : ∀ x ∈ X.vals, b x ≠ 0 ∧ |(a x : ℚ) / b x| < 2 ^ 1024 - 2 ^ 970 := fun x hx => pyDiv_iff.1 (RV.mapVals_inv hr x hx)
    have law := RV.mapVals_Ex (F := fun x : ℤ => dbl ((a x : ℚ) / b x)) (fun x hx => pyDiv_value (h x hx)) hr hX
    refine ⟨fun x : ℤ => dbl ((a x : ℚ) / b x), fun x hx => dbl_nearest (by rw [floatOverflow_cast]; exact (h x hx).2), ?_, ?_⟩
    · intro ht f
      simpa only [RV.truncFn_off ht] using law f
    · intro ht G hG f
      rw [law f]
      refine Ex_congr fun x hx _ => ?_
      rw [truncFn_on ht, isTrunc_iff.1 (hG x.1 (RV.mem_vals_of_pairs hx))]

/-- C77. `X / n` succeeds exactly if `n` is not 0 and no quotient is too large for a float; then its outcomes are the floats nearest to the
quotients, with their probabilities; if `RV_TRUNC` is set, without their fractional parts. -/
theorem C77_div_number (st : Settings) {X : RV ℤ} (hl : X.vals.length = X.probs.length) (n : ℤ) (hX : mass X.pairs ≠ 0) :
    ((∃ r, X.truedivNum st n = .ok r) ↔ ∀ x ∈ X.vals, n ≠ 0 ∧ |(x : ℚ) / n| < 2 ^ 1024 - 2 ^ 970) ∧
    ∀ r, X.truedivNum st n = .ok r → ∃ F : ℤ → ℚ, (∀ x ∈ X.vals, NearestDouble ((x : ℚ) / n) (F x)) ∧
      (st.rvTrunc = false → ∀ f, Ex r.pairs f = Ex X.pairs fun x => f (F x)) ∧
      (st.rvTrunc = true → ∀ G : ℤ → ℤ, (∀ x ∈ X.vals, IsTrunc (F x) (G x)) → ∀ f, Ex r.pairs f = Ex X.pairs fun x => f (G x)) :=
  div_mapVals st hl (fun x => x) (fun _ => n) hX

/-- C77. `n / X` succeeds exactly if 0 is not an outcome of `X` and no quotient is too large for a float; its outcomes are the floats nearest to
the quotients. -/
theorem C77_number_div (st : Settings) {X : RV ℤ} (hl : X.vals.length = X.probs.length) (n : ℤ) (hX : mass X.pairs ≠ 0) :
    ((∃ r, RV.rtruedivNum st n X = .ok r) ↔ ∀ x ∈ X.vals, x ≠ 0 ∧ |(n : ℚ) / x| < 2 ^ 1024 - 2 ^ 970) ∧
    ∀ r, RV.rtruedivNum st n X = .ok r → ∃ F : ℤ → ℚ, (∀ x ∈ X.vals, NearestDouble ((n : ℚ) / x) (F x)) ∧
      (st.rvTrunc = false → ∀ f, Ex r.pairs f = Ex X.pairs fun x => f (F x)) ∧
      (st.rvTrunc = true → ∀ G : ℤ → ℤ, (∀ x ∈ X.vals, IsTrunc (F x) (G x)) → ∀ f, Ex r.pairs f = Ex X.pairs fun x => f (G x)) :=
  div_mapVals st hl (fun _ => n) (fun x => x) hX

/-- C77. If no warning was logged, `X / Y` has the floats nearest to `x / y` as outcomes, for independent `x` and `y`; it raises if 0 is an
outcome of `Y`. -/
theorem C77_div_dice (st : Settings) {X Y : RV ℤ} {r : RV ℚ} (hr : X.truediv st Y = .ok (r, false)) (hX : mass X.pairs ≠ 0)
    (hY : mass Y.pairs ≠ 0) : (∀ p ∈ X.pairs, ∀ q ∈ Y.pairs, q.1 ≠ 0) ∧
    ∃ F : ℤ → ℤ → ℚ, (∀ p ∈ X.pairs, ∀ q ∈ Y.pairs, NearestDouble ((p.1 : ℚ) / q.1) (F p.1 q.1)) ∧
      (st.rvTrunc = false → ∀ f, Ex r.pairs f = Ex X.pairs fun x => Ex Y.pairs fun y => f (F x y)) ∧
      (st.rvTrunc = true → ∀ G : ℤ → ℤ → ℤ, (∀ p ∈ X.pairs, ∀ q ∈ Y.pairs, IsTrunc (F p.1 q.1) (G p.1 q.1)) →
        ∀ f, Ex r.pairs f = Ex X.pairs fun x => Ex Y.pairs fun y => f (G x y)) := by
  have h : ∀ p ∈ X.pairs, ∀ q ∈ Y.pairs, q.1 ≠ 0 ∧ |(p.1 : ℚ) / q.1| < 2 ^ 1024 - 2 ^ 970 := fun p hp q hq =>
    pyDiv_iff.1 (RV.convolveRV_inv hr p hp q hq)
  have law := RV.convolveRV_Ex (F := fun x y : ℤ => dbl ((x : ℚ) / y)) (fun p hp q hq => pyDiv_value (h p hp q hq)) hr hX hY
  refine ⟨fun p hp q hq => (h p hp q hq).1, fun x y : ℤ => dbl ((x : ℚ) / y),
    fun p hp q hq => dbl_nearest (by rw [floatOverflow_cast]; exact (h p hp q hq).2), ?_, ?_⟩
  · intro ht f
    simpa only [RV.truncFn_off ht] using law f
  · intro ht G hG f
    rw [law f]
    refine Ex_congr fun x hx _ => Ex_congr fun y hy _ => ?_
    rw [truncFn_on ht, isTrunc_iff.1 (hG x hx y hy)]

/-! ## Floor of a quotient -/

/-- C77. `math.floor(X / n)` is `X // n` (same outcomes, same weights) for ints below `2 ** 53`, unless `RV_TRUNC` is set. -/
theorem C77_floor_div (st : Settings) (ht : st.rvTrunc = false) {X : RV ℤ} (hX : GoodDie X) {n : ℤ} (hn0 : n ≠ 0) (hn : |n| < 2 ^ 53)
    (hv : ∀ x ∈ X.vals, |x| < 2 ^ 53) :
    ∃ q lo d, X.truedivNum st n = .ok q ∧ q.floor st = .ok lo ∧ X.binopNum st .floordiv n = .ok d ∧ lo.vals = d.vals ∧ lo.probs = d.probs := by
  have hp := (Enum.GoodDie.proper hX).pos
  have hz : ∀ p ∈ X.probs, p ≠ 0 := fun p hp => (hX.pos p hp).ne'
  have hlt : ∀ x ∈ X.vals, n ≠ 0 ∧ |(x : ℚ) / n| < 2 ^ 1024 - 2 ^ 970 := by
    intro x hx
    refine ⟨hn0, ?_⟩
    rw [← floatOverflow_cast]
    refine lt_trans ?_ one_lt_floatOverflow
    rw [abs_div]
    have h1 : (1 : ℚ) ≤ |(n : ℚ)| := by exact_mod_cast Int.one_le_abs hn0
    refine (div_le_self (abs_nonneg _) h1).trans_lt ?_
    have h2 : |(x : ℚ)| < 2 ^ 53 := by exact_mod_cast hv x hx
    exact h2.trans (pow_lt_pow_right₀ (by norm_num) (by norm_num))
  have hq : ∀ x ∈ X.vals, RV.pyDiv x n = .ok (dbl ((x : ℚ) / n)) := fun x hx => pyDiv_value (hlt x hx)
  obtain ⟨q, eq⟩ := mapVals_succeeds_rat st hX.len hq
  have qm := RV.mapVals_mass hq eq hp
  have qz := mapVals_nz_any hq eq hz
  have q0 := eq
  rw [RV.mapVals_ok hq] at q0
  have qc := RV.mk'_canonical q0
  have hfl : ∀ v ∈ q.vals, (Except.ok ⌊v⌋ : Except Err ℤ) = .ok ⌊v⌋ := fun _ _ => rfl
  obtain ⟨lo, elo⟩ := mapVals_succeeds_int st qc.len hfl
  have hd : ∀ x ∈ X.vals, BinOp.eval .floordiv x n = .ok (x.fdiv n) := fun x _ => by
    simp only [BinOp.eval]; rw [if_neg hn0]
  obtain ⟨d, ed⟩ := mapVals_succeeds_int st hX.len hd
  refine ⟨q, lo, d, eq, elo, ed, ?_⟩
  have lo0 := elo
  rw [RV.mapVals_ok hfl] at lo0
  have d0 := ed
  rw [RV.mapVals_ok hd] at d0
  refine Canonical_law_ext (RV.mk'_canonical lo0) (RV.mk'_canonical d0) (RV.mapVals_mass hfl elo qm) (RV.mapVals_mass hd ed hp)
    (mapVals_nz_any hfl elo qz) (mapVals_nz_any hd ed hz) fun f => ?_
  rw [RV.mapVals_Ex hfl elo qm, RV.mapVals_Ex hd ed hp, RV.mapVals_Ex hq eq hp]
  refine Ex_congr fun x hx _ => ?_
  simp only [RV.truncFn_int, RV.truncFn_off ht]
  rw [floor_dbl_div (hv _ (RV.mem_vals_of_pairs hx)) hn hn0, floor_div_fdiv hn0]

/-- C77. For large outcomes `math.floor(X / n)` is not `X // n`: the float nearest to `(2 ** 54 - 1) / 2 ** 54` is 1. -/
theorem C77_floor_div_counterexample :
    (⟨[2 ^ 54 - 1], [1], none⟩ : RV ℤ).truedivNum {} (2 ^ 54) = .ok ⟨[1], [1], none⟩ ∧
    (⟨[1], [1], none⟩ : RV ℚ).floor {} = .ok ⟨[1], [1], none⟩ ∧
    (⟨[2 ^ 54 - 1], [1], none⟩ : RV ℤ).binopNum {} .floordiv (2 ^ 54) = .ok ⟨[0], [1], none⟩ := by
  decide +kernel

/-- C77. With `RV_TRUNC` set it is not, for negative outcomes. -/
theorem C77_floor_div_trunc_counterexample :
    (⟨[-1], [1], none⟩ : RV ℤ).truedivNum { rvTrunc := true } 2 = .ok ⟨[0], [1], none⟩ ∧
    (⟨[0], [1], none⟩ : RV ℚ).floor { rvTrunc := true } = .ok ⟨[0], [1], none⟩ ∧
    (⟨[-1], [1], none⟩ : RV ℤ).binopNum { rvTrunc := true } .floordiv 2 = .ok ⟨[-1], [1], none⟩ := by
  decide +kernel

/-! ## Examples -/

example : (⟨[1, 2, 3, 4], [1, 1, 1, 1], none⟩ : RV ℤ).truedivNum {} 2 = .ok ⟨[1 / 2, 1, 3 / 2, 2], [1, 1, 1, 1], none⟩ := by decide +kernel
example : (⟨[1, 2, 3, 4], [1, 1, 1, 1], none⟩ : RV ℤ).truedivNum { rvTrunc := true } 2 = .ok ⟨[0, 1, 2], [1, 2, 1], none⟩ := by decide +kernel
example : (⟨[1 / 2, 1, 3 / 2, 2], [1, 1, 1, 1], none⟩ : RV ℚ).floor {} = .ok ⟨[0, 1, 2], [1, 2, 1], none⟩ := by decide +kernel
example : (⟨[1 / 2, 1, 3 / 2, 2], [1, 1, 1, 1], none⟩ : RV ℚ).ceil {} = .ok ⟨[1, 2], [1, 1], none⟩ := by decide +kernel
example : (⟨[1 / 2, 1, 3 / 2, 2], [1, 1, 1, 1], none⟩ : RV ℚ).round {} = .ok ⟨[0, 1, 2], [1, 1, 2], none⟩ := by decide +kernel
example : (⟨[-3 / 2, 3 / 2], [1, 2], none⟩ : RV ℚ).trunc {} = .ok ⟨[-1, 1], [1, 2], none⟩ := by decide +kernel
example : (⟨[4, 15, 25], [1, 1, 1], none⟩ : RV ℤ).roundI {} (-1) = .ok ⟨[0, 20], [1, 2], none⟩ := by decide +kernel
example : RV.rtruedivNum {} 3 ⟨[2, 4], [1, 1], none⟩ = .ok ⟨[3 / 4, 3 / 2], [1, 1], none⟩ := by decide +kernel
example : RV.rtruedivNum {} 3 ⟨[0, 4], [1, 1], none⟩ = .error .zeroDivision := by decide +kernel
example : (⟨[1, 2], [1, 1], none⟩ : RV ℤ).truediv {} ⟨[2, 4], [1, 1], none⟩ = .ok (⟨[1 / 4, 1 / 2, 1], [1, 2, 1], none⟩, false) := by decide +kernel
example : IsFloor (-3 / 2) (-2) ∧ IsCeil (-3 / 2) (-1) ∧ IsTrunc (-3 / 2) (-1) ∧ IsNearest (-3 / 2) (-2) := by
  refine ⟨⟨by norm_num, by norm_num⟩, ⟨by norm_num, by norm_num⟩, ⟨fun h => ?_, fun _ => ⟨by norm_num, by norm_num⟩⟩, ?_, fun _ => by decide⟩
  · norm_num at h
  · norm_num [abs_le]

end PythonDice
