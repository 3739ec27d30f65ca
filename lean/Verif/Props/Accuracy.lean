import Verif.Proofs.Accuracy
import Verif.Props.Formulas
import Verif.Props.Mix
import Verif.Props.Texts

/-!
# C87: rounded probabilities are nearly right

Totals above the limit are divided and rounded (C28); what is returned is then not exact any more.  How far off it is: by at most `1.1e-20` for
every outcome and every time.
-/

namespace PythonDice

open Spec
open Compiler (Flags Block Expr Stmt compile resolve)
open Lexer

theorem repeated_ExN (l : List (ℤ × ℕ)) (n : ℕ) (f : List ℤ → ℚ) : Repeated (Ex l) n f = ExN n l f := by
  induction n generalizing f with
  | zero => rfl
  | succ n ih => simp only [Repeated, ExN, ih]

theorem repeated_unit {A : (ℤ → ℚ) → ℚ} (hA : UnitLaw A) (n : ℕ) {f : List ℤ → ℚ} (hf : ∀ xs, 0 ≤ f xs ∧ f xs ≤ 1) :
    0 ≤ Repeated A n f ∧ Repeated A n f ≤ 1 := by
  induction n generalizing f with
  | zero => exact hf _
  | succ n ih => exact hA _ fun x => ih fun xs => hf _

/-- Errors add up. -/
theorem repeated_close {l : List (ℤ × ℕ)} {A : (ℤ → ℚ) → ℚ} {ε : ℚ} (hA : UnitLaw A) (h : CloseTo l A ε) (n : ℕ) {f : List ℤ → ℚ}
    (hf : ∀ xs, 0 ≤ f xs ∧ f xs ≤ 1) : |ExN n l f - Repeated A n f| ≤ n * ε := by
  induction n generalizing f with
  | zero => simp [ExN, Repeated]
  | succ n ih =>
    have e1 : |Ex l (fun x => ExN n l fun xs => f (x :: xs)) - Ex l fun x => Repeated A n fun xs => f (x :: xs)| ≤ n * ε :=
      Ex_abs_le h.1 fun x _ => ih fun xs => hf _
    have e2 := h.2 (fun x => Repeated A n fun xs => f (x :: xs)) fun x => repeated_unit hA n fun xs => hf _
    have : |ExN (n + 1) l f - Repeated A (n + 1) f| ≤ |Ex l (fun x => ExN n l fun xs => f (x :: xs)) - Ex l fun x => Repeated A n fun xs => f (x :: xs)| +
        |Ex l (fun x => Repeated A n fun xs => f (x :: xs)) - A fun x => Repeated A n fun xs => f (x :: xs)| := abs_sub_le _ _ _
    push_cast
    linarith

/-- The limiter keeps the outcomes. -/
theorem limit_vals {X X' : RV ℤ} {b : Bool} (hX : X.Proper) (h : RV.probLimit X = .ok (X', b)) : X'.vals = X.vals := by
  cases b with
  | false => rw [RV.probLimit_false h]
  | true => exact (reduction_bound X X' hX.len h).1

theorem run_any (f : Settings → Except Err (RV ℤ × Bool)) (w : World) (r : RV ℤ) (z : Bool) (h : f w.settings = .ok (r, z)) :
    ∃ w', (Obj.rv <$> M.ofLimited f) w = (.ok (.rv r), w') := by
  rw [M.map_apply]
  unfold M.ofLimited
  rw [h]
  cases z <;> exact ⟨_, rfl⟩

/-- **C87** (src/randvar.py:201-213 `RV._convolve`, 447-463 `_INTERNAL_PROB_LIMIT_VALS`): an operation between dice whose totals are within the limit succeeds; if the dice
have the laws `A` and `B` up to `ε` and `δ`, the result has the law of the operation on independent outcomes up to `ε + δ + N * 1.1e-20`, where
`N` is the number of its outcomes, and its total is within the limit again. -/
theorem C87_op (op : BinOp) {a b : RV ℤ} (ha : a.Proper) (hb : b.Proper) (sa : a.probs.sum ≤ RV.sumLimit) (sb : b.probs.sum ≤ RV.sumLimit) (F : ℤ → ℤ → ℤ)
    (hF : ∀ x ∈ a.vals, ∀ y ∈ b.vals, PyOp op x y (F x y)) {A B : (ℤ → ℚ) → ℚ} {ε δ : ℚ} (hA : CloseTo a.pairs A ε) (hB : CloseTo b.pairs B δ)
    (uB : UnitLaw B) (w : World) :
    ∃ (r : RV ℤ) (w' : World), binop op (.rv a) (.rv b) w = (.ok (.rv r), w') ∧ r.probs.sum ≤ RV.sumLimit ∧
      (r.vals.length ≤ 9 * 10 ^ 9 → r.Proper ∧
        CloseTo r.pairs (fun f => A fun x => B fun y => f (F x y)) (ε + δ + r.vals.length * (11 / 10 / 10 ^ 20))) := by
  have hF' : ∀ x ∈ a.vals, ∀ y ∈ b.vals, op.eval x y = .ok (F x y) := fun x hx y hy => (eval_iff _ _ _ _).2 (hF x hx y hy)
  obtain ⟨r, z, h⟩ := binop_total w.settings op ha hb F hF' sa sb
  obtain ⟨r0, h0, hp0, _, hv0, hl0⟩ := binop_before w.settings op ha hb F hF'
  have h' := h
  rw [h0] at h'
  have hvals := limit_vals hp0 h'
  obtain ⟨w', hw'⟩ := run_any (fun st => RV.binop st op a b) w r z h
  refine ⟨r, w', hw', limit_sum hp0 h', fun hn => ?_⟩
  obtain ⟨h1, _, h3⟩ := limit_close hp0 h' (by rw [← hvals]; exact hn)
  refine ⟨h1, h1.pos, fun f hf => ?_⟩
  have e1 := h3 f hf
  rw [hl0, ← hvals] at e1
  have e2 : |Ex a.pairs (fun x => Ex b.pairs fun y => f (F x y)) - Ex a.pairs fun x => B fun y => f (F x y)| ≤ δ :=
    Ex_abs_le ha.pos fun x _ => hB.2 _ fun y => hf _
  have e3 := hA.2 (fun x => B fun y => f (F x y)) fun x => uB _ fun y => hf _
  rw [abs_le] at *
  constructor <;> linarith [e1.1, e1.2, e2.1, e2.2, e3.1, e3.2]

/-- **C87** (src/randvar.py `RV.from_rvs`): a mixture, rounded or not, has the law of the mixture up to `N * 1.1e-20`, where `N` is the number of
its outcomes. -/
theorem C87_mix (st : Settings) (rvs : List (RV.Entry ℤ)) (weights : Option (List ℤ)) (r : RV ℤ) (z : Bool)
    (hlen : (weightsOrOnes rvs.length weights).length = rvs.length)
    (hgood : ∀ d, RV.Entry.rv d ∈ rvs → d.vals.length = d.probs.length ∧ mass d.pairs ≠ 0)
    (hw : ((keptEntries rvs (weightsOrOnes rvs.length weights)).map (·.2)).sum ≠ 0)
    (h : RV.fromRvs st rvs weights = .ok (some r, z)) (hn : r.vals.length ≤ 9 * 10 ^ 9) :
    CloseTo r.pairs (mixture ((keptEntries rvs (weightsOrOnes rvs.length weights)).map fun ew => ((ew.2 : ℚ), entryLaw ew.1)))
      (r.vals.length * (11 / 10 / 10 ^ 20)) := by
  rw [RV.fromRvs_limit, RV.bind_ok_iff] at h
  obtain ⟨x, h0, h1⟩ := h
  cases x with
  | none => cases h1
  | some r0 =>
    unfold RV.limitO at h1
    rw [RV.bind_ok_iff] at h1
    obtain ⟨⟨r', z'⟩, h1, h2⟩ := h1
    cases h2
    rw [weightsOrOnes_eq] at *
    rw [kept_eq_live _ _ hlen.symm] at *
    have hg : ∀ e ∈ rvs, e.Good := by
      intro e he
      cases e with
      | rv d =>
        obtain ⟨h1, h2⟩ := hgood d he
        refine ⟨h1, ?_⟩
        rw [mass_eq_sum, RV.pairs_map_snd d h1] at h2
        exact_mod_cast h2
      | _ => trivial
    have hs : (((RV.live rvs (weights.getD (List.replicate rvs.length 1))).map
        fun (ew : RV.Entry ℤ × ℤ) => (ew.2 : ℚ)).sum) ≠ 0 := by
      have : ((((RV.live rvs (weights.getD (List.replicate rvs.length 1))).map (·.2)).sum : ℤ) : ℚ) =
          (((RV.live rvs (weights.getD (List.replicate rvs.length 1))).map
        fun (ew : RV.Entry ℤ × ℤ) => (ew.2 : ℚ)).sum) := by
        rw [Int.cast_list_sum, List.map_map]; rfl
      rw [← this]
      exact_mod_cast hw
    obtain ⟨hm, law⟩ := RV.fromRvs0_Ex h0 hg hs
    obtain ⟨vs, ps, hmk⟩ := RV.fromRvs0_canonical h0
    have hp0 : r0.Proper := (RV.mk'_canonical hmk).proper hm
    have hvals := limit_vals hp0 h1
    obtain ⟨p1, _, p3⟩ := limit_close hp0 h1 (by rw [← hvals]; exact hn)
    refine ⟨p1.pos, fun f hf => ?_⟩
    have e := p3 f hf
    rw [law f, ← hvals] at e
    simp only [mixture, List.map_map, Function.comp_def]
    simp only [truncFn_of st fun (v : ℤ) (_ : st.rvTrunc = true) => (rfl : PyVal.trunc v = .ok v)] at e
    convert e using 5
    apply List.map_congr_left
    intro ew _
    cases ew.1 <;> rfl

/-- **C87** (src/roller.py `roll`, 84-99 `_roll_int_rv`): after any history, a roll of `n` dice with outcomes from `lo` to `hi` and a total within the
limit succeeds; if the die has the law `A` up to `ε`, the result has the law of the sum of `n` independent outcomes up to
`n * ε + (n - 1) * (n * (hi - lo) + 1) * 1.1e-20`. -/
theorem C87_roll {w : World} (hw : Reachable w) (n : ℤ) {d : RV ℤ} (hd : d.Proper) (hs : d.probs.sum ≤ RV.sumLimit) {lo hi : ℤ}
    (hr : ∀ v ∈ d.vals, lo ≤ v ∧ v ≤ hi) (hb : n.natAbs * (hi - lo) + 1 ≤ 9 * 10 ^ 9) {A : (ℤ → ℚ) → ℚ} (uA : UnitLaw A) {ε : ℚ}
    (hA : CloseTo d.pairs A ε) :
    ∃ (r : RV ℤ) (w' : World), roll (.num n) (.rv d) w = (.ok (.rv r), w') ∧ r.Proper ∧ r.probs.sum ≤ RV.sumLimit ∧
      CloseTo r.pairs (fun f => Repeated A n.natAbs fun xs => f (n.sign * xs.sum))
        (n.natAbs * ε + (n.natAbs - 1 : ℕ) * ((n.natAbs * (hi - lo) + 1 : ℤ) * (11 / 10 / 10 ^ 20))) := by
  obtain ⟨_, h2, h3⟩ := rollInt_close n d w hw.memoClose
  obtain ⟨r, hr'⟩ := h3 hd hs ⟨lo, hi, hr, hb⟩
  have h0 : (0 : ℤ) ≤ n.natAbs * (hi - lo) + 1 := by
    have := mul_nonneg (Int.natCast_nonneg n.natAbs) (sub_nonneg.2 (lo_le_hi hd hr))
    omega
  obtain ⟨L, hL⟩ := Int.eq_ofNat_of_zero_le h0
  obtain ⟨p1, p2, p3⟩ := h2 r hr' hd lo hi hr L (by rw [hL]) (by zify; rw [← hL]; exact hb)
  refine ⟨r, (rollInt n d w).2, ?_, p1, p2 hs, p1.pos, fun f hf => ?_⟩
  · change (Obj.rv <$> rollInt n d) w = _
    rw [M.map_apply]
    cases hx : rollInt n d w with
    | mk res w' =>
      rw [hx] at hr'
      cases hr'
      rfl
  · have e1 := p3.2 f hf
    have e2 := repeated_close uA hA n.natAbs (f := fun xs => f (n.sign * xs.sum)) fun xs => hf _
    rw [hL]
    unfold share at e1
    rw [abs_le] at *
    push_cast
    constructor <;> linarith [e1.1, e1.2, e2.1, e2.2]

/-- The die with sides `1, …, m`. -/
def sides (m : ℕ) : RV ℤ := ⟨(List.range m).map fun i : ℕ => (i : ℤ) + 1, List.replicate m 1, none⟩

theorem sides_pairs (m : ℕ) : (sides m).pairs = (List.range m).map fun i : ℕ => ((i : ℤ) + 1, 1) := by
  unfold RV.pairs sides
  have : List.replicate m 1 = (List.range m).map fun _ => 1 := by rw [List.map_const', List.length_range]
  rw [this, List.zip_map']

theorem sides_Ex (m : ℕ) (f : ℤ → ℚ) : Ex (sides m).pairs f = (∑ x ∈ Finset.range m, f (x + 1)) / m := by
  have hs : ∀ g : ℤ → ℚ, wsum (sides m).pairs g = ∑ x ∈ Finset.range m, g (x + 1) := by
    intro g
    rw [sides_pairs]
    unfold wsum
    rw [List.map_map, ← List.toFinset_range, List.sum_toFinset _ List.nodup_range]
    congr 1
    exact List.map_congr_left fun i _ => by simp
  unfold Ex mass
  rw [hs, hs]
  simp

theorem sides_ExN {m : ℕ} (n : ℕ) (g : List ℤ → ℚ) : ExN n (sides m).pairs g = Naive.mean (Naive.draws (Naive.uniform (Naive.interval 1 m)) n) g := by
  induction n generalizing g with
  | zero => rw [Enum.mean_draws_zero]; rfl
  | succ n ih => rw [Enum.mean_draws_succ, Enum.mean_fair, ExN, sides_Ex]; simp only [ih]

theorem sides_proper {m : ℕ} (hm : 0 < m) : (sides m).Proper := by
  refine ⟨by simp [sides], ?_, by simp [sides]; omega, ?_⟩
  · unfold sides
    rw [List.pairwise_map]
    exact List.pairwise_lt_range.imp (by intro a b h; omega)
  · rw [RV.mass_eq_probs (by simp [sides])]
    simp [sides]; omega

theorem roll_sides (n : Obj) (hn : ∀ s, n ≠ .blank s) (w : World) {m : ℕ} (hm : 0 < m) : roll n (.num m) w = roll n (.rv (sides m)) w := by
  have ha : asDie (.num m) w = (.ok (some (sides m)), w) := by
    have e : pyRange 1 ((m : ℤ) + 1) = (List.range m).map fun i : ℕ => (i : ℤ) + 1 := by
      unfold pyRange
      have : ((m : ℤ) + 1 - 1).toNat = m := by omega
      rw [this]
      apply List.map_congr_left; intro i _; omega
    have hs : ((List.range m).map fun i : ℕ => (i : ℤ) + 1).Pairwise (· < ·) := by
      rw [List.pairwise_map]
      exact List.pairwise_lt_range.imp (by intro a b h; omega)
    have hf := fromSeq_nodup w.settings _ hs (by simp; omega)
    rw [List.length_map, List.length_range] at hf
    unfold asDie
    simp only
    rw [if_pos (by omega), e, M.map_ok_iff]
    exact ⟨_, by change (RV.fromSeq w.settings _, w) = _; rw [hf]; rfl, rfl⟩
  cases n with
  | blank s => exact absurd rfl (hn s)
  | _ =>
    change (asDie (.num m) >>= _) w = (asDie (.rv (sides m)) >>= _) w
    rw [M.bind_ok ha, M.bind_ok (show asDie (.rv (sides m)) w = (.ok (some (sides m)), w) from rfl)]

/-- **C87** (src/roller.py `roll`): after any history, `NdM` succeeds, and shows `s` with the textbook probability up to
`(N - 1) * (N * (M - 1) + 1) * 1.1e-20`, however many cases `M^N` there are. -/
theorem C87_dice {w : World} (hw : Reachable w) {n m : ℕ} (hn : 0 < n) (hm : 0 < m) (hb : n * (m - 1) + 1 ≤ 9 * 10 ^ 9) :
    ∃ (r : RV ℤ) (w' : World), roll (.num n) (.num m) w = (.ok (.rv r), w') ∧ r.Proper ∧
      ∀ s : ℤ, |Pr r.pairs (· = s) - ways n m s / (m : ℚ) ^ n| ≤ (n - 1 : ℕ) * (n * (m - 1) + 1 : ℕ) * (11 / 10 / 10 ^ 20) := by
  have hp := sides_proper hm
  have hsum : (sides m).probs.sum = m := by simp [sides]
  have hle : m - 1 ≤ n * (m - 1) := Nat.le_mul_of_pos_left _ hn
  have hcast : ((n : ℤ) * ((m : ℤ) - 1) + 1) = ((n * (m - 1) + 1 : ℕ) : ℤ) := by
    push_cast [Nat.cast_sub (show 1 ≤ m from hm)]; rfl
  obtain ⟨r, w', h1, h2, _, _, h4⟩ := C87_roll hw n hp (by rw [hsum]; unfold RV.sumLimit; omega) (lo := 1) (hi := m)
    (by
      intro v hv
      simp only [sides, List.mem_map, List.mem_range] at hv
      obtain ⟨i, hi, rfl⟩ := hv
      omega)
    (by rw [Int.natAbs_natCast, hcast]; exact_mod_cast hb) (A := Ex (sides m).pairs) (fun f hf => Ex_unit hp.pos hf) (ε := 0)
    ⟨hp.pos, fun f _ => by simp⟩
  refine ⟨r, w', by rw [roll_sides _ (by simp) w hm]; exact h1, h2, fun s => ?_⟩
  have e := h4 (fun v => if v = s then 1 else 0) fun v => by dsimp only; split <;> norm_num
  have e2 : (Repeated (Ex (sides m).pairs) (n : ℤ).natAbs fun xs => if (n : ℤ).sign * xs.sum = s then (1 : ℚ) else 0) = ways n m s / (m : ℚ) ^ n := by
    rw [repeated_ExN, Int.natAbs_natCast, sides_ExN, Int.sign_eq_one_of_pos (by exact_mod_cast hn)]
    simp only [one_mul]
    have := Enum.mean_draws_fair hm n fun v => if v = s then (1 : ℚ) else 0
    unfold Enum.sumMean at this
    rw [this, ways, Finset.card_filter]
    push_cast
    rfl
  beta_reduce at e
  rw [e2] at e
  refine e.trans (le_of_eq ?_)
  rw [Int.natAbs_natCast, hcast]
  push_cast
  ring

/-! ## Expressions -/

/-- All outcomes of the dice. -/
def allOutcomes : List (RV ℤ) → List (List ℤ)
  | [] => [[]]
  | X :: ds => X.vals.flatMap fun x => (allOutcomes ds).map (x :: ·)

theorem mem_allOutcomes {ds : List (RV ℤ)} {xs : List ℤ} (h : Outcomes ds xs) : xs ∈ allOutcomes ds := by
  induction h with
  | nil => simp [allOutcomes]
  | cons hx _ ih => exact List.mem_flatMap.2 ⟨_, hx, List.mem_map.2 ⟨_, ih, rfl⟩⟩

theorem allOutcomes_length (ds : List (RV ℤ)) : (allOutcomes ds).length = (ds.map fun X => X.vals.length).prod := by
  induction ds with
  | nil => rfl
  | cons X ds ih => simp [allOutcomes, List.length_flatMap, ih]

theorem ExDice_unit {ds : List (RV ℤ)} (h : ∀ X ∈ ds, X.Proper) {f : List ℤ → ℚ} (hf : ∀ xs, 0 ≤ f xs ∧ f xs ≤ 1) : 0 ≤ ExDice ds f ∧ ExDice ds f ≤ 1 := by
  induction ds generalizing f with
  | nil => exact hf _
  | cons X ds ih => exact Ex_unit (h X (List.mem_cons_self ..)).pos fun x => ih (fun Y hY => h Y (List.mem_cons_of_mem _ hY)) fun xs => hf _

theorem objLaw_abs_le {o : Obj} (h : (∃ n, o = .num n) ∨ ∃ r : RV ℤ, o = .rv r ∧ r.Proper) {f g : ℤ → ℚ} {ε : ℚ} (hfg : ∀ x, |f x - g x| ≤ ε) :
    |objLaw o f - objLaw o g| ≤ ε := by
  rcases h with ⟨n, rfl⟩ | ⟨r, rfl, hr⟩
  · exact hfg n
  · exact Ex_abs_le hr.pos fun x _ => hfg x.1

/-- Only operations between two dice round. -/
def opShare (L : ℕ) : Obj → Obj → ℚ
  | .rv _, .rv _ => share L
  | _, _ => 0

/-- An operator with at least one die as operand. -/
theorem obj_op_close (op : BinOp) (a b : Obj) (ha : (∃ n, a = .num n) ∨ ∃ r : RV ℤ, a = .rv r ∧ r.Proper)
    (hb : (∃ n, b = .num n) ∨ ∃ r : RV ℤ, b = .rv r ∧ r.Proper) (hne : ¬ ((∃ n, a = .num n) ∧ ∃ n, b = .num n)) (F : ℤ → ℤ → ℤ)
    (hF : ∀ x ∈ objVals a, ∀ y ∈ objVals b, op.eval x y = .ok (F x y)) (sa : objSum a ≤ RV.sumLimit) (sb : objSum b ≤ RV.sumLimit) (L : ℕ)
    (hL : L ≤ 9 * 10 ^ 9) (hc : ∀ S : List ℤ, S.Nodup → (∀ v ∈ S, ∃ x ∈ objVals a, ∃ y ∈ objVals b, v = F x y) → S.length ≤ L) (w : World) :
    ∃ r w', binop op a b w = (.ok (.rv r), w') ∧ r.Proper ∧ r.probs.sum ≤ RV.sumLimit ∧
      (∀ v ∈ r.vals, ∃ x ∈ objVals a, ∃ y ∈ objVals b, v = F x y) ∧
      ∀ g, UnitValued g → |Ex r.pairs g - objLaw a fun x => objLaw b fun y => g (F x y)| ≤ opShare L a b := by
  rcases ha with ⟨n, rfl⟩ | ⟨X, rfl, hX⟩
  · rcases hb with ⟨m, rfl⟩ | ⟨Y, rfl, hY⟩
    · exact absurd ⟨⟨n, rfl⟩, ⟨m, rfl⟩⟩ hne
    · obtain ⟨r, r1, r2, r3, r4, r5⟩ := obj_op op (.num n) (.rv Y) (.inl ⟨n, rfl⟩) (.inr ⟨Y, rfl, hY⟩) hne F hF (by simpa [objSum] using sb) w
      refine ⟨r, w, r1, r2, by simp only [objSum, one_mul] at r3 sb; exact r3.trans sb, r4, fun g _ => ?_⟩
      rw [r5, sub_self, abs_zero]; exact le_rfl
  · rcases hb with ⟨m, rfl⟩ | ⟨Y, rfl, hY⟩
    · obtain ⟨r, r1, r2, r3, r4, r5⟩ := obj_op op (.rv X) (.num m) (.inr ⟨X, rfl, hX⟩) (.inl ⟨m, rfl⟩) hne F hF (by simpa [objSum] using sa) w
      refine ⟨r, w, r1, r2, by simp only [objSum, mul_one] at r3 sa; exact r3.trans sa, r4, fun g _ => ?_⟩
      rw [r5, sub_self, abs_zero]; exact le_rfl
    · obtain ⟨r, z, h⟩ := binop_total w.settings op hX hY F hF sa sb
      obtain ⟨w', hw'⟩ := run_any (fun st => RV.binop st op X Y) w r z h
      obtain ⟨h1, h2, h3, h4⟩ := binop_close (A := Ex X.pairs) (B := Ex Y.pairs) (ε := 0) (δ := 0) hX hY F hF ⟨hX.pos, fun f _ => by simp⟩
        ⟨hY.pos, fun f _ => by simp⟩ (fun f hf => Ex_unit hY.pos hf) h L hL hc
      refine ⟨r, w', hw', h1, h2, h3, fun g hg => ?_⟩
      have := h4.2 g hg
      simpa [share, objLaw, opShare] using this

/-- The result `o` is nearly right for the expression `e`. -/
structure NearlyRight (L : ℕ) (e : DExpr) (o : Obj) : Prop where
  kind : (e.dice = [] ∧ ∃ n, o = .num n) ∨ (e.dice ≠ [] ∧ ∃ r : RV ℤ, o = .rv r ∧ r.Proper)
  sum_le : objSum o ≤ RV.sumLimit
  vals : ∀ v ∈ objVals o, ∃ xs, Outcomes e.dice xs ∧ Yields e xs v
  law : ∀ F : List ℤ → ℤ, (∀ xs, Outcomes e.dice xs → Yields e xs (F xs)) → ∀ g, UnitValued g →
    |objLaw o g - ExDice e.dice fun xs => g (F xs)| ≤ (e.dice.length - 1 : ℕ) * share L

theorem unary_nearly {L : ℕ} {e e' : DExpr} {o : Obj} (hd : e'.dice = e.dice) (hr : NearlyRight L e o) (G : ℤ → ℤ)
    (hy : ∀ xs x, Yields e xs x → Yields e' xs (G x)) (hy' : ∀ xs z, Yields e' xs z → ∃ x, Yields e xs x)
    (m : Obj → M Obj) (hn : ∀ n w, m (.num n) w = (.ok (.num (G n)), w))
    (hrv : ∀ r : RV ℤ, r.Proper → ∀ w, ∃ q : RV ℤ, m (.rv r) w = (.ok (.rv q), w) ∧ q.Proper ∧ q.probs.sum ≤ r.probs.sum ∧
      (∀ v ∈ q.vals, ∃ x ∈ r.vals, v = G x) ∧ ∀ f, Ex q.pairs f = Ex r.pairs fun x => f (G x)) (w : World) :
    ∃ o', m o w = (.ok o', w) ∧ NearlyRight L e' o' := by
  obtain ⟨hk, hs, hv, hl⟩ := hr
  have hlaw : ∀ F : List ℤ → ℤ, (∀ xs, Outcomes e'.dice xs → Yields e' xs (F xs)) → ∀ g : ℤ → ℚ, UnitValued g →
      |(objLaw o fun x => g (G x)) - ExDice e'.dice fun xs => g (F xs)| ≤ (e'.dice.length - 1 : ℕ) * share L := by
    intro F hF g hg
    classical
    have hex : ∀ xs, Outcomes e.dice xs → ∃ x, Yields e xs x := fun xs hxs => hy' xs _ (hF xs (hd ▸ hxs))
    let F0 : List ℤ → ℤ := fun xs => if h : ∃ x, Yields e xs x then h.choose else 0
    have hF0 : ∀ xs, Outcomes e.dice xs → Yields e xs (F0 xs) := by
      intro xs hxs
      simp only [F0, dif_pos (hex xs hxs)]
      exact (hex xs hxs).choose_spec
    have h1 := hl F0 hF0 (fun x => g (G x)) fun v => hg _
    rw [hd]
    have h2 : (ExDice e.dice fun xs => g (G (F0 xs))) = ExDice e.dice fun xs => g (F xs) := by
      refine ExDice_congr _ _ _ fun xs hxs => ?_
      rw [(hF xs (hd ▸ hxs)).unique (hy xs _ (hF0 xs hxs))]
    rw [h2] at h1
    exact h1
  rcases hk with ⟨h1, n, rfl⟩ | ⟨h1, r, rfl, hp⟩
  · refine ⟨_, hn n w, ⟨.inl ⟨by rw [hd, h1], _, rfl⟩, hs, ?_, hlaw⟩⟩
    intro v hv'
    rw [objVals, List.mem_singleton] at hv'
    obtain ⟨xs, hxs, hyx⟩ := hv n (List.mem_singleton_self _)
    exact ⟨xs, hd ▸ hxs, hv' ▸ hy xs n hyx⟩
  · obtain ⟨q, q1, q2, q3, q4, q5⟩ := hrv r hp w
    refine ⟨_, q1, ⟨.inr ⟨by rw [hd]; exact h1, q, rfl, q2⟩, q3.trans hs, ?_, ?_⟩⟩
    · intro v hv'
      obtain ⟨x, hx, rfl⟩ := q4 v hv'
      obtain ⟨xs, hxs, hyx⟩ := hv x hx
      exact ⟨xs, hd ▸ hxs, hy xs x hyx⟩
    · intro F hF g hg
      have := hlaw F hF g hg
      have e : objLaw (.rv q) g = objLaw (.rv r) fun x => g (G x) := q5 g
      rw [e]; exact this

theorem lengths_pos (ds : List (RV ℤ)) (h : ∀ X ∈ ds, X.Proper) : 1 ≤ (ds.map fun X => X.vals.length).prod := by
  induction ds with
  | nil => simp
  | cons X ds ih =>
    have h1 : 1 ≤ X.vals.length := List.length_pos_of_ne_nil (h X (List.mem_cons_self ..)).nonempty
    have h2 := ih fun Y hY => h Y (List.mem_cons_of_mem _ hY)
    simpa using Nat.mul_le_mul h1 h2

theorem eval_nearly (e : DExpr) (hp : ∀ X ∈ e.dice, X.Proper) (hdef : ∀ xs, Outcomes e.dice xs → ∃ z, Yields e xs z)
    (hs : ∀ X ∈ e.dice, X.probs.sum ≤ RV.sumLimit) (L : ℕ) (hN : (e.dice.map fun X => X.vals.length).prod ≤ L) (hL : L ≤ 9 * 10 ^ 9) (w : World) :
    ∃ o w', e.eval w = (.ok o, w') ∧ NearlyRight L e o := by
  induction e generalizing w with
  | num n =>
    refine ⟨.num n, w, rfl, ⟨.inl ⟨rfl, n, rfl⟩, by simp [objSum, RV.sumLimit], fun v hv => ?_, fun F hF g _ => ?_⟩⟩
    · rw [objVals, List.mem_singleton] at hv
      exact ⟨[], .nil, hv ▸ .num n⟩
    · have : g (F []) = g n := by rw [(hF [] .nil).unique (.num n)]
      simp [objLaw, ExDice, DExpr.dice, this]
  | die X =>
    have hX := hp X (by simp [DExpr.dice])
    refine ⟨.rv X, w, rfl, ⟨.inr ⟨by simp [DExpr.dice], X, rfl, hX⟩, by simpa [DExpr.dice, objSum] using hs, fun v hv => ?_, fun F hF g _ => ?_⟩⟩
    · exact ⟨[v], .cons hv .nil, .die X v⟩
    · have : objLaw (.rv X) g = ExDice (DExpr.die X).dice fun xs => g (F xs) := by
        refine Ex_congr_vals fun x hx => ?_
        have := hF [x] (.cons hx .nil)
        show g x = g (F [x])
        rw [this.unique (.die X x)]
      rw [this, sub_self, abs_zero]
      exact mul_nonneg (Nat.cast_nonneg _) (share_nonneg L)
  | neg a ih =>
    obtain ⟨o, w1, ho, hr⟩ := ih hp (fun xs hxs => by
      obtain ⟨z, hz⟩ := hdef xs hxs
      cases hz with
      | neg _ _ x hx => exact ⟨x, hx⟩) hs hN w
    obtain ⟨o', ho', hr'⟩ := unary_nearly (e := a) (e' := .neg a) rfl hr (fun x => -x) (fun xs x h => .neg a xs x h)
      (fun xs z h => by cases h with | neg _ _ x hx => exact ⟨x, hx⟩) negOp (fun n w => rfl)
      (fun r hr w => by
        obtain ⟨q, h1, h2, h3, h4, h5⟩ := mapVals_full w.settings hr (fun x => BinOp.sub.eval 0 x) (fun x => -x)
          fun x _ => by change Except.ok (0 - x) = _; rw [zero_sub]
        exact ⟨q, run_settings _ w q h1, h2, h3, h4, h5⟩) w1
    exact ⟨o', w1, (M.bind_ok ho).trans ho', hr'⟩
  | abs a ih =>
    obtain ⟨o, w1, ho, hr⟩ := ih hp (fun xs hxs => by
      obtain ⟨z, hz⟩ := hdef xs hxs
      cases hz with
      | abs _ _ x hx => exact ⟨x, hx⟩) hs hN w
    obtain ⟨o', ho', hr'⟩ := unary_nearly (e := a) (e' := .abs a) rfl hr (fun x => |x|) (fun xs x h => .abs a xs x h)
      (fun xs z h => by cases h with | abs _ _ x hx => exact ⟨x, hx⟩) absOp (fun n w => rfl)
      (fun r hr w => by
        obtain ⟨q, h1, h2, h3, h4, h5⟩ := mapVals_full w.settings hr (fun x => .ok |x|) (fun x => |x|) fun x _ => rfl
        exact ⟨q, run_settings _ w q h1, h2, h3, h4, h5⟩) w1
    exact ⟨o', w1, (M.bind_ok ho).trans ho', hr'⟩
  | op o a b iha ihb =>
    have hpa : ∀ X ∈ a.dice, X.Proper := fun X hX => hp X (List.mem_append_left _ hX)
    have hpb : ∀ X ∈ b.dice, X.Proper := fun X hX => hp X (List.mem_append_right _ hX)
    have hla : ∀ xs, Outcomes a.dice xs → xs.length = a.dice.length := fun xs h => h.length_eq.symm
    have hdef2 : ∀ xs, Outcomes a.dice xs → ∀ ys, Outcomes b.dice ys → ∃ z, Yields (.op o a b) (xs ++ ys) z :=
      fun xs hxs ys hys => hdef _ (hxs.append hys)
    obtain ⟨xs0, hxs0⟩ := outcomes_exist _ hpa
    obtain ⟨ys0, hys0⟩ := outcomes_exist _ hpb
    have hda : ∀ xs, Outcomes a.dice xs → ∃ z, Yields a xs z := fun xs hxs => by
      obtain ⟨z, hz⟩ := hdef2 xs hxs ys0 hys0
      obtain ⟨x, y, hx, _⟩ := hz.op_inv (hla xs hxs)
      exact ⟨x, hx⟩
    have hdb : ∀ ys, Outcomes b.dice ys → ∃ z, Yields b ys z := fun ys hys => by
      obtain ⟨z, hz⟩ := hdef2 xs0 hxs0 ys hys
      obtain ⟨x, y, _, hy, _⟩ := hz.op_inv (hla xs0 hxs0)
      exact ⟨y, hy⟩
    have hprod : ((DExpr.op o a b).dice.map fun X => X.vals.length).prod =
        (a.dice.map fun X => X.vals.length).prod * (b.dice.map fun X => X.vals.length).prod := by
      simp [DExpr.dice]
    have hA := lengths_pos _ hpa
    have hB := lengths_pos _ hpb
    have hN' := hN
    rw [hprod] at hN
    obtain ⟨oa, w1, hoa, ra⟩ := iha hpa hda (fun X hX => hs X (List.mem_append_left _ hX)) ((Nat.le_mul_of_pos_right _ hB).trans hN) w
    obtain ⟨ob, w2, hob, rb⟩ := ihb hpb hdb (fun X hX => hs X (List.mem_append_right _ hX)) ((Nat.le_mul_of_pos_left _ hA).trans hN) w1
    have hrun : (DExpr.op o a b).eval w = binop o oa ob w2 := (M.bind_ok hoa).trans (M.bind_ok hob)
    rw [hrun]
    by_cases hnn : a.dice = [] ∧ b.dice = []
    · -- two numbers
      obtain ⟨da, db⟩ := hnn
      obtain ⟨n, rfl⟩ : ∃ n, oa = .num n := by
        rcases ra.kind with ⟨_, h⟩ | ⟨h, _⟩
        · exact h
        · exact absurd da h
      obtain ⟨m, rfl⟩ : ∃ n, ob = .num n := by
        rcases rb.kind with ⟨_, h⟩ | ⟨h, _⟩
        · exact h
        · exact absurd db h
      have hd : (DExpr.op o a b).dice = [] := by simp [DExpr.dice, da, db]
      have hyn : Yields a [] n := by
        obtain ⟨xs, hxs, h⟩ := ra.vals n (List.mem_singleton_self _)
        rw [da] at hxs
        cases hxs
        exact h
      have hym : Yields b [] m := by
        obtain ⟨xs, hxs, h⟩ := rb.vals m (List.mem_singleton_self _)
        rw [db] at hxs
        cases hxs
        exact h
      obtain ⟨z, hz⟩ := hdef [] (by rw [hd]; exact .nil)
      have hval : intBinop o n m = .ok z := by
        obtain ⟨x, y, hx, hy, hz'⟩ := Yields.op_inv (xs := []) (ys := []) hz (by simp [da])
        cases hx.unique hyn
        cases hy.unique hym
        rcases hz' with ⟨h1, h2⟩ | ⟨_, _, rfl, rfl⟩ | ⟨_, _, rfl, rfl⟩
        · have h1 : o ≠ .or_ ∧ o ≠ .and_ := by simpa [da, db] using h1
          rw [← eval_iff] at h2
          rw [← h2]
          cases o <;> first | rfl | exact absurd rfl h1.1 | exact absurd rfl h1.2
        · rfl
        · rfl
      refine ⟨.num z, w2, ?_, ⟨.inl ⟨hd, z, rfl⟩, by simp [objSum, RV.sumLimit], fun v hv => ?_, fun F hF g _ => ?_⟩⟩
      · show (Obj.num <$> M.ofSettings fun _ => intBinop o n m) w2 = _
        rw [M.map_apply]
        unfold M.ofSettings
        rw [hval]
      · rw [objVals, List.mem_singleton] at hv
        exact ⟨[], by rw [hd]; exact .nil, hv ▸ hz⟩
      · rw [hd]
        have := (hF [] (by rw [hd]; exact .nil)).unique hz
        show |g z - g (F [])| ≤ _
        rw [this]; simp
    · have hor : a.dice ≠ [] ∨ b.dice ≠ [] := by
        by_cases h : a.dice = []
        · exact .inr fun h' => hnn ⟨h, h'⟩
        · exact .inl h
      have hop : ∀ xs, Outcomes a.dice xs → ∀ ys, Outcomes b.dice ys → ∀ x y, Yields a xs x → Yields b ys y →
          o.eval x y = .ok (RV.valueOf o.eval x y) ∧ Yields (.op o a b) (xs ++ ys) (RV.valueOf o.eval x y) := by
        intro xs hxs ys hys x y hx hy
        obtain ⟨z, hz⟩ := hdef2 xs hxs ys hys
        obtain ⟨x', y', hx', hy', hz'⟩ := hz.op_inv (hla xs hxs)
        cases hx.unique hx'
        cases hy.unique hy'
        rcases hz' with ⟨h1, h2⟩ | ⟨h1, h2, _⟩ | ⟨h1, h2, _⟩
        · have he := RV.valueOf_ok ⟨z, (eval_iff _ _ _ _).2 h2⟩
          exact ⟨he, .op o a b xs ys x y _ hx hy h1 ((eval_iff _ _ _ _).1 he)⟩
        · exact absurd ⟨h1, h2⟩ hnn
        · exact absurd ⟨h1, h2⟩ hnn
      have ka : (∃ n, oa = .num n) ∨ ∃ r : RV ℤ, oa = .rv r ∧ r.Proper := ra.kind.imp And.right And.right
      have kb : (∃ n, ob = .num n) ∨ ∃ r : RV ℤ, ob = .rv r ∧ r.Proper := rb.kind.imp And.right And.right
      have na : (∃ n, oa = .num n) → a.dice = [] := by
        rintro ⟨n, rfl⟩
        rcases ra.kind with ⟨h, _⟩ | ⟨_, r, h, _⟩
        · exact h
        · cases h
      have nb : (∃ n, ob = .num n) → b.dice = [] := by
        rintro ⟨n, rfl⟩
        rcases rb.kind with ⟨h, _⟩ | ⟨_, r, h, _⟩
        · exact h
        · cases h
      have hsup : ∀ v, (∃ x ∈ objVals oa, ∃ y ∈ objVals ob, v = RV.valueOf o.eval x y) → ∃ xs, Outcomes (DExpr.op o a b).dice xs ∧ Yields (.op o a b) xs v := by
        rintro v ⟨x, hx, y, hy, rfl⟩
        obtain ⟨xs, hxs, hyx⟩ := ra.vals x hx
        obtain ⟨ys, hys, hyy⟩ := rb.vals y hy
        exact ⟨xs ++ ys, hxs.append hys, (hop xs hxs ys hys x y hyx hyy).2⟩
      obtain ⟨r, w3, r1, r2, r3, r4, r5⟩ := obj_op_close o oa ob ka kb (fun h => hnn ⟨na h.1, nb h.2⟩) (RV.valueOf o.eval)
        (fun x hx y hy => by
          obtain ⟨xs, hxs, hyx⟩ := ra.vals x hx
          obtain ⟨ys, hys, hyy⟩ := rb.vals y hy
          exact (hop xs hxs ys hys x y hyx hyy).1)
        ra.sum_le rb.sum_le L hL (fun S hS hv => by
          classical
          have h1 : ∀ v ∈ S, v ∈ (allOutcomes (DExpr.op o a b).dice).map fun xs => if h : ∃ z, Yields (.op o a b) xs z then h.choose else 0 := by
            intro v hv'
            obtain ⟨xs, hxs, hy⟩ := hsup v (hv v hv')
            refine List.mem_map.2 ⟨xs, mem_allOutcomes hxs, ?_⟩
            have hex : ∃ z, Yields (.op o a b) xs z := ⟨v, hy⟩
            rw [dif_pos hex]
            exact hex.choose_spec.unique hy
          have h2 := (List.subperm_of_subset hS h1).length_le
          rw [List.length_map, allOutcomes_length] at h2
          exact h2.trans hN') w2
      refine ⟨.rv r, w3, r1, ⟨.inr ⟨?_, r, rfl, r2⟩, r3, fun v hv => hsup v (r4 v hv), fun F hF g hg => ?_⟩⟩
      · simp only [DExpr.dice, ne_eq, List.append_eq_nil_iff]
        exact hnn
      · classical
        let Fa : List ℤ → ℤ := fun xs => if h : ∃ x, Yields a xs x then h.choose else 0
        let Fb : List ℤ → ℤ := fun xs => if h : ∃ x, Yields b xs x then h.choose else 0
        have hFa : ∀ xs, Outcomes a.dice xs → Yields a xs (Fa xs) := by
          intro xs hxs
          simp only [Fa, dif_pos (hda xs hxs)]
          exact (hda xs hxs).choose_spec
        have hFb : ∀ xs, Outcomes b.dice xs → Yields b xs (Fb xs) := by
          intro xs hxs
          simp only [Fb, dif_pos (hdb xs hxs)]
          exact (hdb xs hxs).choose_spec
        have e1 := r5 g hg
        have e2 : |(objLaw oa fun x => objLaw ob fun y => g (RV.valueOf o.eval x y)) -
            objLaw oa fun x => ExDice b.dice fun ys => g (RV.valueOf o.eval x (Fb ys))| ≤ (b.dice.length - 1 : ℕ) * share L :=
          objLaw_abs_le ka fun x => rb.law Fb hFb (fun y => g (RV.valueOf o.eval x y)) fun v => hg _
        have e3 := ra.law Fa hFa (fun x => ExDice b.dice fun ys => g (RV.valueOf o.eval x (Fb ys))) fun v => ExDice_unit hpb fun xs => hg _
        have e4 : (ExDice a.dice fun xs => ExDice b.dice fun ys => g (RV.valueOf o.eval (Fa xs) (Fb ys))) =
            ExDice (DExpr.op o a b).dice fun xs => g (F xs) := by
          rw [DExpr.dice, ExDice_append]
          refine ExDice_congr _ _ _ fun xs hxs => ?_
          refine ExDice_congr _ _ _ fun ys hys => ?_
          rw [(hF (xs ++ ys) (hxs.append hys)).unique (hop xs hxs ys hys _ _ (hFa xs hxs) (hFb ys hys)).2]
        rw [e4] at e3
        have e5 : opShare L oa ob + (b.dice.length - 1 : ℕ) * share L + (a.dice.length - 1 : ℕ) * share L ≤
            ((DExpr.op o a b).dice.length - 1 : ℕ) * share L := by
          have hlen : (DExpr.op o a b).dice.length = a.dice.length + b.dice.length := by simp [DExpr.dice]
          rw [hlen]
          have hsh := share_nonneg L
          rcases ra.kind with ⟨h1, n, rfl⟩ | ⟨h1, x, rfl, _⟩
          · simp [opShare, h1]
          · rcases rb.kind with ⟨h2, n, rfl⟩ | ⟨h2, y, rfl, _⟩
            · simp [opShare, h2]
            · have h1' : a.dice.length ≠ 0 := fun h0 => h1 (List.length_eq_zero_iff.1 h0)
              have h2' : b.dice.length ≠ 0 := fun h0 => h2 (List.length_eq_zero_iff.1 h0)
              have : a.dice.length + b.dice.length - 1 = 1 + (b.dice.length - 1) + (a.dice.length - 1) := by omega
              rw [this]
              simp only [opShare]
              push_cast
              linarith
        have e6 := abs_sub_le (Ex r.pairs g) (objLaw oa fun x => objLaw ob fun y => g (RV.valueOf o.eval x y)) (ExDice (DExpr.op o a b).dice fun xs => g (F xs))
        have e7 := abs_sub_le (objLaw oa fun x => objLaw ob fun y => g (RV.valueOf o.eval x y))
          (objLaw oa fun x => ExDice b.dice fun ys => g (RV.valueOf o.eval x (Fb ys))) (ExDice (DExpr.op o a b).dice fun xs => g (F xs))
        show |Ex r.pairs g - _| ≤ _
        linarith

/-- **C87** (src/randvar.py:263-358): expressions over independent dice whose totals are within the limit always succeed where they have a value, and
the result has the law of the value up to `(D - 1) * N * 1.1e-20`, where `D` is the number of dice in the expression and `N` the number of cases
of their outcomes: C52 without its bound on the product of the totals. -/
theorem C87_expression (e : DExpr) (hp : ∀ X ∈ e.dice, X.Proper) (F : List ℤ → ℤ) (hF : ∀ xs, Outcomes e.dice xs → Yields e xs (F xs))
    (hs : ∀ X ∈ e.dice, X.probs.sum ≤ RV.sumLimit) (hN : (e.dice.map fun X => X.vals.length).prod ≤ 9 * 10 ^ 9) (hd : e.dice ≠ []) (w : World) :
    ∃ (r : RV ℤ) (w' : World), e.eval w = (.ok (.rv r), w') ∧ r.Proper ∧ (∀ v ∈ r.vals, ∃ xs, Outcomes e.dice xs ∧ v = F xs) ∧
      CloseTo r.pairs (fun g => ExDice e.dice fun xs => g (F xs))
        ((e.dice.length - 1 : ℕ) * ((e.dice.map fun X => X.vals.length).prod * (11 / 10 / 10 ^ 20))) := by
  obtain ⟨o, w', ho, hk, _, hv, hl⟩ := eval_nearly e hp (fun xs hxs => ⟨_, hF xs hxs⟩) hs _ le_rfl hN w
  rcases hk with ⟨h1, _⟩ | ⟨h1, r, rfl, hr⟩
  · exact absurd h1 hd
  · refine ⟨r, w', ho, hr, fun v hv' => ?_, hr.pos, fun g hg => hl F hF g hg⟩
    obtain ⟨xs, hxs, hy⟩ := hv v hv'
    exact ⟨xs, hxs, hy.unique (hF xs hxs)⟩

/-! ## Texts -/

/-- `output e` is compiled, read and run. -/
theorem output_runs {fl : Flags} {s : List Char} {e : Expr} (hnb : ¬ Py.BlankLine s) (hr : reports Char.isDigit s = [])
    (ht : tokens Char.isDigit s = tok .output "output" :: exprToks e) (hw : Written e)
    (hcall : ∀ cs, SubExpr (.call cs) e → callSig cs ∈ librarySigs ∧ fl.libConflict = false) (hlit : LiteralsIn PlainChar (exprToks e))
    (hc : allSub (clean fl) e = true) (hf : freeX fl.style e = true) :
    ∃ t, compile fl Char.isDigit s = .ok t ∧ (∃ p, Py.ReadsProgram t p) ∧ ∀ p, Py.ReadsProgram t p → ∀ n w,
      (Exec.unsafeExec n p w).1 = (run fl.style.rules n (outputTree e) w).1 := by
  have hs : SourceOf (tokens Char.isDigit s) (outputTree e) := ⟨by rw [ht]; simp [outputTree, blockToks, stmtToks], hw, trivial⟩
  obtain ⟨t, h⟩ := (C59_accepts fl Char.isDigit s).2 ⟨hnb, hr, outputTree e, hs, fun d body h => (by cases stmt_of_output h),
    .inl ⟨e, .head _ _⟩, fun _ q ⟨st, e', cs, h1, h2, h3, h4⟩ => by
      cases stmt_of_output h1
      cases h2
      have := hcall cs h3
      refine .inr ⟨h4 ▸ this.1, this.2, ?_⟩
      rintro ⟨q, _, d, body, hd, _⟩
      cases stmt_of_output hd⟩
  have hlit' : LiteralsIn PlainChar (tokens Char.isDigit s) := by
    rw [ht]
    intro t ht hk
    rcases List.mem_cons.1 ht with rfl | ht
    · rcases hk with hk | hk <;> cases hk
    · exact hlit t ht hk
  have hp := passFlags_output fl e
  have hc' : cleanB (passFlags fl (outputTree e)) (outputTree e) = true := by rw [hp]; simp [outputTree, cleanB, cleanS, hc]
  have hn : noResultB (outputTree e) = true := rfl
  have hf' : freeB (passFlags fl (outputTree e)).style true (outputTree e) = true := by rw [hp]; simp [outputTree, freeB, freeS, hf]
  refine ⟨t, h, ⟨_, (C62_reads_partial fl h hs hlit' hc' hn _).2 rfl⟩, fun p hp' n w => ?_⟩
  obtain ⟨d, hd⟩ := C63_run_partial fl h hs hlit' hc' hn hf' hp' n w
  rw [hp] at hd
  rw [hd]

/-- **C87**: for all numbers `N` and `M`, the program `output NdM` compiles, Python can read the result, and running it outputs one die, which shows
`s` with the textbook probability up to `(N - 1) * (N * (M - 1) + 1) * 1.1e-20`: C86 without its bound on the number of cases. -/
theorem C87_text (fl : Flags) {n m : ℕ} {N M : List Char} (hN : NatText n N) (hM : NatText m M) (hn : 0 < n) (hm : 0 < m)
    (hb : n * (m - 1) + 1 ≤ 9 * 10 ^ 9) :
    ∃ t, compile fl Char.isDigit ("output ".toList ++ N ++ "d".toList ++ M) = .ok t ∧ (∃ p, Py.ReadsProgram t p) ∧ ∀ p, Py.ReadsProgram t p → ∀ k,
      ∃ r : RV ℤ, (Exec.unsafeExec k p {}).1 = .ok [(.rv r, none)] ∧ r.Proper ∧
        ∀ s : ℤ, |Pr r.pairs (· = s) - ways n m s / (m : ℚ) ^ n| ≤ (n - 1 : ℕ) * (n * (m - 1) + 1 : ℕ) * (11 / 10 / 10 ^ 20) := by
  obtain ⟨f1, i1, d1⟩ := natText_number hN
  obtain ⟨f2, i2, d2⟩ := natText_number hM
  have hl := C42_render asciiDigits_isDigit [] (.inr rfl) [(tok .output "output", " ".toList), (⟨.number, N⟩, []), (tok .dOp "d", []), (⟨.number, M⟩, [])]
    (by
      simp only [List.forall_mem_cons, List.not_mem_nil, false_implies, implies_true, and_true]
      exact ⟨⟨form_tok rfl (by decide), by simp [InLiteral, tok]⟩, ⟨f1, by simp [InLiteral]⟩, ⟨form_tok rfl (by decide), by simp [InLiteral, tok]⟩, f2,
        by simp [InLiteral]⟩)
    ⟨.inl .space, .inr ⟨rfl, fun c hc => by cases hc; exact (by decide : ¬ Char.isDigit 'd' = true)⟩, .inr ⟨rfl, number_head f2 digit_not_low⟩, .inr rfl⟩
  have e : [] ++ render [(tok .output "output", " ".toList), (⟨.number, N⟩, []), (tok .dOp "d", []), (⟨.number, M⟩, [])] =
      "output ".toList ++ N ++ "d".toList ++ M := by
    simp [render, tok]
  rw [e] at hl
  obtain ⟨t, h1, h2, h3⟩ := output_runs (fl := fl) (e := .ndm (.num N) (.num M)) (fun h => absurd (h 'o' (by simp)) (by decide)) hl.2 (by rw [hl.1]; rfl)
    ⟨rfl, rfl, trivial, trivial⟩ (fun cs h => by cases h with | ndmL h => cases h | ndmR h => cases h)
    (fun t ht hk => by
      simp only [exprToks, List.mem_append, List.mem_cons, List.not_mem_nil, or_false] at ht
      rcases ht with rfl | rfl | rfl <;> rcases hk with hk | hk <;> cases hk)
    (by simp [allSub, clean, i1, i2]) rfl
  refine ⟨t, h1, h2, fun p hp k => ?_⟩
  obtain ⟨r, w', r1, r2, r3⟩ := C87_dice (w := {}) .init hn hm hb
  refine ⟨r, ?_, r2, r3⟩
  rw [h3 p hp k {}]
  have hrun : runE fl.style.rules (runCall fl.style.rules k) (if fl.style.rules.lib then libraryFns else []) ⟨none, [], []⟩ (.ndm (.num N) (.num M)) {} =
      (.ok (.rv r), w') := by
    rw [← r1]
    simp only [runE, d1, d2]
    rfl
  have hcalm := (Calm.roll (.num n) (.num m) {} .init).2.2.2
  rw [r1] at hcalm
  have hb : runB fl.style.rules (runCall fl.style.rules k) (outputTree (.ndm (.num N) (.num M))) ⟨if fl.style.rules.lib then libraryFns else [], ⟨none, [], []⟩⟩ {} =
      (.ok (⟨if fl.style.rules.lib then libraryFns else [], ⟨none, [], []⟩⟩, none), { w' with outs := w'.outs ++ [(.rv r, none)] }) := by
    have hS : runS fl.style.rules (runCall fl.style.rules k) (.output (.ndm (.num N) (.num M))) ⟨if fl.style.rules.lib then libraryFns else [], ⟨none, [], []⟩⟩ {} =
        (.ok (⟨if fl.style.rules.lib then libraryFns else [], ⟨none, [], []⟩⟩, none), { w' with outs := w'.outs ++ [(.rv r, none)] }) := by
      rw [runS, PythonDice.M.bind_ok hrun]
      rfl
    rw [outputTree, runB, PythonDice.M.bind_ok hS]
    rfl
  have : (run fl.style.rules k (outputTree (.ndm (.num N) (.num M))) {}).1 = .ok (w'.outs ++ [(.rv r, none)]) := by
    unfold Spec.run
    rw [PythonDice.M.bind_ok (show PythonDice.M.modify (fun w : World => { w with outs := [] }) {} = (.ok (), {}) from rfl), PythonDice.M.bind_ok hb]
    rfl
  rw [this, show w'.outs = [] from hcalm]
  rfl

/-! ## Cases -/

/-- A die with a weight above the square root of the limit. -/
def weighty : RV ℤ := ⟨[0, 1], [1, 10 ^ 16], none⟩

theorem weighty_proper : weighty.Proper := ⟨rfl, by decide, by decide, by norm_num [mass, wsum, RV.pairs, weighty]⟩

/-- Two of them: the total of the weights is above the limit, they are rounded, a warning is logged, and 0 has lost its weight 1 of 10^32: the
hypotheses of `C87_roll` hold, with error `3 * 1.1e-20`. -/
example : weighty.Proper ∧ weighty.probs.sum ≤ RV.sumLimit ∧ (∀ v ∈ weighty.vals, 0 ≤ v ∧ v ≤ 1) ∧ (2 : ℤ).natAbs * ((1 : ℤ) - 0) + 1 ≤ 9 * 10 ^ 9 ∧
    (roll (.num 2) (.rv weighty) {}).1 = .ok (.rv ⟨[0, 1, 2], [0, 20000, 100000000000000000000], some (2, [0, 1], [1, 10 ^ 16])⟩) ∧
    (roll (.num 2) (.rv weighty) {}).2.warns = 1 :=
  ⟨weighty_proper, by decide +kernel, by decide, by decide, by decide +kernel, by decide +kernel⟩

/-- The error is not zero. -/
example : |Pr [((0 : ℤ), 0), (1, 20000), (2, 100000000000000000000)] (· = 0) - 1 / (10 ^ 16 + 1) ^ 2| > 0 ∧
    |Pr [((0 : ℤ), 0), (1, 20000), (2, 100000000000000000000)] (· = 0) - 1 / (10 ^ 16 + 1) ^ 2| ≤ 3 * (11 / 10 / 10 ^ 20) := by
  constructor <;> norm_num [Pr, Ex, mass, wsum, abs_of_nonneg, abs_of_neg]

/-- `d + 2 * d`, for `C87_expression`. -/
example : ∃ e : DExpr, e = .op .add (.die weighty) (.op .mul (.num 2) (.die weighty)) ∧ e.dice.length = 2 ∧
    (e.dice.map fun X => X.vals.length).prod = 4 ∧
    (e.eval {}).1 = .ok (.rv ⟨[0, 1, 2, 3], [0, 10000, 10000, 100000000000000000000], none⟩) ∧ (e.eval {}).2.warns = 1 ∧ Yields e [1, 0] 1 :=
  ⟨_, rfl, rfl, rfl, by decide +kernel, by decide +kernel,
    .op _ _ _ [1] [0] 1 0 1 (.die _ 1) (.op _ _ _ [] [0] 2 0 0 (.num 2) (.die _ 0) (.inr (.inl (by simp [DExpr.dice]))) (.mul 2 0))
      (.inl (by simp [DExpr.dice])) (.add 1 0)⟩

/-- A rounded mixture, for `C87_mix`. -/
example : RV.fromRvs {} [.rv weighty, .rv ⟨[0, 1], [1, 10 ^ 16 + 1], none⟩, .num 5] (some [1, 2, 1]) =
    .ok (some ⟨[0, 1, 5], [7500, 75000000000000015000, 25000000000000007500], none⟩, true) := by decide +kernel

/-- 100d6 is right up to 10^-15, and 1000d20 up to 10^-12. -/
example : ((100 - 1 : ℕ) * (100 * (6 - 1) + 1 : ℕ) * (11 / 10 / 10 ^ 20) : ℚ) < 1 / 10 ^ 15 ∧
    ((1000 - 1 : ℕ) * (1000 * (20 - 1) + 1 : ℕ) * (11 / 10 / 10 ^ 20) : ℚ) < 1 / 10 ^ 12 ∧ ¬ 6 ^ 100 ≤ RV.sumLimit := by
  refine ⟨by norm_num, by norm_num, by decide +kernel⟩

/-- The numbers of `output 100d6`. -/
example : NatText 100 "100".toList ∧ NatText 6 "6".toList :=
  ⟨⟨⟨[1, 0, 0], rfl, by decide, by decide, by decide, by decide⟩⟩, natText_digit (d := 6) (by decide)⟩

end PythonDice
