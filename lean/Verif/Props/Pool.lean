import Verif.Props.Cast
import Verif.Spec.Pool

/-!
# Properties of selecting positions of a pool: C12, C13, C48
-/

namespace PythonDice
open Spec

/-- The `k`-th of the draws `xs` in the order given by the 'position order' setting. -/
def kthDraw (ord : PosOrder) (xs : List ℤ) (k : ℤ) : ℤ :=
  match ord with
  | .highestFirst => kthHighest xs k
  | .lowestFirst => kthLowest xs k

theorem kthHighest_eq {xs : List ℤ} {k : ℤ} {i : ℕ} (h : (xs.length : ℤ) - k + 1 = i + 1) (hk : 1 ≤ k) :
    kthHighest xs k = (ascending xs).getD i 0 := by
  unfold kthHighest
  have hl := ascending_length xs
  rw [if_pos hk, descending_eq_reverse, List.getD_eq_getElem?_getD, List.getD_eq_getElem?_getD,
    List.getElem?_reverse (by omega)]
  congr 2
  omega

theorem getItem_descending (xs : List ℤ) (k : ℤ) : getItem (descending xs) k = kthHighest xs k := by
  unfold getItem kthHighest
  by_cases h : 1 ≤ k
  · rw [if_pos h]
    split
    · rfl
    · rw [List.getD_eq_default]; omega
  · rw [if_neg h, if_neg (by omega)]

/-- What selecting position `k` of a pool of `n` dice `D` gives. -/
theorem triple_kth {st : Settings} (r : RV ℤ) (k : ℤ) (hP : r.source.2.Proper) (hc : Coprime r.source.2.probs)
    (hz : st.rvIgnoreZeroProbs = true → ∀ p ∈ r.source.2.probs, p ≠ 0) :
    Triple (· = st) (rvRmatmul [k] r) fun o =>
      if 1 ≤ k ∧ k ≤ r.source.1 then
        ∃ q, o = .rv q ∧ mass q.pairs ≠ 0 ∧
          ∀ f, Ex q.pairs f = ExN r.source.1 r.source.2.pairs fun xs => f (kthDraw st.positionOrder xs k)
      else o = .num 0 := by
  change Triple _ (M.ofLimited _ >>= _) _
  refine Triple.bind (P := fun x => if 1 ≤ k ∧ k ≤ r.source.1 then
        ∃ q : RV ℤ, x = some q ∧ mass q.pairs ≠ 0 ∧
          ∀ f, Ex q.pairs f = ExN r.source.1 r.source.2.pairs fun xs => f (kthDraw st.positionOrder xs k)
      else x = none) (Triple.ofLimited ?_) (fun x hx => ?_) fun x => Triple.pure True.intro
  · intro st' x hst hx
    rw [hst] at hx
    clear hst st'
    by_cases hk : 1 ≤ k ∧ k ≤ r.source.1
    · rw [if_pos hk]
      obtain ⟨i, hi, hki⟩ : ∃ i : ℕ, i < r.source.1 ∧ RV.ascRank st r.source.1 k = i + 1 := by
        unfold RV.ascRank
        split
        · exact ⟨((r.source.1 : ℤ) - k).toNat, by omega, by omega⟩
        · exact ⟨(k - 1).toNat, by omega, by omega⟩
      cases x with
      | none =>
        rw [RV.kthOrder_eq (fun _ _ => rfl) hP.len hP.sorted hP.nonempty hz hc] at hx
        simp only [hki] at hx
        rw [if_neg (by omega), RV.bind_ok_iff] at hx
        obtain ⟨_, _, hx⟩ := hx
        rw [RV.bind_ok_iff] at hx
        obtain ⟨_, _, hx⟩ := hx
        cases hx
      | some q =>
        obtain ⟨h1, h2⟩ := RV.kthOrder_law (fun _ _ => rfl) hP.len hP.sorted hz hc hP.pos r.source.1 i k hi hki hx rfl 0
        refine ⟨q, rfl, h1, fun f => ?_⟩
        rw [h2]
        refine ExN_congr fun xs hxs => ?_
        unfold RV.ascRank at hki
        unfold kthDraw
        cases hp : st.positionOrder with
        | highestFirst =>
          rw [hp] at hki
          simp only at hki ⊢
          rw [kthHighest_eq (by rw [hxs]; exact hki) hk.1]
        | lowestFirst =>
          rw [hp] at hki
          simp only at hki ⊢
          rw [kthLowest, if_pos hk.1]
          congr 3; omega
    · rw [if_neg hk]
      rw [RV.kthOrder_eq (fun _ _ => rfl) hP.len hP.sorted hP.nonempty hz hc] at hx
      have : RV.ascRank st r.source.1 k < 1 ∨ (r.source.1 : ℤ) < RV.ascRank st r.source.1 k := by
        unfold RV.ascRank
        split <;> omega
      simp only [if_pos this] at hx
      cases hx; rfl
  · split at hx
    · rename_i hk
      obtain ⟨q, rfl, h⟩ := hx
      exact Triple.pure (by rw [if_pos hk]; exact ⟨q, rfl, h⟩)
    · rename_i hk
      subst hx
      exact Triple.pure (by rw [if_neg hk])

theorem triple_sumAt {I : Settings → Prop} (r : RV ℤ) (hP : r.source.2.Proper) (locs : List ℤ) :
    Triple I (castCall sumAtFn [(some .S, .rv r), (some .S, .seq locs)]) fun v => ∃ q, v = some (.rv q) ∧ q.Proper ∧
      ∀ f, Ex q.pairs f = ExN r.source.1 r.source.2.pairs fun xs => f (locs.map (kthHighest xs)).sum := by
  have T := triple_castCall_total (I := I) (f := sumAtFn) (args := [(some .S, .rv r), (some .S, .seq locs)])
    (K := fun a g => match a with
      | [.seq o, .seq l] => g (sumAt o l)
      | _ => 0) (by simp [castAborts]) (by simpa [ArgOk] using hP) ⟨(some .S, .rv r), by simp, trivial⟩ (fun c hc => by
      simp only [List.map_cons, List.map_nil, slotOf, combos, Slot.choices, List.mem_flatMap, List.mem_map,
        List.mem_singleton] at hc
      obtain ⟨_, ⟨x, _, rfl⟩, _, ⟨_, rfl, _, rfl, rfl⟩, rfl⟩ := hc
      exact Triple.pure ⟨rfl, trivial⟩)
  refine Triple.mono T ?_
  rintro v ⟨q, rfl, hq, hl⟩
  refine ⟨q, rfl, hq, fun f => ?_⟩
  rw [hl]
  simp only [argsLaw, argLaw, sumAt, getItem_descending]

theorem tame_sumAtFn {I : Settings → Prop} (a : List Obj) : Triple I (sumAtFn a) fun _ => True := by
  unfold sumAtFn
  split
  · exact Triple.pure True.intro
  · exact Triple.throw

theorem tame_rvRmatmul {I : Settings → Prop} (locs : List ℤ) (r : RV ℤ) : Triple I (rvRmatmul locs r) fun _ => True := by
  unfold rvRmatmul
  split
  · exact Triple.bind' (Triple.ofLimited fun _ _ _ _ => True.intro) fun x => Triple.pure True.intro
  · exact Triple.bind' (tame_castCall tame_sumAtFn _) fun x => Triple.pure True.intro

theorem tame_matmul {I : Settings → Prop} (a b : Obj) : Triple I (matmul a b) fun _ => True := by
  unfold matmul
  split
  · exact Triple.throw
  · exact Triple.pure True.intro
  · exact tame_rvRmatmul _ _
  · exact Triple.pure True.intro
  · exact Triple.bind' (Triple.ofSettings fun _ _ _ _ => True.intro) fun x => Triple.pure True.intro
  · exact Triple.pure True.intro
  · exact tame_rvRmatmul _ _
  · exact Triple.pure True.intro
  · exact Triple.throw
  · exact Triple.throw

/-! ## C12 -/

/-- C12 (partial): `k @ roll(n, X)` is the `k`-th of `n` draws, 0 for any other `k`.  Missing: `roll(1, X)` of a pool `X`, and dice listing zero
weights while 'RV_IGNORE_ZERO_PROBS' is on, for which it is false (see the counterexamples). -/
theorem C12_kth_partial {w w' : World} (hw : Reachable w) (n k : ℤ) (X : RV ℤ) (hX : X.Proper) (hc : Coprime X.probs)
    (hn : 2 ≤ n ∨ (n = 1 ∧ X.src = none)) (hz : w.settings.rvIgnoreZeroProbs = true → ∀ p ∈ X.probs, p ≠ 0) {o : Obj}
    (h : (do let p ← roll (.num n) (.rv X); matmul (.num k) p) w = (.ok o, w')) (h0 : w'.warns = 0) :
    if 1 ≤ k ∧ k ≤ n then
      ∃ q, o = .rv q ∧ mass q.pairs ≠ 0 ∧
        ∀ f, Ex q.pairs f = ExN n.natAbs X.pairs fun xs => f (kthDraw w.settings.positionOrder xs k)
    else o = .num 0 := by
  have T : Triple (· = w.settings) (do let p ← roll (.num n) (.rv X); matmul (.num k) p) fun o =>
      if 1 ≤ k ∧ k ≤ n then
        ∃ q, o = .rv q ∧ mass q.pairs ≠ 0 ∧
          ∀ f, Ex q.pairs f = ExN n.natAbs X.pairs fun xs => f (kthDraw w.settings.positionOrder xs k)
      else o = .num 0 := by
    refine Triple.bind (roll_source n X hX hn) ?_ fun p => tame_matmul _ _
    rintro p ⟨r, rfl, _, s1, s2, s3⟩
    have hpairs : r.source.2.pairs = X.pairs := by rw [RV.pairs, RV.pairs, s2, s3]
    refine Triple.mono (triple_kth r k (RV.Proper.congr s2.symm s3.symm hX) (by rw [s3]; exact hc) (by rw [s3]; exact hz)) ?_
    intro o ho
    rw [hpairs, s1] at ho
    have e : (1 ≤ k ∧ k ≤ (n.natAbs : ℤ)) ↔ (1 ≤ k ∧ k ≤ n) := by omega
    simpa only [e] using ho
  exact T.run hw rfl h h0

/-- the best of three dice, and the worst -/
example : ((do let p ← roll (.num 3) (.rv ⟨[1, 2], [1, 1], none⟩); matmul (.num 1) p) {}).1 =
    .ok (.rv ⟨[1, 2], [1, 7], none⟩) := by decide +kernel

example : ((do let p ← roll (.num 3) (.rv ⟨[1, 2], [1, 1], none⟩); matmul (.num 1) p)
    { settings := { positionOrder := .lowestFirst } }).1 = .ok (.rv ⟨[1, 2], [7, 1], none⟩) := by decide +kernel

/-- C12 fails for one "die" that is itself a pool: `1 @ roll(1, 2d2)` is the best die, not the pool. -/
theorem C12_pool_counterexample :
    ((do let p ← roll (.num 2) (.rv ⟨[1, 2], [1, 1], none⟩)
         let q ← roll (.num 1) p
         let a ← matmul (.num 1) q
         pure (p, a)) {}).1 =
      .ok (.rv ⟨[2, 3, 4], [1, 2, 1], some (2, [1, 2], [1, 1])⟩, .rv ⟨[1, 2], [1, 3], none⟩) := by
  decide +kernel

/-- C12 fails when the die lists a zero weight and 'RV_IGNORE_ZERO_PROBS' has been switched on: the call raises IndexError. -/
theorem C12_zero_weight_counterexample :
    ((do let p ← roll (.num 2) (.rv ⟨[1, 2, 3], [0, 1, 1], none⟩); matmul (.num 1) p)
      { settings := { rvIgnoreZeroProbs := true } }).1 = .error .index := by
  decide +kernel

/-- The hypothesis on the weights is needed: with weights (2, 2) the wrong cumulative weights are used. -/
theorem C12_coprime_needed :
    ((do let p ← roll (.num 2) (.rv ⟨[0, 1], [2, 2], none⟩); matmul (.num 1) p) {}).1 ≠
      ((do let p ← roll (.num 2) (.rv ⟨[0, 1], [1, 1], none⟩); matmul (.num 1) p) {}).1 := by
  decide +kernel

/-! ## C13 -/

/-- C13 (partial): `locs @ roll(n, X)` is the sum of the selected draws in descending order.  Missing: with 'lowest first' several positions
are still counted from the highest (see the counterexample); as in C12, pools of one pool and zero weights for a single position. -/
theorem C13_select_partial {w w' : World} (hw : Reachable w) (n : ℤ) (locs : List ℤ) (X : RV ℤ) (hX : X.Proper)
    (hn : 2 ≤ n ∨ (n = 1 ∧ X.src = none)) (hl : locs.length ≠ 1) {o : Obj}
    (h : (do let p ← roll (.num n) (.rv X); matmul (.seq locs) p) w = (.ok o, w')) (h0 : w'.warns = 0) :
    ∃ q, o = .rv q ∧ mass q.pairs ≠ 0 ∧
      ∀ f, Ex q.pairs f = ExN n.natAbs X.pairs fun xs => f (locs.map (kthHighest xs)).sum := by
  have T : Triple (fun _ => True) (do let p ← roll (.num n) (.rv X); matmul (.seq locs) p) fun o =>
      ∃ q, o = .rv q ∧ mass q.pairs ≠ 0 ∧
        ∀ f, Ex q.pairs f = ExN n.natAbs X.pairs fun xs => f (locs.map (kthHighest xs)).sum := by
    refine Triple.bind (roll_source n X hX hn) ?_ fun p => tame_matmul _ _
    rintro p ⟨r, rfl, _, s1, s2, s3⟩
    have hpairs : r.source.2.pairs = X.pairs := by rw [RV.pairs, RV.pairs, s2, s3]
    have e : matmul (.seq locs) (.rv r) = (do
        let res ← castCall sumAtFn [(some .S, .rv r), (some .S, .seq locs)]
        return res.getD (.blank false)) := by
      change rvRmatmul locs r = _
      unfold rvRmatmul
      split
      · simp at hl
      · rfl
    rw [e]
    refine Triple.bind (triple_sumAt r (RV.Proper.congr s2.symm s3.symm hX) locs) ?_ fun v => Triple.pure True.intro
    rintro v ⟨q, rfl, hq, hlaw⟩
    refine Triple.pure ⟨q, rfl, hq.pos, fun f => ?_⟩
    rw [hlaw, s1, hpairs]
  exact T.run hw trivial h h0

/-- C13 (partial), one position: as in C12. -/
theorem C13_select_one_partial {w w' : World} (hw : Reachable w) (n k : ℤ) (X : RV ℤ) (hX : X.Proper) (hc : Coprime X.probs)
    (hn : 2 ≤ n ∨ (n = 1 ∧ X.src = none)) (hz : w.settings.rvIgnoreZeroProbs = true → ∀ p ∈ X.probs, p ≠ 0) {o : Obj}
    (h : (do let p ← roll (.num n) (.rv X); matmul (.seq [k]) p) w = (.ok o, w')) (h0 : w'.warns = 0) :
    if 1 ≤ k ∧ k ≤ n then
      ∃ q, o = .rv q ∧ mass q.pairs ≠ 0 ∧
        ∀ f, Ex q.pairs f = ExN n.natAbs X.pairs fun xs => f (kthDraw w.settings.positionOrder xs k)
    else o = .num 0 := by
  refine C12_kth_partial hw n k X hX hc hn hz (o := o) (w' := w') ?_ h0
  rw [M.bind_ok_iff] at h ⊢
  obtain ⟨p, w1, h1, h2⟩ := h
  refine ⟨p, w1, h1, ?_⟩
  rw [roll_num_rv, M.map_ok_iff] at h1
  obtain ⟨r, _, rfl⟩ := h1
  exact h2

example : ((do let p ← roll (.num 3) (.rv ⟨[1, 2], [1, 1], none⟩); matmul (.seq [1, 2, 5]) p) {}).1 =
    .ok (.rv ⟨[2, 3, 4], [1, 3, 4], none⟩) := by decide +kernel

/-- C13 fails for 'lowest first': one position is counted from the lowest, several from the highest. -/
theorem C13_lowest_first_counterexample :
    ((do let p ← roll (.num 2) (.rv ⟨[1, 2], [1, 1], none⟩)
         let a ← matmul (.seq [1]) p
         let b ← matmul (.seq [1, 7]) p
         pure (a, b)) { settings := { positionOrder := .lowestFirst } }).1 =
      .ok (.rv ⟨[1, 2], [3, 1], none⟩, .rv ⟨[1, 2], [1, 3], none⟩) := by
  decide +kernel

/-! ## C48 -/

/-- C48 (partial): `1 @ X` is distributed as `X` for a die without a source.  Missing: results of rolling a random number of dice (false, see the
counterexample). -/
theorem C48_first_partial {w w' : World} (hw : Reachable w) (X : RV ℤ) (hX : X.Proper) (hc : Coprime X.probs) (hs : X.src = none)
    (hz : w.settings.rvIgnoreZeroProbs = true → ∀ p ∈ X.probs, p ≠ 0) {o : Obj}
    (h : matmul (.num 1) (.rv X) w = (.ok o, w')) (h0 : w'.warns = 0) :
    ∃ q, o = .rv q ∧ mass q.pairs ≠ 0 ∧ ∀ f, Ex q.pairs f = Ex X.pairs f := by
  have hsrc : X.source = (1, X) := by rw [RV.source, hs]
  have := (triple_kth (st := w.settings) X 1 (by rw [hsrc]; exact hX) (by rw [hsrc]; exact hc) (by rw [hsrc]; exact hz)).run hw rfl h h0
  rw [hsrc] at this
  simp only at this
  rw [if_pos (by norm_num)] at this
  obtain ⟨q, h1, h2, h3⟩ := this
  refine ⟨q, h1, h2, fun f => ?_⟩
  rw [h3, ExN_one]
  unfold kthDraw
  cases w.settings.positionOrder <;> rfl

/-- C48 (partial): so is the result of a function that returns its sequence argument. -/
theorem C48_sequence_partial {w w' : World} (hw : Reachable w) (X : RV ℤ) (hX : X.Proper) (hs : X.src = none) {o : Option Obj}
    (h : castCall (fun a => pure a.head?) [(some .S, .rv X)] w = (.ok o, w')) (h0 : w'.warns = 0) :
    ∃ q, o = some (.rv q) ∧ mass q.pairs ≠ 0 ∧ ∀ f, Ex q.pairs f = Ex X.pairs f := by
  have hsrc : X.source = (1, X) := by rw [RV.source, hs]
  have T := triple_castCall_total (I := fun _ => True) (f := fun a => pure a.head?) (args := [(some .S, .rv X)])
    (K := fun a g => match a with
      | [.seq o] => g o.sum
      | _ => 0) (by simp [castAborts]) (by simpa [ArgOk, hsrc] using hX) ⟨(some .S, .rv X), by simp, trivial⟩ (fun c hc => by
      simp only [List.map_cons, List.map_nil, slotOf, combos, Slot.choices, List.mem_flatMap, List.mem_map,
        List.mem_singleton] at hc
      obtain ⟨_, ⟨x, _, rfl⟩, _, rfl, rfl⟩ := hc
      exact Triple.pure ⟨rfl, trivial⟩)
  obtain ⟨q, h1, h2, h3⟩ := T.run hw trivial h h0
  refine ⟨q, h1, h2.pos, fun f => ?_⟩
  rw [h3]
  simp only [argsLaw, argLaw, hsrc, ExN_one]
  simp [descending]

example : (matmul (.num 1) (.rv ⟨[1, 2, 5], [1, 2, 3], none⟩) {}).1 = .ok (.rv ⟨[1, 2, 5], [1, 2, 3], none⟩) := by decide +kernel

/-- C48 is false in general: `roll(roll(2), 2)` has length 1, but `1 @` it is the law of a single d2. -/
theorem C48_counterexample :
    ((do let x ← roll1 (.num 2)
         let p ← roll x (.num 2)
         let a ← matmul (.num 1) p
         pure (myLen p, p, a)) {}).1 =
      .ok (1, .rv ⟨[1, 2, 3, 4], [2, 3, 2, 1], some (1, [1, 2], [1, 1])⟩, .rv ⟨[1, 2], [1, 1], none⟩) := by
  decide +kernel

end PythonDice
