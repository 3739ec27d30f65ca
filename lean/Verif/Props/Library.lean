import Verif.Props.Funclib

/-!
# Properties of the function library: C19, C20, C45
-/

namespace PythonDice
open Spec

/-! ## C20 -/

theorem sum_getD (l : List ℤ) (k : ℕ) : ((List.range k).map fun i => l.getD i 0).sum = (l.take k).sum := by
  induction l generalizing k with
  | nil => simp
  | cons x l ih =>
    cases k with
    | zero => simp
    | succ k =>
      rw [List.range_succ_eq_map, List.map_cons, List.map_map, List.sum_cons, List.take_succ_cons, List.sum_cons, ← ih]
      rfl

theorem sum_positions (xs : List ℤ) (a : ℤ) (ha : 1 ≤ a) (k : ℕ) :
    ((pyRange a (a + k)).map (kthHighest xs)).sum = (((descending xs).drop (a - 1).toNat).take k).sum := by
  rw [← sum_getD]
  unfold pyRange
  have : (a + (k : ℤ) - a).toNat = k := by omega
  rw [this, List.map_map]
  congr 1
  apply List.map_congr_left
  intro i _
  simp only [Function.comp, kthHighest]
  rw [if_pos (by omega), List.getD_eq_getElem?_getD, List.getD_eq_getElem?_getD, List.getElem?_drop]
  congr 2
  omega

theorem length_pyRange (a : ℤ) (k : ℕ) : (pyRange a (a + k)).length = k := by simp [pyRange]

/-- The `k` draws from position `a` on. -/
theorem triple_select {st : Settings} (r : RV ℤ) (hP : r.source.2.Proper) (a : ℤ) (ha : 1 ≤ a) (k : ℕ)
    (h1 : k = 1 → st.positionOrder = .highestFirst ∧ Coprime r.source.2.probs ∧
      (st.rvIgnoreZeroProbs = true → ∀ p ∈ r.source.2.probs, p ≠ 0) ∧ a ≤ r.source.1) :
    Triple (· = st) (matmul (.seq (pyRange a (a + k))) (.rv r)) fun o => ∃ q, o = .rv q ∧ mass q.pairs ≠ 0 ∧
      ∀ f, Ex q.pairs f = ExN r.source.1 r.source.2.pairs fun xs => f (((descending xs).drop (a - 1).toNat).take k).sum := by
  have e : matmul (.seq (pyRange a (a + k))) (.rv r) = rvRmatmul (pyRange a (a + k)) r := rfl
  rw [e]
  by_cases hk : k = 1
  · obtain ⟨hh, hc, hz, hle⟩ := h1 hk
    have el : pyRange a (a + k) = [a] := by
      have : (a + 1 - a).toNat = 1 := by omega
      simp [pyRange, hk]
    rw [el]
    refine Triple.mono (triple_kth r a hP hc hz) ?_
    intro o ho
    rw [if_pos ⟨ha, hle⟩] at ho
    obtain ⟨q, h2, h3, h4⟩ := ho
    refine ⟨q, h2, h3, fun f => ?_⟩
    rw [h4]
    congr 1
    funext xs
    rw [← sum_positions xs a ha, el, hh]
    simp [kthDraw]
  · have e2 : rvRmatmul (pyRange a (a + k)) r = (do
        let res ← castCall sumAtFn [(some .S, .rv r), (some .S, .seq (pyRange a (a + k)))]
        return res.getD (.blank false)) := by
      have hl := length_pyRange a k
      unfold rvRmatmul
      split
      · rename_i x hx
        rw [hx] at hl
        simp at hl
        omega
      · rfl
    rw [e2]
    refine Triple.bind (triple_sumAt r hP _) ?_ fun v => Triple.pure True.intro
    rintro v ⟨q, rfl, hq, hlaw⟩
    refine Triple.pure ⟨q, rfl, hq.pos, fun f => ?_⟩
    rw [hlaw]
    congr 1
    funext xs
    rw [sum_positions xs a ha]

/-- What C20 assumes: a pool of `n` dice `X` (not a pool of one pool), `1 ≤ k ≤ n`; and, for a single die, 'highest first' with
coprime weights, zero weights absent or kept. -/
structure PickOk (st : Settings) (n k : ℕ) (X : RV ℤ) : Prop where
  proper : X.Proper
  pool : 2 ≤ n ∨ (n = 1 ∧ X.src = none)
  lo : 1 ≤ k
  hi : k ≤ n
  single : k = 1 → st.positionOrder = .highestFirst ∧ Coprime X.probs ∧ (st.rvIgnoreZeroProbs = true → ∀ p ∈ X.probs, p ≠ 0)

/-- A library function of a number and a die, called on a number and a pool. -/
theorem triple_pick {st : Settings} {n k : ℕ} {X : RV ℤ} (h : PickOk st n k X) (f : List Obj → M (Option Obj)) (sel : List ℤ → ℤ)
    (hf' : ∀ o, Triple (· = st) (f [.num k, o]) fun _ => True)
    (hf : ∀ r : RV ℤ, r.Proper → r.source.1 = n → r.len = n → r.source.2.Proper → r.source.2.pairs = X.pairs →
      r.source.2.probs = X.probs → (∀ g, Ex r.pairs g = ExN n X.pairs fun xs => g xs.sum) →
      Triple (· = st) (f [.num k, .rv r]) fun v => ∃ q, v = some (.rv q) ∧ mass q.pairs ≠ 0 ∧
        ∀ g, Ex q.pairs g = ExN n X.pairs fun xs => g (sel xs)) :
    Triple (· = st) (do
      let p ← roll (.num n) (.rv X)
      orBlank (castCall f [(some .N, .num k), (some .D, p)])) fun o => ∃ q, o = .rv q ∧ mass q.pairs ≠ 0 ∧
        ∀ g, Ex q.pairs g = ExN n X.pairs fun xs => g (sel xs) := by
  have hn := h.pool
  have tame : ∀ p : Obj, (Triple (· = st) (castCall f [(some .N, .num k), (some .D, p)]) fun _ => True) := by
    intro p
    rw [C15_no_dice _ _ (by cases p <;> simp [castAborts]) (by cases p <;> simp [IsRandom])]
    exact hf' _
  refine Triple.bind (roll_source (n : ℤ) X h.proper (hn.imp (fun h => by omega) fun h => ⟨by omega, h.2⟩)) ?_ fun p => Triple.map (tame p) fun _ _ => trivial
  rintro p ⟨r, rfl, hr, s1, s2, s3⟩
  have hpairs : r.source.2.pairs = X.pairs := by rw [RV.pairs, RV.pairs, s2, s3]
  have hlen : r.len = r.source.1 := by unfold RV.len RV.source; split <;> rfl
  rw [C15_no_dice _ _ (by simp [castAborts]) (by simp [IsRandom])]
  refine Triple.map (hf r hr.proper s1 (hlen.trans s1) (RV.Proper.congr s2.symm s3.symm h.proper) hpairs s3 fun g => ?_) ?_
  · rw [hr.law]
    have : (n : ℤ).sign = 1 := Int.sign_eq_one_of_pos (by omega)
    rw [this]
    simp
  · rintro v ⟨q, rfl, hq⟩
    exact ⟨q, rfl, hq⟩

/-- C20 (partial): the sum of the `k` highest of `n` draws.  Missing: one die (`k = 1`) with 'lowest first', for which it is false (see the
counterexample), and the exceptions of C12. -/
theorem C20_highest_partial {w w' : World} (hw : Reachable w) {n k : ℕ} {X : RV ℤ} (h : PickOk w.settings n k X) {o : Obj}
    (hr : (do let p ← roll (.num n) (.rv X); highestN (.num k) p) w = (.ok o, w')) (h0 : w'.warns = 0) :
    ∃ q, o = .rv q ∧ mass q.pairs ≠ 0 ∧ ∀ f, Ex q.pairs f = ExN n X.pairs fun xs => f ((descending xs).take k).sum := by
  refine (triple_pick h highestNFn (fun xs => ((descending xs).take k).sum) (fun o => ?_) ?_).run hw rfl hr h0
  · exact Triple.map (tame_matmul _ _) fun _ _ => trivial
  · intro r _ h1 _ h3 h4 h5 _
    change Triple _ (some <$> matmul (.seq (pyRange 1 ((k : ℤ) + 1))) (.rv r)) _
    rw [add_comm]
    refine Triple.map (triple_select r h3 1 le_rfl k fun hk => ?_) ?_
    · obtain ⟨a, b, c⟩ := h.single hk
      have := h.hi
      have := h.lo
      exact ⟨a, by rw [h5]; exact b, by rw [h5]; exact c, by rw [h1]; omega⟩
    · rintro o ⟨q, rfl, hq, hl⟩
      refine ⟨q, rfl, hq, fun g => ?_⟩
      rw [hl, h1, h4]; rfl

/-- C20 (partial): the sum of the `k` lowest of `n` draws. -/
theorem C20_lowest_partial {w w' : World} (hw : Reachable w) {n k : ℕ} {X : RV ℤ} (h : PickOk w.settings n k X) {o : Obj}
    (hr : (do let p ← roll (.num n) (.rv X); lowestN (.num k) p) w = (.ok o, w')) (h0 : w'.warns = 0) :
    ∃ q, o = .rv q ∧ mass q.pairs ≠ 0 ∧ ∀ f, Ex q.pairs f = ExN n X.pairs fun xs => f ((ascending xs).take k).sum := by
  refine (triple_pick h lowestNFn (fun xs => ((ascending xs).take k).sum) (fun o => ?_) ?_).run hw rfl hr h0
  · exact Triple.map (tame_matmul _ _) fun _ _ => trivial
  · intro r _ h1 h2 h3 h4 h5 _
    have hlo := h.lo
    have hhi := h.hi
    change Triple _ (some <$> matmul (.seq (pyRange ((r.len : ℤ) - k + 1) ((r.len : ℤ) + 1))) (.rv r)) _
    have e : (r.len : ℤ) + 1 = ((r.len : ℤ) - k + 1) + (k : ℕ) := by omega
    rw [e]
    refine Triple.map (triple_select r h3 _ (by omega) k fun hk => ?_) ?_
    · obtain ⟨a, b, c⟩ := h.single hk
      exact ⟨a, by rw [h5]; exact b, by rw [h5]; exact c, by rw [h1]; omega⟩
    · rintro o ⟨q, rfl, hq, hl⟩
      refine ⟨q, rfl, hq, fun g => ?_⟩
      rw [hl, h1, h4]
      refine ExN_congr fun xs hxs => ?_
      have hal := ascending_length xs
      rw [descending_eq_reverse, List.drop_reverse, List.take_of_length_le, List.sum_reverse]
      · congr 3; omega
      · simp; omega

/-- C20 (partial): the sum of `k` draws in the middle of the descending order. -/
theorem C20_middle_partial {w w' : World} (hw : Reachable w) {n k : ℕ} {X : RV ℤ} (h : PickOk w.settings n k X) {o : Obj}
    (hr : (do let p ← roll (.num n) (.rv X); middleN (.num k) p) w = (.ok o, w')) (h0 : w'.warns = 0) :
    ∃ q, o = .rv q ∧ mass q.pairs ≠ 0 ∧
      ∀ f, Ex q.pairs f = ExN n X.pairs fun xs => f (((descending xs).drop ((n - k) / 2)).take k).sum := by
  refine (triple_pick h middleNFn (fun xs => (((descending xs).drop ((n - k) / 2)).take k).sum) (fun o => ?_) ?_).run hw rfl hr h0
  · simp only [middleNFn]
    split
    · exact Triple.pure trivial
    · split
      · exact Triple.map (tame_matmul _ _) fun _ _ => trivial
      · exact Triple.map (tame_matmul _ _) fun _ _ => trivial
  · intro r hp h1 h2 h3 h4 h5 hlaw
    have hlo := h.lo
    have hhi := h.hi
    have hm : (myLen (.rv r) : ℤ) = n := by simp [myLen, h2]
    simp only [middleNFn, hm]
    split
    · rename_i hk
      have hk : k = n := by omega
      refine Triple.pure ⟨r, rfl, hp.pos, fun g => ?_⟩
      rw [hlaw]
      refine ExN_congr fun xs hxs => ?_
      have hdl := descending_length xs
      rw [show (n - k) / 2 = 0 by omega, List.drop_zero, List.take_of_length_le (by omega), (descending_perm xs).sum_eq]
    · rename_i hk
      have hdiv : ((n : ℤ) - k).fdiv 2 = (((n - k) / 2 : ℕ) : ℤ) := by
        rw [Int.fdiv_eq_ediv_of_nonneg _ (by norm_num)]; omega
      split
      · rename_i hk1
        have hk1 : k = 1 := by omega
        obtain ⟨a, b, c⟩ := h.single hk1
        have e : matmul (.num (1 + ((n : ℤ) - 1).fdiv 2)) (.rv r) =
            matmul (.seq (pyRange (1 + ((n : ℤ) - 1).fdiv 2) (1 + ((n : ℤ) - 1).fdiv 2 + (1 : ℕ)))) (.rv r) := by
          have : pyRange (1 + ((n : ℤ) - 1).fdiv 2) (1 + ((n : ℤ) - 1).fdiv 2 + (1 : ℕ)) = [1 + ((n : ℤ) - 1).fdiv 2] := by
            simp [pyRange]
          rw [this]; rfl
        rw [hk1] at hdiv
        simp only [Nat.cast_one] at hdiv
        rw [e]
        refine Triple.map (triple_select r h3 _ (by omega) 1 fun _ => ?_) ?_
        · exact ⟨a, by rw [h5]; exact b, by rw [h5]; exact c, by rw [h1]; omega⟩
        · rintro o ⟨q, rfl, hq, hl⟩
          refine ⟨q, rfl, hq, fun g => ?_⟩
          rw [hl, h1, h4, hk1]
          have : (1 + ((n : ℤ) - 1).fdiv 2 - 1).toNat = (n - 1) / 2 := by omega
          rw [this]
      · have e : 1 + ((n : ℤ) - k).fdiv 2 + k - 1 + 1 = 1 + ((n : ℤ) - k).fdiv 2 + (k : ℕ) := by omega
        rw [e]
        refine Triple.map (triple_select r h3 _ (by omega) k fun hk => ?_) ?_
        · obtain ⟨a, b, c⟩ := h.single hk
          exact ⟨a, by rw [h5]; exact b, by rw [h5]; exact c, by rw [h1]; omega⟩
        · rintro o ⟨q, rfl, hq, hl⟩
          refine ⟨q, rfl, hq, fun g => ?_⟩
          rw [hl, h1, h4]
          have : (1 + ((n : ℤ) - k).fdiv 2 - 1).toNat = (n - k) / 2 := by omega
          rw [this]

/-- C20 fails for `k = 1` with 'lowest first': the "highest die" is the lowest. -/
theorem C20_lowest_first_counterexample :
    ((do let p ← roll (.num 2) (.rv ⟨[1, 2], [1, 1], none⟩); highestN (.num 1) p)
      { settings := { positionOrder := .lowestFirst } }).1 = .ok (.rv ⟨[1, 2], [3, 1], none⟩) := by
  decide +kernel

example : PickOk {} 3 2 ⟨[1, 2], [1, 1], none⟩ :=
  ⟨⟨rfl, by decide, by decide, by norm_num [mass, wsum, RV.pairs]⟩, Or.inl (by decide), by decide, by decide, fun h => absurd h (by decide)⟩
example : ((do let p ← roll (.num 3) (.rv ⟨[1, 2], [1, 1], none⟩); lowestN (.num 2) p) {}).1 =
    .ok (.rv ⟨[2, 3, 4], [4, 3, 1], none⟩) := by decide +kernel
example : ((do let p ← roll (.num 3) (.rv ⟨[1, 2], [1, 1], none⟩); middleN (.num 1) p) {}).1 =
    .ok (.rv ⟨[1, 2], [1, 1], none⟩) := by decide +kernel

/-! ## C19 -/

/-- Roll `X`; on the face `mx` add another such roll, at most `m` times. -/
def explodeLaw (X : List (ℤ × ℕ)) (mx : ℤ) : ℕ → (ℤ → ℚ) → ℚ
  | 0, f => Ex X f
  | m + 1, f => Ex X fun x => if x = mx then explodeLaw X mx m fun y => f (x + y) else f x

theorem tame_map {I : Settings → Prop} {β γ : Type} {m : M β} (f : β → γ) (h : Triple I m fun _ => True) :
    Triple I (f <$> m) fun _ => True := Triple.map h fun _ _ => trivial

theorem tame_ofSettings {I : Settings → Prop} {β : Type} (f : Settings → Except Err β) : Triple I (M.ofSettings f) fun _ => True :=
  Triple.ofSettings fun _ _ _ _ => trivial

theorem tame_ofLimited {I : Settings → Prop} {β : Type} (f : Settings → Except Err (β × Bool)) :
    Triple I (M.ofLimited f) fun _ => True := Triple.ofLimited fun _ _ _ _ => trivial

theorem tame_numBinop {I : Settings → Prop} (op : BinOp) (x : ℤ) (b : Obj) : Triple I (numBinop op x b) fun _ => True := by
  unfold numBinop
  split
  · exact tame_map _ (tame_ofSettings _)
  · split
    · exact Triple.pure trivial
    · exact tame_map _ (tame_ofSettings _)
  · split
    · exact tame_map _ (tame_ofSettings _)
    · exact tame_map _ (tame_ofSettings _)
  · exact Triple.pure trivial

theorem tame_negObj {I : Settings → Prop} (o : Obj) : Triple I (negObj o) fun _ => True := by
  cases o with
  | rv r => exact tame_map _ (tame_ofSettings _)
  | _ => exact Triple.pure trivial

theorem tame_binop {I : Settings → Prop} (op : BinOp) (a b : Obj) : Triple I (binop op a b) fun _ => True := by
  unfold binop
  split
  · exact tame_numBinop _ _ _
  · split
    · exact Triple.pure trivial
    · exact tame_map _ (tame_ofSettings _)
  · split
    · exact Triple.pure trivial
    · exact tame_map _ (tame_ofSettings _)
  · exact tame_numBinop _ _ _
  · exact tame_map _ (tame_ofSettings _)
  · exact tame_map _ (tame_ofSettings _)
  · exact tame_map _ (tame_ofLimited _)
  · exact Triple.pure trivial
  · unfold blankL
    split
    · split
      · exact Triple.pure trivial
      · exact tame_negObj _
    · exact Triple.pure trivial

/-- `n + X` for a number and a die. -/
theorem triple_addNum {I : Settings → Prop} (n : ℤ) (X : RV ℤ) (hX : X.Proper) :
    Triple I (binop .add (.num n) (.rv X)) fun o => ∃ q, o = .rv q ∧ q.Proper ∧ ∀ g, Ex q.pairs g = Ex X.pairs fun x => g (n + x) := by
  change Triple I (Obj.rv <$> M.ofSettings fun st => RV.rbinopNum st .add n X) _
  refine Triple.map (P := fun q => q.Proper ∧ ∀ g, Ex q.pairs g = Ex X.pairs fun x => g (n + x)) (Triple.ofSettings ?_) ?_
  · intro st x _ hx
    obtain ⟨r, h1, h2, _, _, _, _, h7⟩ := mapVals_spec st hX (fun v => BinOp.eval .add n v) (fun v => n + v) fun _ _ => rfl
    have : RV.rbinopNum st .add n X = .ok r := h1
    rw [this] at hx
    cases hx
    exact ⟨h2, h7⟩
  · rintro q ⟨h1, h2⟩
    exact ⟨q, rfl, h1, h2⟩

theorem tame_explodeHelper {I : Settings → Prop} (m : ℕ) (a b c : Obj) : Triple I (explodeHelper m a b c) fun _ => True := by
  induction m generalizing a b c with
  | zero =>
    refine tame_castCall (fun x => ?_) _
    split
    · exact Triple.pure trivial
    · exact Triple.throw
  | succ m ih =>
    refine tame_castCall (fun x => ?_) _
    split
    · split
      · exact Triple.bind' (ih _ _ _) fun v => Triple.bind' (tame_binop _ _ _) fun o => Triple.pure trivial
      · exact Triple.pure trivial
    · exact Triple.throw

theorem triple_explodeHelper {I : Settings → Prop} (X : RV ℤ) (hX : X.Proper) (mx : ℤ) (m : ℕ) :
    Triple I (explodeHelper m (.rv X) (.num mx) (.rv X)) fun v => ∃ q, v = some (.rv q) ∧ q.Proper ∧
      ∀ g, Ex q.pairs g = explodeLaw X.pairs mx m g := by
  have hab : ∀ a ∈ [(some Ty.N, Obj.rv X), (some .N, .num mx), (some .D, .rv X)], castAborts a = false := by simp [castAborts]
  have hargs : ∀ a ∈ [(some Ty.N, Obj.rv X), (some .N, .num mx), (some .D, .rv X)], ArgOk a := by
    simpa [ArgOk] using hX
  have hran : ∃ a ∈ [(some Ty.N, Obj.rv X), (some .N, .num mx), (some .D, .rv X)], IsRandom a :=
    ⟨(some .N, .rv X), by simp, trivial⟩
  have hmem : ∀ c ∈ combos ([(some Ty.N, Obj.rv X), (some .N, .num mx), (some .D, .rv X)].map slotOf),
      ∃ n : ℤ, c.1 = [.num n, .num mx, .rv X] := by
    intro c hc
    simp only [List.map_cons, List.map_nil, slotOf, combos, Slot.choices, List.mem_flatMap, List.mem_map,
      List.mem_singleton] at hc
    obtain ⟨_, ⟨x, _, rfl⟩, _, ⟨_, rfl, _, ⟨_, rfl, _, rfl, rfl⟩, rfl⟩, rfl⟩ := hc
    exact ⟨x.1, rfl⟩
  induction m with
  | zero =>
    refine Triple.mono (triple_castCall_total (K := fun c g => match c with
      | [.num n, _, _] => g n
      | _ => 0) hab hargs hran fun c hc => ?_) ?_
    · obtain ⟨n, hn⟩ := hmem c hc
      rw [hn]
      exact Triple.pure ⟨rfl, trivial⟩
    · rintro v ⟨q, rfl, hq, hl⟩
      refine ⟨q, rfl, hq, fun g => ?_⟩
      rw [hl]; rfl
  | succ m ih =>
    refine Triple.mono (triple_castCall_total (K := fun c g => match c with
      | [.num n, .num mx, _] => if n = mx then explodeLaw X.pairs mx m fun y => g (n + y) else g n
      | _ => 0) hab hargs hran fun c hc => ?_) ?_
    · obtain ⟨n, hn⟩ := hmem c hc
      rw [hn]
      simp only
      split
      · rename_i hmx
        refine Triple.bind ih ?_ fun v => Triple.bind' (tame_binop _ _ _) fun o => Triple.pure trivial
        rintro v ⟨q, rfl, hq, hl⟩
        refine Triple.bind (triple_addNum n q hq) ?_ fun o => Triple.pure trivial
        rintro o ⟨q', rfl, hq', hl'⟩
        refine Triple.pure ⟨?_, hq'⟩
        simp only [resLaw, Option.some.injEq]
        funext g
        rw [hl', hl]
      · exact Triple.pure ⟨rfl, trivial⟩
    · rintro v ⟨q, rfl, hq, hl⟩
      refine ⟨q, rfl, hq, fun g => ?_⟩
      rw [hl]; rfl

theorem maximumOf_eq (X : RV ℤ) (hX : X.Proper) (w : World) :
    ∃ mx, maximumOf (.rv X) w = (.ok (.num mx), w) ∧ mx ∈ X.vals ∧ ∀ x ∈ X.vals, x ≤ mx := by
  have e : maximumOf (.rv X) w = (.ok (.num (getItem X.vals.reverse 1)), w) := by
    have : getSeq [Obj.toSrc (.rv X)] = X.vals := by simp [getSeq, Obj.toSrc, flattenList, flattenSrc, Src.numVals, Src.rvVals]
    unfold maximumOf orBlank
    rw [C15_no_dice _ _ (by simp [castAborts]) (by simp [IsRandom])]
    have e1 : maximumOfFn [.rv X] = (do
        let r ← reverse (.seq (getSeq [Obj.toSrc (.rv X)]))
        return some (← matmul (.num 1) r)) := rfl
    change (maximumOfFn [.rv X] >>= _) w = _
    rw [e1, this]; rfl
  have hl : 0 < X.vals.length := List.length_pos_iff.2 hX.nonempty
  have hg := getItem_nth X.vals.reverse 0 (by simpa using hl)
  simp only [Nat.cast_zero, add_zero] at hg
  have hg' : getItem X.vals.reverse 1 = X.vals[X.vals.length - 1] := by rw [hg, List.getElem_reverse]; rfl
  refine ⟨_, e, ?_, fun x hx => ?_⟩
  · rw [hg']; exact List.getElem_mem _
  · rw [hg']
    obtain ⟨i, hi, rfl⟩ := List.getElem_of_mem hx
    rcases Nat.lt_or_ge i (X.vals.length - 1) with h | h
    · exact le_of_lt (List.pairwise_iff_getElem.1 hX.sorted i (X.vals.length - 1) hi (by omega) h)
    · have : i = X.vals.length - 1 := by omega
      subst this; exact le_refl _

/-- C19. `explode(d, depth)` for a die (or a number or sequence, converted to the die `X`): a roll of `X`, plus another one after each roll of the
largest face, at most `depth` times (by default the 'explode depth' setting). -/
theorem C19_explode {w w' : World} (hw : Reachable w) (d : Obj) (X : RV ℤ) (hd : argValue (some .D, d) = .rv X) (hX : X.Proper)
    (depth : Option ℤ) {o : Obj} (h : explode d depth w = (.ok o, w')) (h0 : w'.warns = 0) :
    ∃ mx q, mx ∈ X.vals ∧ (∀ x ∈ X.vals, x ≤ mx) ∧ o = .rv q ∧ mass q.pairs ≠ 0 ∧
      ∀ f, Ex q.pairs f = explodeLaw X.pairs mx (depth.getD w.settings.explodeDepth).toNat f := by
  unfold explode orBlank at h
  rw [C15_no_dice _ _ (by cases d <;> simp [castAborts]) (by cases d <;> simp [IsRandom])] at h
  simp only [List.map_cons, List.map_nil, hd] at h
  obtain ⟨mx, e, h1, h2⟩ := maximumOf_eq X hX w
  have T : Triple (· = w.settings) (explodeHelper (depth.getD w.settings.explodeDepth).toNat (.rv X) (.num mx) (.rv X)) _ :=
    triple_explodeHelper X hX mx _
  have h' : ((fun v : Option Obj => v.getD (.blank false)) <$>
      explodeHelper (depth.getD w.settings.explodeDepth).toNat (.rv X) (.num mx) (.rv X)) w = (.ok o, w') := by
    rw [← h]
    have : explodeFn depth [.rv X] w = explodeHelper (depth.getD w.settings.explodeDepth).toNat (.rv X) (.num mx) (.rv X) w := by
      have e1 : explodeFn depth [.rv X] = (M.settings >>= fun st => maximumOf (.rv X) >>= fun mx =>
        explodeHelper (depth.getD st.explodeDepth).toNat (.rv X) mx (.rv X)) := rfl
      rw [e1, M.bind_ok (show M.settings w = (.ok w.settings, w) from rfl), M.bind_ok e]
    rw [M.bind_apply, this, M.map_apply]
    rfl
  rw [M.map_ok_iff] at h'
  obtain ⟨v, h3, rfl⟩ := h'
  obtain ⟨q, rfl, hq, hl⟩ := T.run hw rfl h3 h0
  exact ⟨mx, q, h1, h2, rfl, hq.pos, hl⟩

example : (explode (.rv ⟨[1, 2], [1, 1], none⟩) none {}).1 = .ok (.rv ⟨[1, 3, 5, 6], [4, 2, 1, 1], none⟩) := by decide +kernel
example : (explode (.seq [1, 2]) (some (-1)) {}).1 = .ok (.rv ⟨[1, 2], [1, 1], none⟩) := by decide +kernel

/-! ## C45 -/

/-- Expectation over `n` independent draws from a law. -/
def indep (E : (ℤ → ℚ) → ℚ) : ℕ → (List ℤ → ℚ) → ℚ
  | 0, g => g []
  | n + 1, g => E fun x => indep E n fun xs => g (x :: xs)

theorem ExN_indep {l : List (ℤ × ℕ)} {E : (ℤ → ℚ) → ℚ} (h : ∀ g, Ex l g = E g) (n : ℕ) (g : List ℤ → ℚ) :
    ExN n l g = indep E n g := by
  induction n generalizing g with
  | zero => rfl
  | succ n ih => simp only [ExN, indep, ih, h]

/-- One roll, rolled again once if it is at most `m`. -/
def rerollLaw (X : List (ℤ × ℕ)) (m : ℤ) (g : ℤ → ℚ) : ℚ := Ex X fun x => if x ≤ m then Ex X g else g x

theorem tame_roll_num {I : Settings → Prop} (n : ℤ) (d : Obj) : Triple I (roll (.num n) d) fun _ => True := by
  have hd : Triple I (asDie d) fun _ => True := by
    unfold asDie
    split
    · split
      · exact tame_map _ (tame_ofSettings _)
      · split <;> exact tame_map _ (tame_ofSettings _)
    · split
      · exact Triple.pure trivial
      · exact tame_map _ (tame_ofSettings _)
    · exact Triple.pure trivial
    · exact Triple.pure trivial
  cases d with
  | blank b => exact Triple.pure trivial
  | _ =>
    refine Triple.bind' hd fun x => ?_
    cases x with
    | none => exact Triple.pure trivial
    | some r => exact tame_map _ (triple_rollInt' n r)

/-- C45. `gwf(n, X, m)`: the sum of `n` independent rolls of `X`, each rolled again once if at most `m` (for negative `n`, minus the sum of `|n|`). -/
theorem C45_gwf {w w' : World} (hw : Reachable w) (n m : ℤ) (X : RV ℤ) (hX : X.Proper) {o : Obj}
    (h : gwf (.num n) (.rv X) (.num m) w = (.ok o, w')) (h0 : w'.warns = 0) :
    ∃ q, o = .rv q ∧ mass q.pairs ≠ 0 ∧
      ∀ f, Ex q.pairs f = indep (rerollLaw X.pairs m) n.natAbs fun xs => f (n.sign * xs.sum) := by
  have T : Triple (fun _ => True) (gwf (.num n) (.rv X) (.num m)) fun o => ∃ q, o = .rv q ∧ mass q.pairs ≠ 0 ∧
      ∀ f, Ex q.pairs f = indep (rerollLaw X.pairs m) n.natAbs fun xs => f (n.sign * xs.sum) := by
    unfold gwf
    rw [show orBlank (castCall gwfFn [(some .N, .num n), (none, .rv X), (none, .num m)]) =
      orBlank (gwfFn [.num n, .rv X, .num m]) by rw [C15_no_dice _ _ (by simp [castAborts]) (by simp [IsRandom])]; rfl]
    have e : gwfFn [.num n, .rv X, .num m] = (do
        let single ← orBlank (castCall gwfHelperFn [(some .N, .rv X), (some .D, .rv X), (some .N, .num m)])
        some <$> roll (.num n) single) := rfl
    rw [e]
    unfold orBlank
    have H := triple_castCall_total (I := fun _ => True) (f := gwfHelperFn)
      (args := [(some .N, .rv X), (some .D, .rv X), (some .N, .num m)])
      (K := fun c g => match c with
        | [.num r, _, _] => if r ≤ m then Ex X.pairs g else g r
        | _ => 0) (by simp [castAborts]) (by simpa [ArgOk] using hX) ⟨(some .N, .rv X), by simp, trivial⟩ (fun c hc => by
        simp only [List.map_cons, List.map_nil, slotOf, combos, Slot.choices, List.mem_flatMap, List.mem_map,
          List.mem_singleton] at hc
        obtain ⟨_, ⟨x, _, rfl⟩, _, ⟨_, rfl, _, ⟨_, rfl, _, rfl, rfl⟩, rfl⟩, rfl⟩ := hc
        simp only [gwfHelperFn]
        split
        · exact Triple.pure ⟨rfl, hX⟩
        · exact Triple.pure ⟨rfl, trivial⟩)
    refine Triple.bind (P := fun v => ∃ q, v = some (.rv q) ∧ mass q.pairs ≠ 0 ∧
      ∀ f, Ex q.pairs f = indep (rerollLaw X.pairs m) n.natAbs fun xs => f (n.sign * xs.sum)) ?_ ?_ fun v => Triple.pure trivial
    · refine Triple.bind (P := fun s => ∃ q, s = .rv q ∧ q.Proper ∧ ∀ g, Ex q.pairs g = rerollLaw X.pairs m g) ?_ ?_
        fun s => tame_map _ (tame_roll_num n s)
      · refine Triple.map H ?_
        rintro v ⟨q, rfl, hq, hl⟩
        refine ⟨q, rfl, hq, fun g => ?_⟩
        rw [hl]; rfl
      · rintro s ⟨q, rfl, hq, hl⟩
        rw [roll_num_rv]
        refine Triple.map (P := fun o => ∃ r, o = .rv r ∧ RollIntOk n q r) (Triple.map (triple_rollInt n q hq) fun r hr => ⟨r, rfl, hr⟩) ?_
        rintro o ⟨r, rfl, hr⟩
        refine ⟨r, rfl, hr.proper.pos, fun f => ?_⟩
        rw [hr.law, ExN_indep hl]
    · rintro v ⟨q, rfl, hq⟩
      exact Triple.pure ⟨q, rfl, hq⟩
  exact T.run hw trivial h h0

/-- C45. A number of sides stands for the die with that many sides (`roll(1, k)`). -/
theorem C45_gwf_sides (n k : ℤ) (m : Obj) (w w1 : World) (X : RV ℤ)
    (hX : roll (.num 1) (.num k) w = (.ok (.rv X), w1)) : gwf (.num n) (.num k) m w = gwf (.num n) (.rv X) m w1 := by
  have e : ∀ d : Obj, gwf (.num n) d m = orBlank (gwfFn [.num n, d, m]) := by
    intro d
    unfold gwf
    rw [C15_no_dice _ _ (by simp [castAborts]) (by simp [IsRandom])]
    rfl
  rw [e, e]
  unfold orBlank
  have : gwfFn [.num n, .num k, m] w = gwfFn [.num n, .rv X, m] w1 := by
    unfold gwfFn
    simp only
    rw [M.bind_ok hX]
    rfl
  rw [M.bind_apply, M.bind_apply, this]

example : (gwf (.num 1) (.num 4) (.num 2) {}).1 = .ok (.rv ⟨[1, 2, 3, 4], [1, 1, 3, 3], none⟩) := by decide +kernel
example : (gwf (.num 2) (.rv ⟨[1, 2], [1, 1], none⟩) (.num 1) {}).1 =
    .ok (.rv ⟨[2, 3, 4], [1, 6, 9], some (2, [1, 2], [1, 3])⟩) := by decide +kernel

end PythonDice
