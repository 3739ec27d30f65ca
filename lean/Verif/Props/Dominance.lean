import Verif.Proofs.Dominance
import Verif.Props.Formulas
import Verif.Props.Expr

/-!
# C95: better dice give better results
-/

namespace PythonDice
open Spec
open Spec.Naive (Law mean push andThen draws rolls)
open Enum

/-- Two computations, begun in any states with such settings, give dice of which the first is at least as good as the second, unless probabilities
were rounded (which is logged) or the limiter of probabilities overflowed. -/
def BetterDice (I J : Settings → Prop) (m m' : M Obj) : Prop :=
  ∀ w w', Reachable w → Reachable w' → I w.settings → J w'.settings → (m w).2.warns = 0 → (m' w').2.warns = 0 →
    (m w).1 = .error .overflow ∨ (m' w').1 = .error .overflow ∨
    ∃ x y : RV ℤ, (m w).1 = .ok (.rv x) ∧ (m' w').1 = .ok (.rv y) ∧ AtLeastAsGood x.pairs y.pairs

/-! ## Lemmas -/

theorem Enum.better_dice {I J : Settings → Prop} {m m' : M Obj} {l l' : Law} {p p' : Option (ℕ × Law)} (h : Full I m fun o => Rep o (.die l p))
    (h' : Full J m' fun o => Rep o (.die l' p')) (e : Dom l l') : BetterDice I J m m' := by
  intro w w' hw hw' hi hi' h0 h0'
  rcases h.2 w hw hi h0 with ⟨o, ho⟩ | ho
  swap
  · exact .inl ho
  rcases h'.2 w' hw' hi' h0' with ⟨o', ho'⟩ | ho'
  swap
  · exact .inr (.inl ho')
  refine .inr (.inr ?_)
  obtain ⟨x, rfl, hx, _⟩ := (((h.1 w hw hi).2.2 o ho).2 h0).die_inv
  obtain ⟨y, rfl, hy, _⟩ := (((h'.1 w' hw' hi').2.2 o' ho').2 h0').die_inv
  refine ⟨x, y, ho, ho', fun t => ?_⟩
  rw [Pr, Pr, hx.law, hy.law]
  exact e.tails t

/-- Better means: every function that grows has at least the same mean. -/
theorem better_iff {l m : List (ℤ × ℕ)} (hl : mass l ≠ 0) (hm : mass m ≠ 0) :
    AtLeastAsGood l m ↔ ∀ f : ℤ → ℚ, Monotone f → Ex m f ≤ Ex l f := by
  constructor
  · intro h
    have one : ∀ k : List (ℤ × ℕ), mass k ≠ 0 → (mean (k.map fun x => (x.1, (x.2 : ℚ) / mass k)) fun _ => 1) = 1 := by
      intro k hk
      rw [lawOf_mean]
      exact div_self hk
    have := dom_of_tails (one l hl) (one m hm) fun t => by rw [lawOf_mean, lawOf_mean]; exact h t
    intro f hf
    have := this f hf
    rw [lawOf_mean, lawOf_mean] at this
    exact this
  · intro h t
    exact h _ (step_mono t)

theorem dom_good {X Y : RV ℤ} (hX : GoodDie X) (hY : GoodDie Y) (h : AtLeastAsGood X.pairs Y.pairs) : Dom (lawOf X) (lawOf Y) := by
  intro f hf
  rw [mean_lawOf, mean_lawOf]
  exact (better_iff (GoodDie.proper hX).pos (GoodDie.proper hY).pos).1 h f hf

theorem lawOf_nonneg {X : RV ℤ} (h : ∀ v ∈ X.vals, 0 ≤ v) : ∀ x ∈ lawOf X, 0 ≤ x.1 := by
  intro x hx
  obtain ⟨y, hy, rfl⟩ := List.mem_map.1 hx
  exact h _ (RV.mem_vals_of_pairs hy)

/-- A loaded die, better than `loaded`. -/
def lucky : RV ℤ := ⟨[0, 2, 3], [1, 1, 4], none⟩

theorem lucky_good : GoodDie lucky := ⟨rfl, by decide, by decide, by decide, fun k h => by simpa using h 1 (by decide)⟩

theorem lucky_better : AtLeastAsGood lucky.pairs loaded.pairs := by
  intro t
  simp only [Pr, Ex, mass, wsum, RV.pairs, lucky, loaded, List.zip_cons_cons, List.zip_nil_right, List.map_cons, List.map_nil, List.sum_cons, List.sum_nil]
  have : (if t ≤ -1 then (1 : ℚ) else 0) ≤ if t ≤ 0 then 1 else 0 := by
    split_ifs with h1 h2 h2
    · exact le_rfl
    · omega
    · exact zero_le_one
    · exact le_rfl
  norm_num
  linarith

/-- As likely 0 as 2. -/
def coin02 : RV ℤ := ⟨[0, 2], [1, 1], none⟩

theorem coin02_good : GoodDie coin02 := ⟨rfl, by decide, by decide, by decide, fun k h => by simpa using h 1 (by decide)⟩

theorem lucky_better' : AtLeastAsGood lucky.pairs coin02.pairs := by
  intro t
  simp only [Pr, Ex, mass, wsum, RV.pairs, lucky, coin02, List.zip_cons_cons, List.zip_nil_right, List.map_cons, List.map_nil, List.sum_cons, List.sum_nil]
  split_ifs <;> first | omega | norm_num

/-! ## The order -/

/-- **C95**: a die is at least as good as another exactly when every function that grows with the outcome has at least the same mean. -/
theorem C95_means {X Y : RV ℤ} (hX : GoodDie X) (hY : GoodDie Y) :
    AtLeastAsGood X.pairs Y.pairs ↔ ∀ f : ℤ → ℚ, Monotone f → Ex Y.pairs f ≤ Ex X.pairs f :=
  better_iff (GoodDie.proper hX).pos (GoodDie.proper hY).pos

/-- **C95**: two dice each of which is at least as good as the other are the same. -/
theorem C95_same {X Y : RV ℤ} (hX : GoodDie X) (hY : GoodDie Y) (h : AtLeastAsGood X.pairs Y.pairs) (h' : AtLeastAsGood Y.pairs X.pairs) :
    X.vals = Y.vals ∧ X.probs = Y.probs := by
  obtain ⟨_, e, cX, _⟩ := (rep_good hX).die_inv
  cases e
  obtain ⟨_, e, cY, _⟩ := (rep_good hY).die_inv
  cases e
  refine Canonical_law_ext cX.canon cY.canon cX.proper.pos cY.proper.pos cX.nz cY.nz fun f => ?_
  -- a function of the outcome is a difference of functions that grow
  have ind : ∀ v : ℤ, (Ex X.pairs fun x => if x = v then 1 else 0) = Ex Y.pairs fun x => if x = v then 1 else 0 := by
    intro v
    have e : ∀ Z : RV ℤ, (Ex Z.pairs fun x => if x = v then (1 : ℚ) else 0) = Pr Z.pairs (v ≤ ·) - Pr Z.pairs (v + 1 ≤ ·) := by
      intro Z
      rw [Pr, Pr, ← mean_lawOf, ← mean_lawOf, ← mean_lawOf, ← mean_sub]
      congr 1
      funext x
      rcases lt_trichotomy x v with h | h | h
      · rw [if_neg (by omega), if_neg (by omega), if_neg (by omega)]; ring
      · rw [if_pos h, if_pos (by omega), if_neg (by omega)]; ring
      · rw [if_neg (by omega), if_pos (by omega), if_pos (by omega)]; ring
    rw [e, e, le_antisymm (h v) (h' v), le_antisymm (h (v + 1)) (h' (v + 1))]
  obtain ⟨B, hB⟩ := bounded (X.vals ++ Y.vals)
  have expand : ∀ Z : RV ℤ, (∀ v ∈ Z.vals, v ∈ X.vals ++ Y.vals) → Ex Z.pairs f =
      ∑ i ∈ Finset.range (2 * B + 1), f (-B + i) * Ex Z.pairs fun x => if x = -B + i then 1 else 0 := by
    intro Z hZ
    simp only [← mean_lawOf, ← mean_mul_left]
    rw [← mean_sum]
    refine mean_congr fun x hx => ?_
    obtain ⟨y, hy, rfl⟩ := List.mem_map.1 hx
    have := hB _ (hZ _ (RV.mem_vals_of_pairs hy))
    rw [Finset.sum_eq_single (y.1 + B).toNat]
    · have e : -(B : ℤ) + ((y.1 + B).toNat : ℤ) = y.1 := by omega
      rw [e]; simp
    · intro i _ hi
      rw [if_neg (by omega), mul_zero]
    · intro hi
      rw [Finset.mem_range] at hi
      omega
  rw [expand X (by simp +contextual), expand Y (by simp +contextual)]
  simp only [ind]

/-- **C95**: the mean of a better die is at least the same. -/
theorem C95_mean {X Y : RV ℤ} (hX : GoodDie X) (hY : GoodDie Y) (h : AtLeastAsGood X.pairs Y.pairs) : Mean Y.pairs ≤ Mean X.pairs :=
  (C95_means hX hY).1 h (fun x => (x : ℚ)) fun x y hxy => by dsimp only; exact_mod_cast hxy

/-! ## Rolling -/

/-- **C95** (src/roller.py `roll`): dice with more sides, and more of them, give better results. -/
theorem C95_sides {n n' m m' : ℕ} (hn : n' ≤ n) (h0 : 0 < m') (hm : m' ≤ m) :
    BetterDice AnySettings AnySettings (roll (.num n) (.num m)) (roll (.num n') (.num m')) := by
  have h1 : 0 < m := by omega
  refine better_dice (full_fair n h1) (full_fair n' h0) ((rolls_dom (fair_dom h0 hm) (pos_fair h1) (pos_fair h0) n).trans
    (rolls_more (pos_fair h0) ?_ (fun x hx => ?_) hn))
  · rw [mean_fair]
    have : (m' : ℚ) ≠ 0 := by exact_mod_cast h0.ne'
    simp [this]
  · obtain ⟨v, hv, rfl⟩ := List.mem_map.1 hx
    have := (mem_interval.1 hv).1
    dsimp only
    omega

/-- **C95** (src/roller.py `roll`): `n` better dice give a better result. -/
theorem C95_roll (n : ℕ) {X Y : RV ℤ} (hX : GoodDie X) (hY : GoodDie Y) (h : AtLeastAsGood X.pairs Y.pairs) :
    BetterDice AnySettings AnySettings (roll (.num n) (.rv X)) (roll (.num n) (.rv Y)) :=
  better_dice (full_rolls n (rep_good hX)) (full_rolls n (rep_good hY)) (rolls_dom (dom_good hX hY h) (rep_good hX).law.1 (rep_good hY).law.1 n)

/-- **C95** (src/roller.py `roll`): dice counted negatively are worse if they are better. -/
theorem C95_roll_negative (n : ℕ) {X Y : RV ℤ} (hX : GoodDie X) (hY : GoodDie Y) (h : AtLeastAsGood X.pairs Y.pairs) :
    BetterDice AnySettings AnySettings (roll (.num (-n)) (.rv Y)) (roll (.num (-n)) (.rv X)) :=
  better_dice (full_rolls (-n) (rep_good hY)) (full_rolls (-n) (rep_good hX))
    (rolls_neg_dom (dom_good hX hY h) (rep_good hX).law.1 (rep_good hY).law.1 n)

/-- **C95** (src/roller.py `roll`): more dice that are never negative give a better result. -/
theorem C95_more {n n' : ℕ} (hn : n' ≤ n) {X : RV ℤ} (hX : GoodDie X) (h0 : ∀ v ∈ X.vals, 0 ≤ v) :
    BetterDice AnySettings AnySettings (roll (.num n) (.rv X)) (roll (.num n') (.rv X)) :=
  better_dice (full_rolls n (rep_good hX)) (full_rolls n' (rep_good hX)) (rolls_more (rep_good hX).law.1 (rep_good hX).law.2 (lawOf_nonneg h0) hn)

/-- **C95** (src/roller.py `roll` with a die for the number of dice): a better number of better dice gives a better result, if none of them is
negative. -/
theorem C95_random_count {X Y Z W : RV ℤ} (hX : GoodDie X) (hY : GoodDie Y) (hZ : GoodDie Z) (hW : GoodDie W) (h : AtLeastAsGood X.pairs Y.pairs)
    (h' : AtLeastAsGood Z.pairs W.pairs) (h0 : ∀ v ∈ X.vals, 0 ≤ v) (hw : ∀ v ∈ W.vals, 0 ≤ v) :
    BetterDice AnySettings AnySettings (roll (.rv Z) (.rv X)) (roll (.rv W) (.rv Y)) := by
  have dx := rep_good hX
  have dy := rep_good hY
  refine better_dice (l := andThen (lawOf Z) fun k => rolls k (lawOf X)) (p := none) (l' := andThen (lawOf W) fun k => rolls k (lawOf Y)) (p' := none)
    (full_roll (rep_good hZ) dx) (full_roll (rep_good hW) dy)
    (Dom.andThen (dom_good hZ hW h') (rep_good hW).law.1 (fun x hx => ?_) fun x y hxy => ?_)
  · obtain ⟨k, hk⟩ := Int.eq_ofNat_of_zero_le (lawOf_nonneg hw x hx)
    rw [hk]
    exact rolls_dom (dom_good hX hY h) dx.law.1 dy.law.1 k
  · rcases le_or_gt 0 x with hx | hx
    · obtain ⟨k, rfl⟩ := Int.eq_ofNat_of_zero_le hx
      obtain ⟨j, rfl⟩ := Int.eq_ofNat_of_zero_le (hx.trans hxy)
      exact rolls_more dx.law.1 dx.law.2 (lawOf_nonneg h0) (by omega)
    · obtain ⟨k, rfl⟩ : ∃ k : ℕ, x = -k := ⟨x.natAbs, by omega⟩
      have flip : ∀ j : ℕ, ∀ f, mean (rolls (-j) (lawOf X)) f = mean (push (fun x => -x) (rolls j (lawOf X))) f := by
        intro j f
        rw [mean_rolls, mean_push, mean_rolls, Int.natAbs_neg, Int.sign_neg]
        simp only [neg_mul]
      rcases le_or_gt 0 y with hy | hy
      · obtain ⟨j, rfl⟩ := Int.eq_ofNat_of_zero_le hy
        have h1 : Dom (rolls j (lawOf X)) (rolls (0 : ℕ) (lawOf X)) := rolls_more dx.law.1 dx.law.2 (lawOf_nonneg h0) (by omega)
        have h2 : Dom (rolls k (lawOf X)) (rolls (0 : ℕ) (lawOf X)) := rolls_more dx.law.1 dx.law.2 (lawOf_nonneg h0) (by omega)
        refine h1.trans fun f hf => ?_
        rw [flip]
        have := h2.push_anti (g := fun x => -x) (fun _ _ h => neg_le_neg h) f hf
        refine this.trans (le_of_eq ?_)
        rw [mean_push, mean_rolls, mean_rolls]
        simp [sumMean_zero]
      · obtain ⟨j, rfl⟩ : ∃ j : ℕ, y = -j := ⟨y.natAbs, by omega⟩
        have h1 : Dom (rolls k (lawOf X)) (rolls j (lawOf X)) := rolls_more dx.law.1 dx.law.2 (lawOf_nonneg h0) (by omega)
        intro f hf
        rw [flip, flip]
        exact h1.push_anti (g := fun x => -x) (fun _ _ h => neg_le_neg h) f hf

/-! ## Operations -/

section
variable {X Y Z W : RV ℤ} (hX : GoodDie X) (hY : GoodDie Y) (hZ : GoodDie Z) (hW : GoodDie W) (h : AtLeastAsGood X.pairs Y.pairs)
  (h' : AtLeastAsGood Z.pairs W.pairs)
include hX hY h

/-- **C95** (src/randvar.py `RV.__neg__`): minus a better die is worse. -/
theorem C95_minus : BetterDice AnySettings AnySettings (negOp (.rv Y)) (negOp (.rv X)) :=
  better_dice (p := some (1, _)) (p' := some (1, _)) (full_minus (rep_good hY)) (full_minus (rep_good hX))
    ((dom_good hX hY h).push_anti fun _ _ h => neg_le_neg h)

include hZ hW h'

/-- **C95** (src/randvar.py `RV.__add__`): sums of better dice are better. -/
theorem C95_add : BetterDice AnySettings AnySettings (binop .add (.rv X) (.rv Z)) (binop .add (.rv Y) (.rv W)) :=
  better_dice (p := some (1, _)) (p' := some (1, _)) (full_op (op := .add) (by decide) (fun _ _ => rfl) (rep_good hX) (rep_good hZ))
    (full_op (op := .add) (by decide) (fun _ _ => rfl) (rep_good hY) (rep_good hW))
    (Dom.andThen (dom_good hX hY h) (rep_good hY).law.1 (fun x _ => (dom_good hZ hW h').push fun a b hab => by simp only [Naive.arith]; omega)
      fun x y hxy => push_dom (rep_good hZ).law.1 fun z _ => by simp only [Naive.arith]; omega)

/-- **C95** (src/randvar.py `RV.__sub__`): a better die minus a worse one is better. -/
theorem C95_sub : BetterDice AnySettings AnySettings (binop .sub (.rv X) (.rv W)) (binop .sub (.rv Y) (.rv Z)) :=
  better_dice (p := some (1, _)) (p' := some (1, _)) (full_op (op := .sub) (by decide) (fun _ _ => rfl) (rep_good hX) (rep_good hW))
    (full_op (op := .sub) (by decide) (fun _ _ => rfl) (rep_good hY) (rep_good hZ))
    (Dom.andThen (dom_good hX hY h) (rep_good hY).law.1 (fun x _ => (dom_good hZ hW h').push_anti fun a b hab => by simp only [Naive.arith]; omega)
      fun x y hxy => push_dom (rep_good hW).law.1 fun z _ => by simp only [Naive.arith]; omega)

/-- **C95** (src/randvar.py `RV.__mul__`): products of better dice are better, if none of them is negative. -/
theorem C95_mul (hy : ∀ v ∈ Y.vals, 0 ≤ v) (hz : ∀ v ∈ Z.vals, 0 ≤ v) :
    BetterDice AnySettings AnySettings (binop .mul (.rv X) (.rv Z)) (binop .mul (.rv Y) (.rv W)) :=
  better_dice (p := some (1, _)) (p' := some (1, _)) (full_op (op := .mul) (by decide) (fun _ _ => rfl) (rep_good hX) (rep_good hZ))
    (full_op (op := .mul) (by decide) (fun _ _ => rfl) (rep_good hY) (rep_good hW))
    (Dom.andThen (dom_good hX hY h) (rep_good hY).law.1
      (fun x hx => (dom_good hZ hW h').push fun a b hab => by
        simp only [Naive.arith]; exact mul_le_mul_of_nonneg_left hab (lawOf_nonneg hy x hx))
      fun x y hxy => push_dom (rep_good hZ).law.1 fun z hz' => by
        simp only [Naive.arith]; exact mul_le_mul_of_nonneg_right hxy (lawOf_nonneg hz z hz'))

/-- **C95** (src/randvar.py comparisons): a better die beats a worse one more often. -/
theorem C95_beats : BetterDice AnySettings AnySettings (binop .gt (.rv X) (.rv W)) (binop .gt (.rv Y) (.rv Z)) ∧
    BetterDice AnySettings AnySettings (binop .ge (.rv X) (.rv W)) (binop .ge (.rv Y) (.rv Z)) ∧
    BetterDice AnySettings AnySettings (binop .lt (.rv W) (.rv X)) (binop .lt (.rv Z) (.rv Y)) ∧
    BetterDice AnySettings AnySettings (binop .le (.rv W) (.rv X)) (binop .le (.rv Z) (.rv Y)) := by
  have d := dom_good hX hY h
  have d' := dom_good hZ hW h'
  have bit : ∀ p q : Prop, ∀ [Decidable p] [Decidable q], (p → q) → Naive.bit (decide p) ≤ Naive.bit (decide q) := by
    intro p q _ _ hpq
    unfold Naive.bit
    by_cases hp : p
    · simp [hp, hpq hp]
    · by_cases hq : q <;> simp [hp, hq]
  have gt : ∀ {x y x' y' : ℤ}, x ≤ x' → y' ≤ y → Naive.arith .gt x y ≤ Naive.arith .gt x' y' := fun {x y x' y'} h h' =>
    bit (x > y) (x' > y') fun _ => by omega
  have ge : ∀ {x y x' y' : ℤ}, x ≤ x' → y' ≤ y → Naive.arith .ge x y ≤ Naive.arith .ge x' y' := fun {x y x' y'} h h' =>
    bit (x ≥ y) (x' ≥ y') fun _ => by omega
  have lt : ∀ {x y x' y' : ℤ}, x ≤ x' → y' ≤ y → Naive.arith .lt y x ≤ Naive.arith .lt y' x' := fun {x y x' y'} h h' =>
    bit (y < x) (y' < x') fun _ => by omega
  have le : ∀ {x y x' y' : ℤ}, x ≤ x' → y' ≤ y → Naive.arith .le y x ≤ Naive.arith .le y' x' := fun {x y x' y'} h h' =>
    bit (y ≤ x) (y' ≤ x') fun _ => by omega
  have swap : ∀ (l m : Law) (g : ℤ → ℤ → ℤ) (f : ℤ → ℚ), mean (andThen l fun x => push (fun y => g x y) m) f =
      mean (andThen m fun y => push (fun x => g x y) l) f := by
    intro l m g f
    simp only [mean_andThen, mean_push]
    exact mean_comm _ _ _
  refine ⟨?_, ?_, ?_, ?_⟩
  · exact better_dice (p := some (1, _)) (p' := some (1, _)) (full_op (op := .gt) (by decide) (fun _ _ => rfl) (rep_good hX) (rep_good hW))
      (full_op (op := .gt) (by decide) (fun _ _ => rfl) (rep_good hY) (rep_good hZ))
      (Dom.andThen d (rep_good hY).law.1 (fun x _ => d'.push_anti fun a b hab => gt le_rfl hab)
        fun x y hxy => push_dom (rep_good hW).law.1 fun z _ => gt hxy le_rfl)
  · exact better_dice (p := some (1, _)) (p' := some (1, _)) (full_op (op := .ge) (by decide) (fun _ _ => rfl) (rep_good hX) (rep_good hW))
      (full_op (op := .ge) (by decide) (fun _ _ => rfl) (rep_good hY) (rep_good hZ))
      (Dom.andThen d (rep_good hY).law.1 (fun x _ => d'.push_anti fun a b hab => ge le_rfl hab)
        fun x y hxy => push_dom (rep_good hW).law.1 fun z _ => ge hxy le_rfl)
  · refine better_dice (p := some (1, _)) (p' := some (1, _)) (full_op (op := .lt) (by decide) (fun _ _ => rfl) (rep_good hW) (rep_good hX))
      (full_op (op := .lt) (by decide) (fun _ _ => rfl) (rep_good hZ) (rep_good hY)) fun f hf => ?_
    have key : Dom (andThen (lawOf X) fun x => push (fun y => Naive.arith .lt y x) (lawOf W))
        (andThen (lawOf Y) fun x => push (fun y => Naive.arith .lt y x) (lawOf Z)) :=
      Dom.andThen d (rep_good hY).law.1 (fun x _ => d'.push_anti fun a b hab => lt le_rfl hab)
        fun x y hxy => push_dom (rep_good hW).law.1 fun z _ => lt hxy le_rfl
    have := key f hf
    rwa [← swap (lawOf Z) (lawOf Y) (fun x y => Naive.arith .lt x y), ← swap (lawOf W) (lawOf X) fun x y => Naive.arith .lt x y] at this
  · refine better_dice (p := some (1, _)) (p' := some (1, _)) (full_op (op := .le) (by decide) (fun _ _ => rfl) (rep_good hW) (rep_good hX))
      (full_op (op := .le) (by decide) (fun _ _ => rfl) (rep_good hZ) (rep_good hY)) fun f hf => ?_
    have key : Dom (andThen (lawOf X) fun x => push (fun y => Naive.arith .le y x) (lawOf W))
        (andThen (lawOf Y) fun x => push (fun y => Naive.arith .le y x) (lawOf Z)) :=
      Dom.andThen d (rep_good hY).law.1 (fun x _ => d'.push_anti fun a b hab => le le_rfl hab)
        fun x y hxy => push_dom (rep_good hW).law.1 fun z _ => le hxy le_rfl
    have := key f hf
    rwa [← swap (lawOf Z) (lawOf Y) (fun x y => Naive.arith .le x y), ← swap (lawOf W) (lawOf X) fun x y => Naive.arith .le x y] at this

/-- **C95** (src/funclib.py:87-98): the highest and the lowest of better dice are better. -/
theorem C95_highest_of : BetterDice AnySettings AnySettings (highestOf (.rv X) (.rv Z)) (highestOf (.rv Y) (.rv W)) ∧
    BetterDice AnySettings AnySettings (lowestOf (.rv X) (.rv Z)) (lowestOf (.rv Y) (.rv W)) := by
  have d := dom_good hX hY h
  have d' := dom_good hZ hW h'
  exact ⟨better_dice (full_highestOf (rep_good hX) (rep_good hZ)) (full_highestOf (rep_good hY) (rep_good hW))
      (Dom.andThen d (rep_good hY).law.1 (fun x _ => d'.push fun a b hab => max_le_max le_rfl hab)
        fun x y hxy => push_dom (rep_good hZ).law.1 fun z _ => max_le_max hxy le_rfl),
    better_dice (full_lowestOf (rep_good hX) (rep_good hZ)) (full_lowestOf (rep_good hY) (rep_good hW))
      (Dom.andThen d (rep_good hY).law.1 (fun x _ => d'.push fun a b hab => min_le_min le_rfl hab)
        fun x y hxy => push_dom (rep_good hZ).law.1 fun z _ => min_le_min hxy le_rfl)⟩

end

/-- **C95** (src/funclib.py:87-98): the highest of two dice is at least as good as either, the lowest no better. -/
theorem C95_highest_of_better {X Y : RV ℤ} (hX : GoodDie X) (hY : GoodDie Y) :
    BetterDice AnySettings AnySettings (highestOf (.rv X) (.rv Y)) (pure (.rv X)) ∧
    BetterDice AnySettings AnySettings (highestOf (.rv X) (.rv Y)) (pure (.rv Y)) ∧
    BetterDice AnySettings AnySettings (pure (.rv X)) (lowestOf (.rv X) (.rv Y)) ∧
    BetterDice AnySettings AnySettings (pure (.rv Y)) (lowestOf (.rv X) (.rv Y)) := by
  have dx := rep_good hX
  have dy := rep_good hY
  have pf : ∀ {Z : RV ℤ}, GoodDie Z → Full AnySettings (pure (.rv Z) : M Obj) fun o => Rep o (.die (lawOf Z) none) := fun hZ => Full.pure (rep_good hZ)
  have one : ∀ (c : ℚ) {Z : RV ℤ}, GoodDie Z → mean (lawOf Z) (fun _ => c) = c := fun c Z hZ => by rw [mean_const, (rep_good hZ).law.2, mul_one]
  refine ⟨better_dice (full_highestOf dx dy) (pf hX) fun f hf => ?_, better_dice (full_highestOf dx dy) (pf hY) fun f hf => ?_,
    better_dice (pf hX) (full_lowestOf dx dy) fun f hf => ?_, better_dice (pf hY) (full_lowestOf dx dy) fun f hf => ?_⟩ <;>
    simp only [mean_andThen, mean_push]
  · exact mean_le dx.law.1 fun x _ => (one (f x.1) hY).symm.le.trans (mean_le dy.law.1 fun y _ => hf (le_max_left _ _))
  · exact (one _ hX).symm.le.trans (mean_le dx.law.1 fun x _ => mean_le dy.law.1 fun y _ => hf (le_max_right _ _))
  · refine mean_le dx.law.1 fun x _ => ?_
    conv_rhs => rw [← one (f x.1) hY]
    exact mean_le dy.law.1 fun y _ => hf (min_le_left _ _)
  · conv_rhs => rw [← one (mean (lawOf Y) f) hX]
    exact mean_le dx.law.1 fun x _ => mean_le dy.law.1 fun y _ => hf (min_le_right _ _)

/-- **C95** (src/funclib.py:11-15): the absolute value is at least as good. -/
theorem C95_absolute {X : RV ℤ} (hX : GoodDie X) : BetterDice AnySettings AnySettings (absolute (.rv X)) (pure (.rv X)) :=
  better_dice (full_absolute (rep_good hX)) (p' := none) (Full.pure (rep_good hX)) fun f hf => by
    rw [mean_push]
    exact mean_le (rep_good hX).law.1 fun x _ => hf (le_abs_self _)

/-! ## Pools -/

/-- **C95** (src/randvar.py `RV.__rmatmul__`): the `k`-th highest of `n` dice is better if the dice are better, if there are more dice, or if it is a
higher place. -/
theorem C95_place {n n' k k' : ℕ} (h2 : 2 ≤ n') (hn : n' ≤ n) (h1 : 1 ≤ k) (hk : k ≤ k') (hk' : k' ≤ n') {X Y : RV ℤ} (hX : GoodDie X) (hY : GoodDie Y)
    (h : AtLeastAsGood X.pairs Y.pairs) : BetterDice HighestFirst HighestFirst (do let a ← roll (.num n) (.rv X); matmul (.num k) a)
      (do let a ← roll (.num n') (.rv Y); matmul (.num k') a) := by
  have hx := rep_good hX
  have hy := rep_good hY
  have place : ∀ {n k : ℕ} {X : RV ℤ}, 2 ≤ n → 1 ≤ k → k ≤ n → GoodDie X → Full HighestFirst (do let a ← roll (.num n) (.rv X); matmul (.num k) a)
      fun y => Rep y (Naive.one (push (fun xs => Naive.elemAt (descending xs) k) (draws (lawOf X) n))) := by
    intro n k X h2 h1 hk hX
    exact Full.next (full_pool h2 (rep_good hX)) (fun a ha => full_matmul (low := false) (ints := false) (fun st h => h)
      (a := .num k) (u := .num k) rfl ha (if_pos ⟨by omega, by omega⟩) (fun _ _ _ => by simp)) fun a => Calm.matmul _ _
  refine better_dice (p := some (1, _)) (p' := some (1, _)) (place (by omega) h1 (by omega) hX) (place h2 (by omega) hk' hY) ?_
  obtain ⟨i, rfl⟩ : ∃ i : ℕ, k = 1 + i := ⟨k - 1, by omega⟩
  obtain ⟨j, rfl⟩ : ∃ j : ℕ, k' = 1 + j := ⟨k' - 1, by omega⟩
  have a1 : Dom (push (fun xs => Naive.elemAt (descending xs) ((1 + i : ℕ) : ℤ)) (draws (lawOf X) n))
      (push (fun xs => Naive.elemAt (descending xs) ((1 + i : ℕ) : ℤ)) (draws (lawOf X) n')) := by
    induction n, hn using Nat.le_induction with
    | base => exact Dom.refl _
    | succ n hn ih =>
      refine Dom.trans (more_dom hx.law.1 hx.law.2 fun x _ xs hl => ?_) ih
      push_cast
      exact place_more _ _ (by omega)
  have a2 := push_draws_dom (dom_good hX hY h) hx.law.1 hy.law.1 n' (g := fun xs => Naive.elemAt (descending xs) ((1 + i : ℕ) : ℤ))
    fun xs ys hxy => place_grows hxy _
  refine a1.trans (a2.trans (push_dom (hy.law.1.draws n') fun xs hxs => ?_))
  have hl := (mem_fst_draws.1 (List.mem_map_of_mem (f := Prod.fst) hxs)).1
  push_cast
  exact place_below _ (by omega) (by omega)

/-- **C95** (src/funclib.py `highest_N_of_D`): the `k` highest of more dice, or of better dice, are better. -/
theorem C95_highest {n n' k : ℕ} (h2 : 2 ≤ n') (hn : n' ≤ n) (hk : k ≤ n') {X Y : RV ℤ} (hX : GoodDie X) (hY : GoodDie Y)
    (h : AtLeastAsGood X.pairs Y.pairs) : BetterDice HighestFirst HighestFirst (do let a ← roll (.num n) (.rv X); highestN (.num k) a)
      (do let a ← roll (.num n') (.rv Y); highestN (.num k) a) := by
  have hx := rep_good hX
  have hy := rep_good hY
  refine better_dice (p := none) (p' := none) (Full.next (full_pool (by omega) hx) (fun a ha => full_highestN (k := k) (by omega) (fun _ h => h) ha hx.law.1)
    fun a => Calm.highestN _ _) (Full.next (full_pool h2 hy) (fun a ha => full_highestN hk (fun _ h => h) ha hy.law.1) fun a => Calm.highestN _ _) ?_
  refine Dom.trans ?_ (push_draws_dom (dom_good hX hY h) hx.law.1 hy.law.1 n' fun xs ys hxy => sumAt_grows hxy _)
  induction n, hn using Nat.le_induction with
  | base => exact Dom.refl _
  | succ n hn ih =>
    refine Dom.trans (more_dom hx.law.1 hx.law.2 fun x _ xs hl => ?_) ih
    have e : ∀ s : List ℤ, Naive.sumAt s (Naive.interval 1 k) = ∑ i ∈ Finset.range k, Naive.elemAt s (1 + i) := by
      intro s
      have := sumAt_interval s 1 k
      rwa [show ((1 : ℤ) + k - 1) = k by ring] at this
    rw [e, e]
    refine Finset.sum_le_sum fun i hi => place_more _ _ ?_
    rw [Finset.mem_range] at hi
    omega

/-- **C95** (src/funclib.py `lowest_N_of_D`): the `k` lowest of fewer dice, or of better dice, are better. -/
theorem C95_lowest {n n' k : ℕ} (h2 : 2 ≤ n) (hn : n ≤ n') (hk : k ≤ n) {X Y : RV ℤ} (hX : GoodDie X) (hY : GoodDie Y)
    (h : AtLeastAsGood X.pairs Y.pairs) : BetterDice HighestFirst HighestFirst (do let a ← roll (.num n) (.rv X); lowestN (.num k) a)
      (do let a ← roll (.num n') (.rv Y); lowestN (.num k) a) := by
  have hx := rep_good hX
  have hy := rep_good hY
  refine better_dice (p := none) (p' := none) (Full.next (full_pool h2 hx) (fun a ha => full_lowestN (k := k) hk (fun _ h => h) ha hx.law.1)
    fun a => Calm.lowestN _ _) (Full.next (full_pool (by omega) hy) (fun a ha => full_lowestN (k := k) (by omega) (fun _ h => h) ha hy.law.1)
      fun a => Calm.lowestN _ _) ?_
  refine (push_draws_dom (dom_good hX hY h) hx.law.1 hy.law.1 n fun xs ys hxy => sumAt_grows hxy _).trans ?_
  induction n', hn using Nat.le_induction with
  | base => exact Dom.refl _
  | succ n' hn ih =>
    refine ih.trans (less_dom hy.law.1 hy.law.2 fun x _ xs hl => ?_)
    have e : ∀ (s : List ℤ) (m : ℕ), k ≤ m → Naive.sumAt s (Naive.interval (m - k + 1) m) = ∑ i ∈ Finset.range k, Naive.elemAt s (1 + (m - k + i : ℕ)) := by
      intro s m hm
      have := sumAt_interval s (m - k + 1) k
      rw [show ((m : ℤ) - k + 1 + k - 1) = m by ring] at this
      rw [this]
      refine Finset.sum_congr rfl fun i _ => ?_
      congr 1
      omega
    rw [e _ _ (by omega), e _ _ (by omega)]
    refine Finset.sum_le_sum fun i hi => ?_
    rw [Finset.mem_range] at hi
    have := place_last x.1 xs (i := n' - k + i) (by omega)
    rwa [show n' - k + i + 1 = n' + 1 - k + i by omega] at this

/-! ## Exploding -/

/-- **C95** (src/funclib.py `explode`): a die that explodes is at least as good as the die, if it is never negative. -/
theorem C95_explode (e : ℕ) {X : RV ℤ} (hX : GoodDie X) (h0 : ∀ v ∈ X.vals, 0 ≤ v) :
    BetterDice (fun st => st.explodeDepth = e) AnySettings (explode (.rv X)) (pure (.rv X)) := by
  refine better_dice (p := some (1, _)) (p' := none) (full_explode (e := e) (fun st h => by rw [h]; rfl) (rep_good hX)) (Full.pure (rep_good hX)) ?_
  cases e with
  | zero => exact Dom.refl _
  | succ e => exact (explode_dom (rep_good hX).law.1 (rep_good hX).law.2 (lawOf_nonneg h0) _ e).2

/-- **C95** is false of exploding dice compared with each other: 6 sides are better than 4, but exploding dice with 4 sides reach 6 more often. -/
theorem C95_explode_counterexample : ∃ x y : RV ℤ,
    (explode (.rv ⟨[1, 2, 3, 4, 5, 6], [1, 1, 1, 1, 1, 1], none⟩) none {}).1 = .ok (.rv x) ∧
    (explode (.rv ⟨[1, 2, 3, 4], [1, 1, 1, 1], none⟩) none {}).1 = .ok (.rv y) ∧ Pr x.pairs (6 ≤ ·) < Pr y.pairs (6 ≤ ·) :=
  ⟨⟨[1, 2, 3, 4, 5, 7, 8, 9, 10, 11, 13, 14, 15, 16, 17, 18], [36, 36, 36, 36, 36, 6, 6, 6, 6, 6, 1, 1, 1, 1, 1, 1], none⟩,
    ⟨[1, 2, 3, 5, 6, 7, 9, 10, 11, 12], [16, 16, 16, 4, 4, 4, 1, 1, 1, 1], none⟩, by decide +kernel, by decide +kernel, by decide +kernel⟩

/-- `C95_more` needs that no outcome is negative: two dice with -1 and 0 reach 0 less often than one. -/
theorem C95_more_needed : ∃ x y : RV ℤ, (roll (.num 2) (.rv ⟨[-1, 0], [1, 1], none⟩) {}).1 = .ok (.rv x) ∧
    (roll (.num 1) (.rv ⟨[-1, 0], [1, 1], none⟩) {}).1 = .ok (.rv y) ∧ Pr x.pairs (0 ≤ ·) < Pr y.pairs (0 ≤ ·) :=
  ⟨⟨[-2, -1, 0], [1, 2, 1], some (2, [-1, 0], [1, 1])⟩, ⟨[-1, 0], [1, 1], none⟩, by decide +kernel, by decide +kernel, by decide +kernel⟩

/-! ## Expressions and calls -/

theorem Ex_le_vals {X : RV ℤ} {f g : ℤ → ℚ} (h : ∀ x ∈ X.vals, f x ≤ g x) : Ex X.pairs f ≤ Ex X.pairs g := by
  unfold Ex wsum
  refine div_le_div_of_nonneg_right (List.sum_le_sum fun x hx => mul_le_mul_of_nonneg_left (h _ (RV.mem_vals_of_pairs hx)) (by positivity)) ?_
  refine List.sum_nonneg fun q hq => ?_
  obtain ⟨x, _, rfl⟩ := List.mem_map.1 hq
  positivity

/-- The dice of one list are at least as good as those of the other. -/
def BetterAll (ds es : List (RV ℤ)) : Prop := List.Forall₂ (fun X Y : RV ℤ => X.Proper ∧ Y.Proper ∧ AtLeastAsGood X.pairs Y.pairs) ds es

theorem ExDice_grows {ds es : List (RV ℤ)} (h : BetterAll ds es) {g : List ℤ → ℚ}
    (hg : ∀ xs ys, List.Forall₂ (· ≤ ·) xs ys → g xs ≤ g ys) : ExDice es g ≤ ExDice ds g := by
  induction h generalizing g with
  | nil => exact le_rfl
  | @cons X Y ds es hXY _ ih =>
    have h1 : ExDice (Y :: es) g ≤ Ex Y.pairs fun x => ExDice ds fun xs => g (x :: xs) :=
      Ex_le_vals fun x _ => ih fun xs ys hxy => hg _ _ (.cons le_rfl hxy)
    refine h1.trans ((better_iff hXY.1.pos hXY.2.1.pos).1 hXY.2.2 (fun x => ExDice ds fun xs => g (x :: xs)) ?_)
    intro x y hxy
    have : ∀ (ds : List (RV ℤ)) (f g : List ℤ → ℚ), (∀ xs, f xs ≤ g xs) → ExDice ds f ≤ ExDice ds g := by
      intro ds
      induction ds with
      | nil => exact fun f g h => h []
      | cons X ds ih => exact fun f g h => Ex_le_vals fun x _ => ih _ _ fun xs => h _
    exact this _ _ _ fun xs => hg _ _ (.cons hxy (List.forall₂_refl _))

/-- **C95** (src/randvar.py operators): an expression that grows with each of its dice is better of better dice. -/
theorem C95_expression (e e' : DExpr) (hb : BetterAll e.dice e'.dice) (hne : e.dice ≠ []) (F : List ℤ → ℤ)
    (hF : ∀ xs, Outcomes e.dice xs → Yields e xs (F xs)) (hF' : ∀ xs, Outcomes e'.dice xs → Yields e' xs (F xs))
    (hmono : ∀ xs ys, List.Forall₂ (· ≤ ·) xs ys → F xs ≤ F ys)
    (hs : (e.dice.map fun X => X.probs.sum).prod ≤ RV.sumLimit) (hs' : (e'.dice.map fun X => X.probs.sum).prod ≤ RV.sumLimit) (w w' : World) :
    ∃ r r' : RV ℤ, e.eval w = (.ok (.rv r), w) ∧ e'.eval w' = (.ok (.rv r'), w') ∧ AtLeastAsGood r.pairs r'.pairs := by
  have hp : ∀ X ∈ e.dice, X.Proper := by
    intro X hX
    obtain ⟨i, hi, rfl⟩ := List.getElem_of_mem hX
    exact (List.forall₂_iff_get.1 hb |>.2 i hi (by rw [← hb.length_eq]; exact hi)).1
  have hp' : ∀ X ∈ e'.dice, X.Proper := by
    intro X hX
    obtain ⟨i, hi, rfl⟩ := List.getElem_of_mem hX
    exact (List.forall₂_iff_get.1 hb |>.2 i (by rw [hb.length_eq]; exact hi) hi).2.1
  have hne' : e'.dice ≠ [] := fun h => hne (by rw [h] at hb; cases hb' : e.dice with
    | nil => rfl
    | cons X ds => rw [hb'] at hb; cases hb)
  rcases C52_expression e hp F hF hs w with ⟨h, _⟩ | ⟨_, r, h1, _, _, h2⟩
  · exact absurd h hne
  rcases C52_expression e' hp' F hF' hs' w' with ⟨h, _⟩ | ⟨_, r', h1', _, _, h2'⟩
  · exact absurd h hne'
  refine ⟨r, r', h1, h1', fun t => ?_⟩
  rw [Pr, Pr, h2, h2']
  exact ExDice_grows hb fun xs ys hxy => step_mono t (hmono xs ys hxy)

/-- The numbers among the arguments of a call. -/
def argNumber : Obj → ℤ
  | .num n => n
  | _ => 0

/-- **C95** (src/decorators.py `anydice_type_casting`): a function of numbers whose result grows with each of them gives better results when it is
called with better dice. -/
theorem C95_call {w v w' v' : World} (hw : Reachable w) (hv : Reachable v) (φ : List ℤ → ℤ) (hφ : ∀ xs ys, List.Forall₂ (· ≤ ·) xs ys → φ xs ≤ φ ys)
    {ds es : List (RV ℤ)} (hb : BetterAll ds es) {o o' : Option Obj}
    (h : castCall (fun c => pure (some (.num (φ (c.map argNumber))))) (ds.map fun X => (some .N, .rv X)) w = (.ok o, w')) (h0 : w'.warns = 0)
    (h' : castCall (fun c => pure (some (.num (φ (c.map argNumber))))) (es.map fun X => (some .N, .rv X)) v = (.ok o', v')) (h0' : v'.warns = 0) :
    ∃ L L', resLaw o = some L ∧ resLaw o' = some L' ∧ ∀ t : ℤ, (L' fun x => if t ≤ x then 1 else 0) ≤ L fun x => if t ≤ x then 1 else 0 := by
  have law : ∀ (ds : List (RV ℤ)) (g : List Obj → ℚ), argsLaw (ds.map fun X => (some .N, .rv X)) g = ExDice ds fun xs => g (xs.map .num) := by
    intro ds
    induction ds with
    | nil => exact fun g => rfl
    | cons X ds ih =>
      intro g
      change (Ex X.pairs fun x => argsLaw (ds.map fun X => (some .N, .rv X)) fun xs => g (.num x :: xs)) = _
      simp only [ih]
      rfl
  have num : ∀ xs : List ℤ, (xs.map Obj.num).map argNumber = xs := by
    intro xs
    rw [List.map_map]
    exact List.map_id _
  have proper : ∀ {ds es : List (RV ℤ)}, BetterAll ds es → (∀ X ∈ ds, X.Proper) ∧ ∀ X ∈ es, X.Proper := by
    intro ds es hb
    induction hb with
    | nil => simp
    | cons h _ ih =>
      refine ⟨fun X hX => ?_, fun X hX => ?_⟩
      · rcases List.mem_cons.1 hX with rfl | hX
        · exact h.1
        · exact ih.1 X hX
      · rcases List.mem_cons.1 hX with rfl | hX
        · exact h.2.1
        · exact ih.2 X hX
  refine ⟨_, _, C15_cast_law_pure hw (fun c => φ (c.map argNumber)) (by simp [castAborts]) ?_ h h0,
    C15_cast_law_pure hv (fun c => φ (c.map argNumber)) (by simp [castAborts]) ?_ h' h0', fun t => ?_⟩
  · intro a ha
    obtain ⟨X, hX, rfl⟩ := List.mem_map.1 ha
    exact (proper hb).1 X hX
  · intro a ha
    obtain ⟨X, hX, rfl⟩ := List.mem_map.1 ha
    exact (proper hb).2 X hX
  · simp only [law, num]
    exact ExDice_grows hb fun xs ys hxy => step_mono t (hφ xs ys hxy)

/-! ## Examples -/

theorem lucky_all : BetterAll [lucky, lucky] [loaded, coin02] :=
  .cons ⟨GoodDie.proper lucky_good, GoodDie.proper loaded_good, lucky_better⟩ (.cons ⟨GoodDie.proper lucky_good, GoodDie.proper coin02_good, lucky_better'⟩ .nil)

example : BetterDice AnySettings AnySettings (roll (.num 3) (.num 6)) (roll (.num 2) (.num 4)) :=
  C95_sides (n := 3) (m := 6) (n' := 2) (m' := 4) (by decide) (by decide) (by decide)
example := C95_roll 3 lucky_good loaded_good lucky_better
example := C95_more (n := 3) (n' := 2) (by decide) lucky_good (by decide)
example := C95_random_count lucky_good coin02_good lucky_good coin02_good lucky_better' lucky_better' (by decide) (by decide)
example := C95_add lucky_good loaded_good lucky_good coin02_good lucky_better lucky_better'
example := C95_mul lucky_good coin02_good lucky_good loaded_good lucky_better' lucky_better (by decide) (by decide)
example := C95_place (n := 4) (n' := 3) (k := 1) (k' := 2) (by decide) (by decide) (by decide) (by decide) (by decide) lucky_good loaded_good lucky_better
example := C95_highest (n := 4) (n' := 3) (k := 2) (by decide) (by decide) (by decide) lucky_good loaded_good lucky_better
example := C95_lowest (n := 3) (n' := 4) (k := 2) (by decide) (by decide) (by decide) lucky_good loaded_good lucky_better
example := C95_explode 2 lucky_good (by decide)

/-- `lucky + lucky // 2` and `loaded + coin02 // 2`. -/
example : ∃ r r' : RV ℤ, (DExpr.op .add (.die lucky) (.op .floordiv (.die lucky) (.num 2))).eval {} = (.ok (.rv r), {}) ∧
    (DExpr.op .add (.die loaded) (.op .floordiv (.die coin02) (.num 2))).eval {} = (.ok (.rv r'), {}) ∧ AtLeastAsGood r.pairs r'.pairs := by
  let F : List ℤ → ℤ := fun | [x, y] => x + y / 2 | _ => 0
  have yields : ∀ X Y : RV ℤ, ∀ xs, Outcomes [X, Y] xs → Yields (.op .add (.die X) (.op .floordiv (.die Y) (.num 2))) xs (F xs) := by
    intro X Y xs hxs
    cases hxs with
    | @cons _ x _ _ h hxs => cases hxs with
      | @cons _ y _ _ h' hxs =>
        cases hxs
        exact .op .add _ _ [x] [y] x (y / 2) _ (.die X _)
          (.op .floordiv _ _ [y] [] y 2 _ (.die Y _) (.num 2) (.inl (by simp [DExpr.dice])) (.floordivPos _ _ _ (by decide) (by omega) (by omega)))
          (.inl (by simp [DExpr.dice])) (.add _ _)
  refine C95_expression (.op .add (.die lucky) (.op .floordiv (.die lucky) (.num 2))) (.op .add (.die loaded) (.op .floordiv (.die coin02) (.num 2))) lucky_all (by simp [DExpr.dice]) F (yields _ _) (yields _ _) (fun xs ys h => ?_) (by decide) (by decide) {} {}
  cases h with
  | nil => exact le_rfl
  | cons h1 h => cases h with
    | nil => exact le_rfl
    | cons h2 h => cases h with
      | nil => simp only [F]; omega
      | cons => exact le_rfl

end PythonDice
