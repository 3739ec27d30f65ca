import Verif.Proofs.Identities

/-!
# C74: expressions that mean the same dice give the same dice object
-/

namespace PythonDice
open Spec
open Spec.Naive (Law mean push andThen draws rolls)
open Enum

/-- Whatever the settings are. -/
def AnySettings : Settings → Prop := fun _ => True

/-- 4 times as likely a 3 as a -1 or a 2. -/
def loaded : RV ℤ := ⟨[-1, 2, 3], [1, 1, 4], none⟩

theorem loaded_good : GoodDie loaded := ⟨rfl, by decide, by decide, by decide, fun k h => by simpa using h 1 (by decide)⟩

/-! ## Pools -/

/-- **C74** (src/roller.py `roll`, src/randvar.py `RV.__add__`): `n dX + m dX` is `(n+m) dX`, for counts of the same sign. -/
theorem C74_roll_add (n m : ℤ) (h : 0 ≤ n * m) {X : RV ℤ} (hX : GoodDie X) : SameDice AnySettings AnySettings
    (do let a ← roll (.num n) (.rv X); let b ← roll (.num m) (.rv X); binop .add a b) (roll (.num (n + m)) (.rv X)) := by
  have hr := rep_good hX
  refine same_dice (p := some (1, _)) (p' := none) (Full.next (full_rolls n hr) (fun a ha => Full.next (full_rolls m hr) (fun b hb =>
    full_op (op := .add) (by decide) (fun _ _ => rfl) ha hb) fun b => Calm.binop _ _ _) fun a => (Calm.roll _ _).bind fun b => Calm.binop _ _ _)
    (full_rolls (n + m) hr) fun f => ?_
  simp only [mean_andThen, mean_push, Naive.arith, mean_rolls]
  rcases lt_trichotomy n 0 with hn | rfl | hn
  · have hm : m ≤ 0 := by by_contra hm; have := mul_neg_of_neg_of_pos hn (not_le.1 hm); omega
    rcases hm.lt_or_eq with hm | rfl
    · rw [Int.sign_eq_neg_one_of_neg hn, Int.sign_eq_neg_one_of_neg hm, Int.sign_eq_neg_one_of_neg (by omega : n + m < 0),
        show (n + m).natAbs = n.natAbs + m.natAbs by omega, sumMean_add]
      simp only [mul_add]
    · simp [sumMean_zero]
  · simp [sumMean_zero]
  · have hm : 0 ≤ m := by by_contra hm; have := mul_neg_of_pos_of_neg hn (not_le.1 hm); omega
    rcases hm.lt_or_eq with hm | rfl
    · rw [Int.sign_eq_one_of_pos hn, Int.sign_eq_one_of_pos hm, Int.sign_eq_one_of_pos (by omega : 0 < n + m),
        show (n + m).natAbs = n.natAbs + m.natAbs by omega, sumMean_add]
      simp only [mul_add]
    · simp [sumMean_zero]

/-- **C74** (src/roller.py `roll`): `n d(m dX)` is `(n*m) dX`, for all counts, negative ones too. -/
theorem C74_roll_roll (n m : ℤ) {X : RV ℤ} (hX : GoodDie X) : SameDice AnySettings AnySettings
    (do let a ← roll (.num m) (.rv X); roll (.num n) a) (roll (.num (n * m)) (.rv X)) := by
  have hr := rep_good hX
  refine same_dice (p := none) (p' := none) (Full.next (full_rolls m hr) (fun a ha => full_rolls n ha) fun a => Calm.roll _ _)
    (full_rolls (n * m) hr) fun f => ?_
  rw [mean_rolls, mean_rolls, sumMean_mul (lawOf X) n.natAbs m.natAbs m.sign _ (mean_rolls _ _), Int.natAbs_mul, Int.sign_mul]
  simp only [mul_assoc]

/-- **C74** (src/roller.py `roll`, src/randvar.py `RV.__neg__`): `(-n) dX` is `-(n dX)`. -/
theorem C74_roll_neg (n : ℤ) {X : RV ℤ} (hX : GoodDie X) : SameDice AnySettings AnySettings
    (roll (.num (-n)) (.rv X)) (do let a ← roll (.num n) (.rv X); negOp a) := by
  have hr := rep_good hX
  refine same_dice (p := none) (p' := some (1, _)) (full_rolls (-n) hr)
    (Full.next (full_rolls n hr) (fun a ha => full_minus ha) fun a => Calm.negOp _) fun f => ?_
  rw [mean_push, mean_rolls, mean_rolls, Int.natAbs_neg, Int.sign_neg]
  simp only [neg_mul]

/-- **C74** (src/roller.py `roll`, src/randvar.py `RV.__neg__`): `n d(-X)` is `-(n dX)`. -/
theorem C74_roll_of_neg (n : ℤ) {X : RV ℤ} (hX : GoodDie X) : SameDice AnySettings AnySettings
    (do let a ← negOp (.rv X); roll (.num n) a) (do let a ← roll (.num n) (.rv X); negOp a) := by
  have hr := rep_good hX
  refine same_dice (p := none) (p' := some (1, _)) (Full.next (full_minus hr) (fun a ha => full_rolls n ha) fun a => Calm.roll _ _)
    (Full.next (full_rolls n hr) (fun a ha => full_minus ha) fun a => Calm.negOp _) fun f => ?_
  rw [mean_push, mean_rolls, mean_rolls, sumMean_push (lawOf X) _ (fun x => -x) (-1) 0 (fun x => by ring) (fun f => mean_push _ _ _)]
  congr 1
  funext x
  congr 1
  ring

/-- **C74** (src/roller.py `roll`, src/randvar.py `RV.__add__`): `n d(X+Y)` is `n dX + n dY`. -/
theorem C74_roll_of_sum (n : ℤ) {X Y : RV ℤ} (hX : GoodDie X) (hY : GoodDie Y) : SameDice AnySettings AnySettings
    (do let a ← binop .add (.rv X) (.rv Y); roll (.num n) a)
    (do let a ← roll (.num n) (.rv X); let b ← roll (.num n) (.rv Y); binop .add a b) := by
  have hr := rep_good hX
  have hs := rep_good hY
  refine same_dice (p := none) (p' := some (1, _))
    (Full.next (full_op (op := .add) (by decide) (fun _ _ => rfl) hr hs) (fun a ha => full_rolls n ha) fun a => Calm.roll _ _)
    (Full.next (full_rolls n hr) (fun a ha => Full.next (full_rolls n hs) (fun b hb =>
      full_op (op := .add) (by decide) (fun _ _ => rfl) ha hb) fun b => Calm.binop _ _ _) fun a => (Calm.roll _ _).bind fun b => Calm.binop _ _ _)
    fun f => ?_
  simp only [mean_andThen, mean_push, Naive.arith, mean_rolls]
  rw [sumMean_plus (lawOf X) (lawOf Y) _ n.natAbs fun f => by simp only [mean_andThen, mean_push]]
  simp only [mul_add]

/-- **C74** (src/roller.py `roll`, src/randvar.py `RV.__mul__`): `n d(X*c)` is `(n dX)*c`. -/
theorem C74_roll_of_multiple (n c : ℤ) {X : RV ℤ} (hX : GoodDie X) : SameDice AnySettings AnySettings
    (do let a ← binop .mul (.rv X) (.num c); roll (.num n) a) (do let a ← roll (.num n) (.rv X); binop .mul a (.num c)) := by
  have hr := rep_good hX
  refine same_dice (p := none) (p' := some (1, _))
    (Full.next (full_opNum (op := .mul) (by decide) (fun _ _ => rfl) c hr) (fun a ha => full_rolls n ha) fun a => Calm.roll _ _)
    (Full.next (full_rolls n hr) (fun a ha => full_opNum (op := .mul) (by decide) (fun _ _ => rfl) c ha) fun a => Calm.binop _ _ _) fun f => ?_
  simp only [Naive.arith]
  rw [mean_push, mean_rolls, mean_rolls, sumMean_push (lawOf X) _ (fun x => x * c) c 0 (fun x => by ring) (fun f => mean_push _ _ _)]
  congr 1
  funext x
  congr 1
  ring

/-- **C74** (src/roller.py `roll`, src/randvar.py `RV.__add__`): `n d(X+c)` is `n dX + n*c`. -/
theorem C74_roll_of_shift (n c : ℤ) {X : RV ℤ} (hX : GoodDie X) : SameDice AnySettings AnySettings
    (do let a ← binop .add (.rv X) (.num c); roll (.num n) a) (do let a ← roll (.num n) (.rv X); binop .add a (.num (n * c))) := by
  have hr := rep_good hX
  refine same_dice (p := none) (p' := some (1, _))
    (Full.next (full_opNum (op := .add) (by decide) (fun _ _ => rfl) c hr) (fun a ha => full_rolls n ha) fun a => Calm.roll _ _)
    (Full.next (full_rolls n hr) (fun a ha => full_opNum (op := .add) (by decide) (fun _ _ => rfl) (n * c) ha) fun a => Calm.binop _ _ _)
    fun f => ?_
  simp only [Naive.arith]
  rw [mean_push, mean_rolls, mean_rolls, sumMean_push (lawOf X) _ (fun x => x + c) 1 c (fun x => by ring) (fun f => mean_push _ _ _)]
  congr 1
  funext x
  congr 1
  rw [mul_add, one_mul, ← mul_assoc, Int.sign_mul_natAbs]

/-- **C74** (src/roller.py `roll` with a die for the number of dice): `Y dX + Z dX` is `(Y+Z) dX` if the counts are not negative. -/
theorem C74_random_count {X Y Z : RV ℤ} (hX : GoodDie X) (hY : GoodDie Y) (hZ : GoodDie Z) (h0 : ∀ v ∈ Y.vals, 0 ≤ v)
    (h1 : ∀ v ∈ Z.vals, 0 ≤ v) : SameDice AnySettings AnySettings
    (do let a ← roll (.rv Y) (.rv X); let b ← roll (.rv Z) (.rv X); binop .add a b)
    (do let c ← binop .add (.rv Y) (.rv Z); roll c (.rv X)) := by
  have hr := rep_good hX
  have roll' : ∀ (I : Settings → Prop) (o : Obj) (l : Law) p, Rep o (.die l p) → Full I (roll o (.rv X)) fun y =>
      Rep y (.die (andThen l fun k => rolls k (lawOf X)) none) := fun I o l p h => full_roll h hr
  refine same_dice (p := some (1, _)) (p' := none)
    (Full.next (roll' _ _ _ _ (rep_good hY)) (fun a ha => Full.next (roll' _ _ _ _ (rep_good hZ)) (fun b hb =>
      full_op (op := .add) (by decide) (fun _ _ => rfl) ha hb) fun b => Calm.binop _ _ _) fun a => (Calm.roll _ _).bind fun b => Calm.binop _ _ _)
    (Full.next (full_op (op := .add) (by decide) (fun _ _ => rfl) (rep_good hY) (rep_good hZ)) (fun a ha => roll' _ _ _ _ ha)
      fun a => Calm.roll _ _) fun f => ?_
  simp only [mean_andThen, mean_push, Naive.arith, mean_rolls]
  have hpos : ∀ {D : RV ℤ}, (∀ v ∈ D.vals, 0 ≤ v) → ∀ x ∈ lawOf D, 0 ≤ x.1 := by
    intro D h x hx
    obtain ⟨y, hy, rfl⟩ := List.mem_map.1 hx
    exact h _ (List.of_mem_zip hy).1
  refine mean_congr fun y hy => ?_
  have hy' := hpos h0 y hy
  have swap : ∀ g : ℤ → ℤ → ℚ, (sumMean (lawOf X) y.1.natAbs fun u => mean (lawOf Z) fun z => g u z) =
      mean (lawOf Z) fun z => sumMean (lawOf X) y.1.natAbs fun u => g u z := fun g => mean_comm _ _ _
  rw [swap]
  refine mean_congr fun z hz => ?_
  have hz' := hpos h1 z hz
  rw [show (y.1 + z.1).natAbs = y.1.natAbs + z.1.natAbs by omega, sumMean_add]
  rcases hy'.lt_or_eq with hy' | hy'
  · rcases hz'.lt_or_eq with hz' | hz'
    · rw [Int.sign_eq_one_of_pos hy', Int.sign_eq_one_of_pos hz', Int.sign_eq_one_of_pos (by omega : 0 < y.1 + z.1)]
      simp only [one_mul]
    · rw [← hz']; simp [sumMean_zero]
  · rw [← hy']; simp [sumMean_zero]

/-! ## Arithmetic -/

/-- **C74** (src/randvar.py `RV.__sub__`, `RV.__neg__`): `X - Y` is `X + (-Y)`. -/
theorem C74_sub {X Y : RV ℤ} (hX : GoodDie X) (hY : GoodDie Y) : SameDice AnySettings AnySettings
    (binop .sub (.rv X) (.rv Y)) (do let a ← negOp (.rv Y); binop .add (.rv X) a) := by
  refine same_dice (p := some (1, _)) (p' := some (1, _)) (full_op (op := .sub) (by decide) (fun _ _ => rfl) (rep_good hX) (rep_good hY))
    (Full.next (full_minus (rep_good hY)) (fun a ha => full_op (op := .add) (by decide) (fun _ _ => rfl) (rep_good hX) ha)
      fun a => Calm.binop _ _ _) fun f => ?_
  simp only [mean_andThen, mean_push, Naive.arith, sub_eq_add_neg]

/-- **C74** (src/randvar.py `RV.__sub__`, `RV.__neg__`): `X - Y` is `-(Y - X)`. -/
theorem C74_sub_swap {X Y : RV ℤ} (hX : GoodDie X) (hY : GoodDie Y) : SameDice AnySettings AnySettings
    (binop .sub (.rv X) (.rv Y)) (do let a ← binop .sub (.rv Y) (.rv X); negOp a) := by
  refine same_dice (p := some (1, _)) (p' := some (1, _)) (full_op (op := .sub) (by decide) (fun _ _ => rfl) (rep_good hX) (rep_good hY))
    (Full.next (full_op (op := .sub) (by decide) (fun _ _ => rfl) (rep_good hY) (rep_good hX)) (fun a ha => full_minus ha)
      fun a => Calm.negOp _) fun f => ?_
  simp only [mean_andThen, mean_push, Naive.arith, neg_sub]
  exact mean_comm _ _ _

/-- **C74** (src/randvar.py `RV.__neg__`): `-(-X)` is `X`. -/
theorem C74_neg_neg {X : RV ℤ} (hX : GoodDie X) : SameDice AnySettings AnySettings
    (do let a ← negOp (.rv X); negOp a) (pure (.rv X)) := by
  refine same_dice (p := some (1, _)) (p' := none) (Full.next (full_minus (rep_good hX)) (fun a ha => full_minus ha) fun a => Calm.negOp _)
    (Full.pure (rep_good hX)) fun f => ?_
  simp only [mean_push, neg_neg]

/-- **C74** (src/randvar.py `RV.__add__`, `RV.__mul__`): operations that do not depend on the order of numbers do not depend on the order of dice. -/
theorem C74_comm {X Y : RV ℤ} (hX : GoodDie X) (hY : GoodDie Y) {op : BinOp} (hop : op = .add ∨ op = .mul ∨ op = .eq ∨ op = .ne) :
    SameDice AnySettings AnySettings (binop op (.rv X) (.rv Y)) (binop op (.rv Y) (.rv X)) := by
  have key : ∀ c : Compiler.BinOp, c ≠ .at_ → (∀ x y, Naive.possible c x y = true) → (∀ x y, Naive.arith c x y = Naive.arith c y x) →
      SameDice AnySettings AnySettings (binop (libOp c) (.rv X) (.rv Y)) (binop (libOp c) (.rv Y) (.rv X)) := by
    intro c h1 h2 h3
    refine same_dice (p := some (1, _)) (p' := some (1, _)) (full_op h1 h2 (rep_good hX) (rep_good hY)) (full_op h1 h2 (rep_good hY) (rep_good hX))
      fun f => ?_
    simp only [mean_andThen, mean_push]
    rw [mean_comm]
    simp only [h3]
  rcases hop with rfl | rfl | rfl | rfl
  · exact key .add (by decide) (fun _ _ => rfl) fun x y => add_comm x y
  · exact key .mul (by decide) (fun _ _ => rfl) fun x y => mul_comm x y
  · exact key .eq (by decide) (fun _ _ => rfl) fun x y => by simp only [Naive.arith, Naive.test, eq_comm]
  · exact key .ne (by decide) (fun _ _ => rfl) fun x y => by simp only [Naive.arith, Naive.test, ne_comm]

/-- **C74** (src/randvar.py `RV.__add__`, `RV.__mul__`): `(X + Y) + Z` is `X + (Y + Z)`, and so for `*`. -/
theorem C74_assoc {X Y Z : RV ℤ} (hX : GoodDie X) (hY : GoodDie Y) (hZ : GoodDie Z) {op : BinOp} (hop : op = .add ∨ op = .mul) :
    SameDice AnySettings AnySettings (do let a ← binop op (.rv X) (.rv Y); binop op a (.rv Z))
      (do let a ← binop op (.rv Y) (.rv Z); binop op (.rv X) a) := by
  have key : ∀ c : Compiler.BinOp, c ≠ .at_ → (∀ x y, Naive.possible c x y = true) →
      (∀ x y z, Naive.arith c (Naive.arith c x y) z = Naive.arith c x (Naive.arith c y z)) →
      SameDice AnySettings AnySettings (do let a ← binop (libOp c) (.rv X) (.rv Y); binop (libOp c) a (.rv Z))
        (do let a ← binop (libOp c) (.rv Y) (.rv Z); binop (libOp c) (.rv X) a) := by
    intro c h1 h2 h3
    refine same_dice (p := some (1, _)) (p' := some (1, _))
      (Full.next (full_op h1 h2 (rep_good hX) (rep_good hY)) (fun a ha => full_op h1 h2 ha (rep_good hZ)) fun a => Calm.binop _ _ _)
      (Full.next (full_op h1 h2 (rep_good hY) (rep_good hZ)) (fun a ha => full_op h1 h2 (rep_good hX) ha) fun a => Calm.binop _ _ _)
      fun f => ?_
    simp only [mean_andThen, mean_push, h3]
  rcases hop with rfl | rfl
  · exact key .add (by decide) (fun _ _ => rfl) fun x y z => add_assoc x y z
  · exact key .mul (by decide) (fun _ _ => rfl) fun x y z => mul_assoc x y z

/-- **C74** (src/randvar.py `RV.__add__`, `RV.__mul__`): `(X + Y)*c` is `X*c + Y*c` for numbers `c`. -/
theorem C74_distrib (c : ℤ) {X Y : RV ℤ} (hX : GoodDie X) (hY : GoodDie Y) : SameDice AnySettings AnySettings
    (do let a ← binop .add (.rv X) (.rv Y); binop .mul a (.num c))
    (do let a ← binop .mul (.rv X) (.num c); let b ← binop .mul (.rv Y) (.num c); binop .add a b) := by
  refine same_dice (p := some (1, _)) (p' := some (1, _))
    (Full.next (full_op (op := .add) (by decide) (fun _ _ => rfl) (rep_good hX) (rep_good hY))
      (fun a ha => full_opNum (op := .mul) (by decide) (fun _ _ => rfl) c ha) fun a => Calm.binop _ _ _)
    (Full.next (full_opNum (op := .mul) (by decide) (fun _ _ => rfl) c (rep_good hX)) (fun a ha =>
      Full.next (full_opNum (op := .mul) (by decide) (fun _ _ => rfl) c (rep_good hY)) (fun b hb =>
        full_op (op := .add) (by decide) (fun _ _ => rfl) ha hb) fun b => Calm.binop _ _ _) fun a => (Calm.binop _ _ _).bind fun b => Calm.binop _ _ _)
    fun f => ?_
  simp only [mean_andThen, mean_push, Naive.arith, add_mul]

/-! ## Comparisons -/

/-- Comparisons and their complements. -/
def complement : BinOp → BinOp
  | .lt => .ge
  | .ge => .lt
  | .gt => .le
  | .le => .gt
  | .eq => .ne
  | .ne => .eq
  | op => op

/-- Comparisons the other way around. -/
def mirrored : BinOp → BinOp
  | .lt => .gt
  | .gt => .lt
  | .le => .ge
  | .ge => .le
  | op => op

/-- **C74** (src/randvar.py comparisons): `X < Y` is `1 - (X >= Y)`, and so for all comparisons. -/
theorem C74_complement {X Y : RV ℤ} (hX : GoodDie X) (hY : GoodDie Y) {op : BinOp} (hop : op.isCmp = true) : SameDice AnySettings AnySettings
    (binop op (.rv X) (.rv Y)) (do let a ← binop (complement op) (.rv X) (.rv Y); binop .sub (.num 1) a) := by
  have key : ∀ c c' : Compiler.BinOp, c ≠ .at_ → c' ≠ .at_ → (∀ x y, Naive.possible c x y = true) → (∀ x y, Naive.possible c' x y = true) →
      (∀ x y, Naive.arith c x y = 1 - Naive.arith c' x y) → SameDice AnySettings AnySettings (binop (libOp c) (.rv X) (.rv Y))
        (do let a ← binop (libOp c') (.rv X) (.rv Y); binop .sub (.num 1) a) := by
    intro c c' h1 h1' h2 h2' h3
    refine same_dice (p := some (1, _)) (p' := some (1, _)) (full_op h1 h2 (rep_good hX) (rep_good hY))
      (Full.next (full_op h1' h2' (rep_good hX) (rep_good hY)) (fun a ha => full_numOp (op := .sub) (by decide) (fun _ _ => rfl) 1 ha)
        fun a => Calm.binop _ _ _) fun f => ?_
    simp only [mean_andThen, mean_push, h3]
    rfl
  have case : ∀ p q : Prop, ∀ [Decidable p] [Decidable q], (p ↔ ¬ q) → Naive.bit (decide p) = 1 - Naive.bit (decide q) := by
    intro p q _ _ h
    by_cases hq : q <;> simp [Naive.bit, h, hq]
  cases op <;> simp only [BinOp.isCmp, Bool.false_eq_true] at hop
  · exact key .eq .ne (by decide) (by decide) (fun _ _ => rfl) (fun _ _ => rfl) fun x y => case _ _ (by omega)
  · exact key .ne .eq (by decide) (by decide) (fun _ _ => rfl) (fun _ _ => rfl) fun x y => case _ _ (by omega)
  · exact key .lt .ge (by decide) (by decide) (fun _ _ => rfl) (fun _ _ => rfl) fun x y => case _ _ (by omega)
  · exact key .le .gt (by decide) (by decide) (fun _ _ => rfl) (fun _ _ => rfl) fun x y => case _ _ (by omega)
  · exact key .gt .le (by decide) (by decide) (fun _ _ => rfl) (fun _ _ => rfl) fun x y => case _ _ (by omega)
  · exact key .ge .lt (by decide) (by decide) (fun _ _ => rfl) (fun _ _ => rfl) fun x y => case _ _ (by omega)

/-- **C74** (src/randvar.py comparisons): `X < Y` is `Y > X`, and so for all comparisons. -/
theorem C74_mirrored {X Y : RV ℤ} (hX : GoodDie X) (hY : GoodDie Y) {op : BinOp} (hop : op.isCmp = true) : SameDice AnySettings AnySettings
    (binop op (.rv X) (.rv Y)) (binop (mirrored op) (.rv Y) (.rv X)) := by
  have key : ∀ c c' : Compiler.BinOp, c ≠ .at_ → c' ≠ .at_ → (∀ x y, Naive.possible c x y = true) → (∀ x y, Naive.possible c' x y = true) →
      (∀ x y, Naive.arith c x y = Naive.arith c' y x) → SameDice AnySettings AnySettings (binop (libOp c) (.rv X) (.rv Y))
        (binop (libOp c') (.rv Y) (.rv X)) := by
    intro c c' h1 h1' h2 h2' h3
    refine same_dice (p := some (1, _)) (p' := some (1, _)) (full_op h1 h2 (rep_good hX) (rep_good hY)) (full_op h1' h2' (rep_good hY) (rep_good hX))
      fun f => ?_
    simp only [mean_andThen, mean_push, h3]
    exact mean_comm _ _ _
  cases op <;> simp only [BinOp.isCmp, Bool.false_eq_true] at hop
  · exact key .eq .eq (by decide) (by decide) (fun _ _ => rfl) (fun _ _ => rfl) fun x y => by simp only [Naive.arith, Naive.test, eq_comm]
  · exact key .ne .ne (by decide) (by decide) (fun _ _ => rfl) (fun _ _ => rfl) fun x y => by simp only [Naive.arith, Naive.test, ne_comm]
  · exact key .lt .gt (by decide) (by decide) (fun _ _ => rfl) (fun _ _ => rfl) fun x y => rfl
  · exact key .le .ge (by decide) (by decide) (fun _ _ => rfl) (fun _ _ => rfl) fun x y => rfl
  · exact key .gt .lt (by decide) (by decide) (fun _ _ => rfl) (fun _ _ => rfl) fun x y => rfl
  · exact key .ge .le (by decide) (by decide) (fun _ _ => rfl) (fun _ _ => rfl) fun x y => rfl

/-! ## Library functions and selection -/

/-- **C74** (src/funclib.py:11-15 `absolute`): `[absolute -X]` is `[absolute X]`. -/
theorem C74_absolute_neg {X : RV ℤ} (hX : GoodDie X) : SameDice AnySettings AnySettings
    (do let a ← negOp (.rv X); absolute a) (absolute (.rv X)) := by
  refine same_dice (p := none) (p' := none) (Full.next (full_minus (rep_good hX)) (fun a ha => full_absolute ha) fun a => Calm.absolute _)
    (full_absolute (rep_good hX)) fun f => ?_
  simp only [mean_push, abs_neg]

/-- **C74** (src/funclib.py:87-98): `[highest of X and Y]` is `-[lowest of -X and -Y]`. -/
theorem C74_highest_of_neg {X Y : RV ℤ} (hX : GoodDie X) (hY : GoodDie Y) : SameDice AnySettings AnySettings
    (highestOf (.rv X) (.rv Y)) (do let a ← negOp (.rv X); let b ← negOp (.rv Y); let c ← lowestOf a b; negOp c) := by
  refine same_dice (p := none) (p' := some (1, _)) (full_highestOf (rep_good hX) (rep_good hY))
    (Full.next (full_minus (rep_good hX)) (fun a ha => Full.next (full_minus (rep_good hY)) (fun b hb => Full.next (full_lowestOf ha hb)
      (fun c hc => full_minus hc) fun c => Calm.negOp _) fun b => (Calm.lowestOf _ _).bind fun c => Calm.negOp _)
      fun a => (Calm.negOp _).bind fun b => (Calm.lowestOf _ _).bind fun c => Calm.negOp _) fun f => ?_
  simp only [mean_andThen, mean_push]
  congr 1; funext x; congr 1; funext y; congr 1
  omega

/-- **C74** (src/funclib.py:87-91): `[highest of X and Y]` does not depend on the order. -/
theorem C74_highest_of_comm {X Y : RV ℤ} (hX : GoodDie X) (hY : GoodDie Y) : SameDice AnySettings AnySettings
    (highestOf (.rv X) (.rv Y)) (highestOf (.rv Y) (.rv X)) := by
  refine same_dice (p := none) (p' := none) (full_highestOf (rep_good hX) (rep_good hY)) (full_highestOf (rep_good hY) (rep_good hX)) fun f => ?_
  simp only [mean_andThen, mean_push]
  rw [mean_comm]
  simp only [max_comm]

/-- The highest die is the first: the default. -/
def HighestFirst (st : Settings) : Prop := st.positionOrder = .highestFirst

/-- The lowest die is the first. -/
def LowestFirst (st : Settings) : Prop := st.positionOrder = .lowestFirst

theorem SameDice.any {m m' : M Obj} (h : ∀ low low', SameDice (fun st => st.positionOrder = order low) (fun st => st.positionOrder = order low') m m') :
    SameDice AnySettings AnySettings m m' := by
  intro w w' hw hw' _ _
  have key : ∀ st : Settings, ∃ low, st.positionOrder = order low := by
    intro st
    cases h : st.positionOrder
    · exact ⟨false, rfl⟩
    · exact ⟨true, rfl⟩
  obtain ⟨low, h1⟩ := key w.settings
  obtain ⟨low', h2⟩ := key w'.settings
  exact h low low' w w' hw hw' h1 h2

/-- **C74** (src/randvar.py `RV.__rmatmul__`, src/funclib.py:87-91): `1@2dX` is `[highest of X and X]`. -/
theorem C74_highest_of_two {X : RV ℤ} (hX : GoodDie X) : SameDice HighestFirst AnySettings
    (do let a ← roll (.num 2) (.rv X); matmul (.num 1) a) (highestOf (.rv X) (.rv X)) := by
  have hr := rep_good hX
  refine same_dice (p := some (1, _)) (p' := none) (Full.next (full_pool (n := 2) le_rfl hr) (fun a ha =>
    full_matmul (low := false) (ints := false) (fun st h => h) (a := .num 1) (u := .num 1) rfl ha rfl (fun _ _ _ => by simp)) fun a => Calm.matmul _ _)
    (full_highestOf hr hr) fun f => ?_
  simp only [mean_andThen, mean_push, mean_draws_succ, mean_draws_zero]
  congr 1; funext x; congr 1; funext y; congr 1
  by_cases h : y ≤ x
  · simp [descending, h, Naive.elemAt]
  · simp [descending, h, Naive.elemAt]; omega

/-- **C74** (src/randvar.py `RV.__rmatmul__`, src/funclib.py:94-98): `2@2dX` is `[lowest of X and X]`. -/
theorem C74_lowest_of_two {X : RV ℤ} (hX : GoodDie X) : SameDice HighestFirst AnySettings
    (do let a ← roll (.num 2) (.rv X); matmul (.num 2) a) (lowestOf (.rv X) (.rv X)) := by
  have hr := rep_good hX
  refine same_dice (p := some (1, _)) (p' := none) (Full.next (full_pool (n := 2) le_rfl hr) (fun a ha =>
    full_matmul (low := false) (ints := false) (fun st h => h) (a := .num 2) (u := .num 2) rfl ha rfl (fun _ _ _ => by simp)) fun a => Calm.matmul _ _)
    (full_lowestOf hr hr) fun f => ?_
  simp only [mean_andThen, mean_push, mean_draws_succ, mean_draws_zero]
  congr 1; funext x; congr 1; funext y; congr 1
  by_cases h : y ≤ x
  · simp [descending, h, Naive.elemAt]
  · simp [descending, h, Naive.elemAt]; omega

/-- **C74** (src/randvar.py `RV.kth_order_statistic`, src/settings.py `position order`): the `k`-th highest of `n` dice is the `n+1-k`-th when the
lowest die is the first. -/
theorem C74_position_order {n k : ℕ} (hn : 2 ≤ n) (h1 : 1 ≤ k) (hk : k ≤ n) {X : RV ℤ} (hX : GoodDie X) : SameDice HighestFirst LowestFirst
    (do let a ← roll (.num n) (.rv X); matmul (.num k) a) (do let a ← roll (.num n) (.rv X); matmul (.num (n + 1 - k : ℕ)) a) := by
  have hr := rep_good hX
  refine same_dice (p := some (1, _)) (p' := some (1, _))
    (Full.next (full_pool hn hr) (fun a ha => full_matmul (low := false) (ints := false) (fun st h => h) (a := .num k) (u := .num k) rfl ha
      (if_pos ⟨by omega, by omega⟩) (fun _ _ _ => by simp)) fun a => Calm.matmul _ _)
    (Full.next (full_pool hn hr) (fun a ha => full_matmul (low := true) (ints := false) (fun st h => h) (a := .num (n + 1 - k : ℕ))
      (u := .num (n + 1 - k : ℕ)) rfl ha (if_pos ⟨by omega, by omega⟩) (fun _ _ _ => by simp)) fun a => Calm.matmul _ _) fun f => ?_
  simp only [mean_push]
  refine mean_congr fun xs hxs => ?_
  congr 1
  exact elemAt_mirror _ (mem_fst_draws.1 (List.mem_map_of_mem (f := Prod.fst) hxs)).1 h1 hk

/-- **C74** (src/randvar.py `RV.__rmatmul__`): `{1..n}@ndX` is `ndX`: all the dice of a pool. -/
theorem C74_all_places {n : ℕ} (hn : 2 ≤ n) {X : RV ℤ} (hX : GoodDie X) : SameDice AnySettings AnySettings
    (do let a ← roll (.num n) (.rv X); matmul (.seq (Naive.interval 1 n)) a) (roll (.num n) (.rv X)) := by
  refine SameDice.any fun low low' => ?_
  have hr := rep_good hX
  have hp : ∀ l, Naive.pick low (Naive.interval 1 n) (.die l (some (n, lawOf X))) =
      some (Naive.one (push (fun xs => Naive.sumAt (descending xs) (Naive.interval 1 n)) (draws (lawOf X) n))) := by
    intro l
    have e : (Naive.interval 1 (n : ℤ)).length = n := by simp [Naive.interval]
    match h : Naive.interval 1 (n : ℤ) with
    | [] => rw [h] at e; simp at e; omega
    | [_] => rw [h] at e; simp at e; omega
    | _ :: _ :: _ => rfl
  refine same_dice (p := some (1, _)) (p' := none)
    (Full.next (full_pool hn hr) (fun a ha => full_matmul (low := low) (ints := false) (fun st h => h) (a := .seq (Naive.interval 1 n))
      (u := .seq (Naive.interval 1 n)) rfl ha (hp (rolls n (lawOf X))) (fun _ _ h => by cases h)) fun a => Calm.matmul _ _)
    (full_rolls n hr) fun f => ?_
  rw [mean_push, mean_rolls, Int.sign_eq_one_of_pos (by omega), Int.natAbs_natCast, sumMean]
  refine mean_congr fun xs hxs => ?_
  rw [sumAt_all _ (mem_fst_draws.1 (List.mem_map_of_mem (f := Prod.fst) hxs)).1, one_mul]

/-- **C74** (src/funclib.py:64-71): `[highest k of ndX]` is `-[lowest k of nd(-X)]`. -/
theorem C74_highest_lowest {n k : ℕ} (hn : 2 ≤ n) (hk : k ≤ n) {X : RV ℤ} (hX : GoodDie X) : SameDice HighestFirst HighestFirst
    (do let a ← roll (.num n) (.rv X); highestN (.num k) a)
    (do let x ← negOp (.rv X); let a ← roll (.num n) x; let b ← lowestN (.num k) a; negOp b) := by
  have hr := rep_good hX
  have hp : Pos (lawOf X) := hr.law.1
  refine same_dice (p := none) (p' := some (1, _))
    (Full.next (full_pool hn hr) (fun a ha => full_highestN hk (fun _ h => h) ha hp) fun a => Calm.highestN _ _)
    (Full.next (full_minus hr) (fun x hx => Full.next (full_pool hn hx) (fun a ha => Full.next (full_lowestN hk (fun _ h => h) ha (hp.push _))
      (fun b hb => full_minus hb) fun b => Calm.negOp _) fun a => (Calm.lowestN _ _).bind fun b => Calm.negOp _)
      fun x => (Calm.roll _ _).bind fun a => (Calm.lowestN _ _).bind fun b => Calm.negOp _) fun f => ?_
  simp only [mean_push]
  rw [mean_draws_push (fun x => -x) (lawOf X) _ (fun f => mean_push _ _ _)]
  refine mean_congr fun xs hxs => ?_
  rw [sumAt_mirror _ (mem_fst_draws.1 (List.mem_map_of_mem (f := Prod.fst) hxs)).1 hk, neg_neg]

/-- **C74** (src/funclib.py:64-71): `[highest n of ndX]` and `[lowest n of ndX]` are `ndX`. -/
theorem C74_all_highest {n : ℕ} (hn : 2 ≤ n) {X : RV ℤ} (hX : GoodDie X) :
    SameDice HighestFirst AnySettings (do let a ← roll (.num n) (.rv X); highestN (.num n) a) (roll (.num n) (.rv X)) ∧
    SameDice HighestFirst AnySettings (do let a ← roll (.num n) (.rv X); lowestN (.num n) a) (roll (.num n) (.rv X)) := by
  have hr := rep_good hX
  have hp : Pos (lawOf X) := hr.law.1
  constructor
  · refine same_dice (p := none) (p' := none)
      (Full.next (full_pool hn hr) (fun a ha => full_highestN le_rfl (fun _ h => h) ha hp) fun a => Calm.highestN _ _) (full_rolls n hr) fun f => ?_
    rw [mean_push, mean_rolls, Int.sign_eq_one_of_pos (by omega), Int.natAbs_natCast, sumMean]
    refine mean_congr fun xs hxs => ?_
    rw [sumAt_all _ (mem_fst_draws.1 (List.mem_map_of_mem (f := Prod.fst) hxs)).1, one_mul]
  · refine same_dice (p := none) (p' := none)
      (Full.next (full_pool hn hr) (fun a ha => full_lowestN le_rfl (fun _ h => h) ha hp) fun a => Calm.lowestN _ _) (full_rolls n hr) fun f => ?_
    rw [mean_push, mean_rolls, Int.sign_eq_one_of_pos (by omega), Int.natAbs_natCast, sumMean]
    refine mean_congr fun xs hxs => ?_
    rw [sub_self, zero_add, sumAt_all _ (mem_fst_draws.1 (List.mem_map_of_mem (f := Prod.fst) hxs)).1, one_mul]

/-! ## Cases -/

/-- The outcomes and weights that a computation gives in the initial state, if nothing was rounded. -/
def given (m : M Obj) : Option (List ℤ × List ℕ) :=
  match m {} with
  | (.ok (.rv r), w) => if w.warns = 0 then some (r.vals, r.probs) else none
  | _ => none

/-- A coin with a heavier side. -/
def coin : RV ℤ := ⟨[0, 1], [1, 2], none⟩

theorem coin_good : GoodDie coin := ⟨rfl, by decide, by decide, by decide, fun k h => by simpa using h 1 (by decide)⟩

example : given (do let a ← roll (.num 2) (.rv loaded); let b ← roll (.num 1) (.rv loaded); binop .add a b) =
    some ([-3, 0, 1, 3, 4, 5, 6, 7, 8, 9], [1, 3, 12, 3, 24, 48, 1, 12, 48, 64]) ∧
    given (roll (.num 3) (.rv loaded)) = some ([-3, 0, 1, 3, 4, 5, 6, 7, 8, 9], [1, 3, 12, 3, 24, 48, 1, 12, 48, 64]) := by decide +kernel

example : given (do let a ← roll (.num (-2)) (.rv coin); roll (.num (-1)) a) = some ([0, 1, 2], [1, 4, 4]) ∧
    given (roll (.num 2) (.rv coin)) = some ([0, 1, 2], [1, 4, 4]) := by decide +kernel

example : given (roll (.num (-2)) (.rv coin)) = some ([-2, -1, 0], [4, 4, 1]) ∧
    given (do let a ← roll (.num 2) (.rv coin); negOp a) = some ([-2, -1, 0], [4, 4, 1]) ∧
    given (do let a ← negOp (.rv coin); roll (.num 2) a) = some ([-2, -1, 0], [4, 4, 1]) := by decide +kernel

example : given (do let a ← binop .add (.rv coin) (.rv loaded); roll (.num 2) a) =
    given (do let a ← roll (.num 2) (.rv coin); let b ← roll (.num 2) (.rv loaded); binop .add a b) ∧
    (given (do let a ← binop .add (.rv coin) (.rv loaded); roll (.num 2) a)).isSome = true := by decide +kernel

example : given (do let a ← binop .mul (.rv coin) (.num (-3)); roll (.num 2) a) = some ([-6, -3, 0], [4, 4, 1]) ∧
    given (do let a ← roll (.num 2) (.rv coin); binop .mul a (.num (-3))) = some ([-6, -3, 0], [4, 4, 1]) := by decide +kernel

example : given (do let a ← binop .add (.rv coin) (.num 5); roll (.num (-2)) a) = some ([-12, -11, -10], [4, 4, 1]) ∧
    given (do let a ← roll (.num (-2)) (.rv coin); binop .add a (.num (-2 * 5))) = some ([-12, -11, -10], [4, 4, 1]) := by decide +kernel

/-- Twice a die is not two dice. -/
example : given (binop .mul (.rv coin) (.num 2)) ≠ given (roll (.num 2) (.rv coin)) := by decide +kernel

/-- For counts of different signs `n dX + m dX` is not `(n+m) dX`: `2dX + (-1)dX` is not `1dX`. -/
theorem C74_signs_counterexample : ¬ SameDice AnySettings AnySettings
    (do let a ← roll (.num 2) (.rv coin); let b ← roll (.num (-1)) (.rv coin); binop .add a b) (roll (.num (2 + -1)) (.rv coin)) := by
  intro h
  have h0 : given (do let a ← roll (.num 2) (.rv coin); let b ← roll (.num (-1)) (.rv coin); binop .add a b) =
      some ([-1, 0, 1, 2], [2, 9, 12, 4]) := by decide +kernel
  have h1 : given (roll (.num (2 + -1)) (.rv coin)) = some ([0, 1], [1, 2]) := by decide +kernel
  have key : ∀ {m : M Obj} {v : List ℤ × List ℕ}, given m = some v → (m {}).2.warns = 0 ∧ ∃ r : RV ℤ, (m {}).1 = .ok (.rv r) ∧ (r.vals, r.probs) = v := by
    intro m v hm
    unfold given at hm
    split at hm
    · rename_i r w e
      split_ifs at hm with hw
      rw [e]
      exact ⟨hw, r, rfl, by simpa using hm⟩
    · cases hm
  obtain ⟨w0, r, e0, v0⟩ := key h0
  obtain ⟨w1, q, e1, v1⟩ := key h1
  rcases h {} {} .init .init trivial trivial w0 w1 with h | h | ⟨x, y, hx, hy, e, _⟩
  · rw [e0] at h; cases h
  · rw [e1] at h; cases h
  · rw [e0] at hx
    rw [e1] at hy
    cases hx
    cases hy
    rw [(Prod.mk.inj v0).1, (Prod.mk.inj v1).1] at e
    revert e
    decide

example : given (do let a ← roll (.rv coin) (.rv loaded); let b ← roll (.rv coin) (.rv loaded); binop .add a b) =
    given (do let c ← binop .add (.rv coin) (.rv coin); roll c (.rv loaded)) ∧
    (given (do let c ← binop .add (.rv coin) (.rv coin); roll c (.rv loaded))).isSome = true := by decide +kernel

example : given (binop .sub (.rv coin) (.rv loaded)) = some ([-3, -2, -1, 1, 2], [4, 9, 2, 1, 2]) ∧
    given (do let a ← negOp (.rv loaded); binop .add (.rv coin) a) = some ([-3, -2, -1, 1, 2], [4, 9, 2, 1, 2]) ∧
    given (do let a ← binop .sub (.rv loaded) (.rv coin); negOp a) = some ([-3, -2, -1, 1, 2], [4, 9, 2, 1, 2]) := by decide +kernel

example : given (binop .lt (.rv coin) (.rv loaded)) = some ([0, 1], [1, 5]) ∧ given (binop .gt (.rv loaded) (.rv coin)) = some ([0, 1], [1, 5]) ∧
    given (do let a ← binop .ge (.rv coin) (.rv loaded); binop .sub (.num 1) a) = some ([0, 1], [1, 5]) := by decide +kernel

example : given (absolute (.rv loaded)) = some ([1, 2, 3], [1, 1, 4]) ∧
    given (do let a ← negOp (.rv loaded); absolute a) = some ([1, 2, 3], [1, 1, 4]) := by decide +kernel

example : given (highestOf (.rv coin) (.rv loaded)) = some ([0, 1, 2, 3], [1, 2, 3, 12]) ∧
    given (highestOf (.rv loaded) (.rv coin)) = some ([0, 1, 2, 3], [1, 2, 3, 12]) ∧
    given (do let a ← negOp (.rv coin); let b ← negOp (.rv loaded); let c ← lowestOf a b; negOp c) = some ([0, 1, 2, 3], [1, 2, 3, 12]) := by
  decide +kernel

example : given (do let a ← roll (.num 2) (.rv loaded); matmul (.num 1) a) = some ([-1, 2, 3], [1, 3, 32]) ∧
    given (highestOf (.rv loaded) (.rv loaded)) = some ([-1, 2, 3], [1, 3, 32]) ∧
    given (do let a ← roll (.num 2) (.rv loaded); matmul (.num 2) a) = given (lowestOf (.rv loaded) (.rv loaded)) ∧
    given (lowestOf (.rv loaded) (.rv loaded)) = some ([-1, 2, 3], [11, 9, 16]) := by decide +kernel

example : given (do let a ← roll (.num 3) (.rv coin); highestN (.num 2) a) = some ([0, 1, 2], [1, 6, 20]) ∧
    given (do let x ← negOp (.rv coin); let a ← roll (.num 3) x; let b ← lowestN (.num 2) a; negOp b) = some ([0, 1, 2], [1, 6, 20]) := by
  decide +kernel

example : given (do let a ← roll (.num 3) (.rv coin); matmul (.seq [1, 2, 3]) a) = given (roll (.num 3) (.rv coin)) ∧
    given (roll (.num 3) (.rv coin)) = some ([0, 1, 2, 3], [1, 6, 12, 8]) ∧ Naive.interval 1 3 = [1, 2, 3] := by decide +kernel

end PythonDice
