import Verif.Props.Objects

/-!
# C52: expressions over independent dice
-/

namespace PythonDice
open Spec

/-- A Python expression over int literals and dice objects. -/
inductive DExpr
  | num (n : ℤ)
  | die (X : RV ℤ)
  | op (o : BinOp) (a b : DExpr)
  | neg (a : DExpr)
  | abs (a : DExpr)

/-- Evaluating the expression: operands from left to right, then the operator
(src/randvar.py:263-358 and Python's protocol, see `Model/SeqOps.lean`). -/
def DExpr.eval : DExpr → M Obj
  | .num n => pure (.num n)
  | .die X => pure (.rv X)
  | .op o a b => do
    let x ← a.eval
    let y ← b.eval
    binop o x y
  | .neg a => do
    let x ← a.eval
    negOp x
  | .abs a => do
    let x ← a.eval
    absOp x

/-! ## What the expression means -/

/-- The dice of the expression, from left to right; each occurrence is an independent die. -/
def DExpr.dice : DExpr → List (RV ℤ)
  | .num _ => []
  | .die X => [X]
  | .op _ a b => a.dice ++ b.dice
  | .neg a => a.dice
  | .abs a => a.dice

/-- `Yields e xs z`: if its dice show `xs` (from left to right), the expression is `z`.  Operators mean
what they mean on ints, and `&`, `|` are logical, except between two operands without dice, where
Python's bitwise operators apply. -/
inductive Yields : DExpr → List ℤ → ℤ → Prop
  | num (n) : Yields (.num n) [] n
  | die (X) (x) : Yields (.die X) [x] x
  | op (o a b xs ys x y z) (ha : Yields a xs x) (hb : Yields b ys y) (hd : a.dice ≠ [] ∨ b.dice ≠ [] ∨ (o ≠ .or_ ∧ o ≠ .and_))
      (hz : PyOp o x y z) : Yields (.op o a b) (xs ++ ys) z
  | bitor (a b x y) (ha : Yields a [] x) (hb : Yields b [] y) (da : a.dice = []) (db : b.dice = []) :
      Yields (.op .or_ a b) [] (Int.lor x y)
  | bitand (a b x y) (ha : Yields a [] x) (hb : Yields b [] y) (da : a.dice = []) (db : b.dice = []) :
      Yields (.op .and_ a b) [] (Int.land x y)
  | neg (a xs x) (ha : Yields a xs x) : Yields (.neg a) xs (-x)
  | abs (a xs x) (ha : Yields a xs x) : Yields (.abs a) xs |x|

/-- `xs` are possible outcomes of the dice. -/
def Outcomes (ds : List (RV ℤ)) (xs : List ℤ) : Prop := List.Forall₂ (fun X x => x ∈ X.vals) ds xs

/-- Expectation over independent outcomes of the dice. -/
def ExDice : List (RV ℤ) → (List ℤ → ℚ) → ℚ
  | [], g => g []
  | X :: ds, g => Ex X.pairs fun x => ExDice ds fun xs => g (x :: xs)

/-! ## Lemmas -/

theorem Ex_congr_vals {X : RV ℤ} {f g : ℤ → ℚ} (h : ∀ x ∈ X.vals, f x = g x) : Ex X.pairs f = Ex X.pairs g := by
  unfold Ex wsum
  congr 2
  exact List.map_congr_left fun x hx => by rw [h _ (RV.mem_vals_of_pairs hx)]

theorem ExDice_congr (ds : List (RV ℤ)) (f g : List ℤ → ℚ) (h : ∀ xs, Outcomes ds xs → f xs = g xs) :
    ExDice ds f = ExDice ds g := by
  induction ds generalizing f g with
  | nil => exact h [] .nil
  | cons X ds ih => exact Ex_congr_vals fun x hx => ih _ _ fun xs hxs => h _ (.cons hx hxs)

theorem ExDice_append (ds es : List (RV ℤ)) (g : List ℤ → ℚ) :
    ExDice (ds ++ es) g = ExDice ds fun xs => ExDice es fun ys => g (xs ++ ys) := by
  induction ds generalizing g with
  | nil => rfl
  | cons X ds ih => exact Ex_congr_vals fun x _ => ih _

theorem Outcomes.append {ds es : List (RV ℤ)} {xs ys : List ℤ} (h : Outcomes ds xs) (h' : Outcomes es ys) :
    Outcomes (ds ++ es) (xs ++ ys) := by
  induction h with
  | nil => exact h'
  | cons hx _ ih => exact .cons hx ih

theorem outcomes_exist (ds : List (RV ℤ)) (h : ∀ X ∈ ds, X.Proper) : ∃ xs, Outcomes ds xs := by
  induction ds with
  | nil => exact ⟨[], .nil⟩
  | cons X ds ih =>
    obtain ⟨xs, hxs⟩ := ih fun Y hY => h Y (List.mem_cons_of_mem _ hY)
    obtain ⟨x, hx⟩ := List.exists_mem_of_ne_nil _ (h X (List.mem_cons_self ..)).nonempty
    exact ⟨x :: xs, .cons hx hxs⟩

theorem PyOp.unique {o : BinOp} {x y z z' : ℤ} (h : PyOp o x y z) (h' : PyOp o x y z') : z = z' := by
  rw [← eval_iff] at h h'
  rw [h] at h'
  exact Except.ok.inj h'

theorem Yields.length {e : DExpr} {xs : List ℤ} {z : ℤ} (h : Yields e xs z) : xs.length = e.dice.length := by
  induction h with
  | num => rfl
  | die => rfl
  | op o a b xs ys x y z _ _ _ _ iha ihb => simp [DExpr.dice, iha, ihb]
  | bitor a b x y _ _ da db => simp [DExpr.dice, da, db]
  | bitand a b x y _ _ da db => simp [DExpr.dice, da, db]
  | neg a xs x _ ih => exact ih
  | abs a xs x _ ih => exact ih

theorem Yields.op_inv {o : BinOp} {a b : DExpr} {xs ys : List ℤ} {z : ℤ} (h : Yields (.op o a b) (xs ++ ys) z)
    (hl : xs.length = a.dice.length) : ∃ x y, Yields a xs x ∧ Yields b ys y ∧
      (((a.dice ≠ [] ∨ b.dice ≠ [] ∨ (o ≠ .or_ ∧ o ≠ .and_)) ∧ PyOp o x y z) ∨
        (a.dice = [] ∧ b.dice = [] ∧ o = .or_ ∧ z = Int.lor x y) ∨ (a.dice = [] ∧ b.dice = [] ∧ o = .and_ ∧ z = Int.land x y)) := by
  generalize hxy : xs ++ ys = l at h
  cases h with
  | op _ _ _ xs' ys' x y _ ha hb hd hz =>
    obtain ⟨rfl, rfl⟩ := List.append_inj hxy (by rw [hl, ha.length])
    exact ⟨x, y, ha, hb, .inl ⟨hd, hz⟩⟩
  | bitor _ _ x y ha hb da db =>
    obtain ⟨rfl, rfl⟩ := List.append_eq_nil_iff.1 hxy
    exact ⟨x, y, ha, hb, .inr (.inl ⟨da, db, rfl, rfl⟩)⟩
  | bitand _ _ x y ha hb da db =>
    obtain ⟨rfl, rfl⟩ := List.append_eq_nil_iff.1 hxy
    exact ⟨x, y, ha, hb, .inr (.inr ⟨da, db, rfl, rfl⟩)⟩

/-- The value of an expression is determined by the outcomes. -/
theorem Yields.unique {e : DExpr} {xs : List ℤ} {z z' : ℤ} (h : Yields e xs z) (h' : Yields e xs z') : z = z' := by
  induction h generalizing z' with
  | num => cases h'; rfl
  | die => cases h'; rfl
  | op o a b xs ys x y z ha hb hd hz iha ihb =>
    obtain ⟨x', y', ha', hb', hz'⟩ := h'.op_inv ha.length
    cases iha ha'
    cases ihb hb'
    rcases hz' with ⟨_, hz'⟩ | ⟨h1, h2, h3, _⟩ | ⟨h1, h2, h3, _⟩
    · exact hz.unique hz'
    · exact absurd hd (by simp [h1, h2, h3])
    · exact absurd hd (by simp [h1, h2, h3])
  | bitor a b x y ha hb da db iha ihb =>
    obtain ⟨x', y', ha', hb', hz'⟩ := Yields.op_inv (xs := []) (ys := []) h' ha.length
    cases iha ha'
    cases ihb hb'
    rcases hz' with ⟨h1, _⟩ | ⟨_, _, _, h1⟩ | ⟨_, _, h1, _⟩
    · simp [da, db] at h1
    · exact h1.symm
    · cases h1
  | bitand a b x y ha hb da db iha ihb =>
    obtain ⟨x', y', ha', hb', hz'⟩ := Yields.op_inv (xs := []) (ys := []) h' ha.length
    cases iha ha'
    cases ihb hb'
    rcases hz' with ⟨h1, _⟩ | ⟨_, _, h1, _⟩ | ⟨_, _, _, h1⟩
    · simp [da, db] at h1
    · cases h1
    · exact h1.symm
  | neg a xs x _ ih =>
    cases h' with
    | neg _ _ x' hx' => rw [ih hx']
  | abs a xs x _ ih =>
    cases h' with
    | abs _ _ x' hx' => rw [ih hx']

/-- Outcomes of a constructed die are among the values given. -/
theorem mk'_support {st : Settings} {vals : List ℤ} {probs : List ℤ} {t : Option Bool} {r : RV ℤ}
    (h : RV.mk' st vals probs t = .ok r) (hm : mass (vals.zip (probs.map Int.toNat)) ≠ 0) {v : ℤ} (hv : v ∈ r.vals) :
    v ∈ vals := by
  obtain ⟨hl, _, vs, hvs, hr⟩ := RV.mk'_ok h
  rw [RV.truncated_int] at hvs
  cases hvs
  rcases hr with ⟨hc, _⟩ | ⟨_, rfl⟩
  · exfalso
    apply hm
    rw [mass, ← RV.core_wsum st, hc]
    simp [wsum]
  · have h1 : v ∈ (RV.core st vals probs).map (·.1) := hv
    have h2 : v ∈ (RV.grouped (RV.getZip vals (probs.map Int.toNat))).map (·.1) := by
      rw [RV.core] at h1
      cases hi : st.rvIgnoreZeroProbs with
      | false => rw [hi] at h1; exact h1
      | true =>
        rw [hi, RV.newZipped_true] at h1
        obtain ⟨y, hy, e⟩ := List.mem_map.1 h1
        rw [← e]
        exact List.mem_map_of_mem (f := (·.1)) (List.mem_of_mem_filter hy)
    rw [RV.grouped_mem, ((RV.getZip_perm _ _).map (·.1)).mem_iff] at h2
    obtain ⟨y, hy, rfl⟩ := List.mem_map.1 h2
    exact (List.of_mem_zip hy).1

theorem mapVals_full (st : Settings) {d : RV ℤ} (hd : d.Proper) (op : ℤ → Except Err ℤ) (F : ℤ → ℤ)
    (hF : ∀ x ∈ d.vals, op x = .ok (F x)) :
    ∃ r, RV.mapVals st d op = .ok r ∧ r.Proper ∧ r.probs.sum ≤ d.probs.sum ∧ (∀ v ∈ r.vals, ∃ x ∈ d.vals, v = F x) ∧
      ∀ f, Ex r.pairs f = Ex d.pairs fun x => f (F x) := by
  obtain ⟨r, h1, h2, _, _, h5, _, h6⟩ := mapVals_spec st hd op F hF
  refine ⟨r, h1, h2, h5, fun v hv => ?_, h6⟩
  rw [RV.mapVals_ok hF] at h1
  have := mk'_support h1 ?_ hv
  · obtain ⟨x, hx, rfl⟩ := List.mem_map.1 this
    exact ⟨x, hx, rfl⟩
  · have e : (d.probs.map fun p : ℕ => (p : ℤ)).map Int.toNat = d.probs := by
      rw [List.map_map]
      exact (List.map_congr_left (g := id) fun p _ => by simp).trans (List.map_id _)
    rw [e]
    have hz : d.pairs.map (fun x => (F x.1, x.2)) = (d.vals.map F).zip d.probs := by
      rw [RV.pairs, ← List.map_id d.probs, List.zip_map, List.map_id]
      rfl
    rw [← hz, mass, wsum_map]
    exact hd.pos

theorem binop_full (st : Settings) (op : BinOp) {a b : RV ℤ} (ha : a.Proper) (hb : b.Proper) (F : ℤ → ℤ → ℤ)
    (hF : ∀ x ∈ a.vals, ∀ y ∈ b.vals, op.eval x y = .ok (F x y)) (hs : a.probs.sum * b.probs.sum ≤ RV.sumLimit) :
    ∃ r, RV.binop st op a b = .ok (r, false) ∧ r.Proper ∧ r.probs.sum ≤ a.probs.sum * b.probs.sum ∧
      (∀ v ∈ r.vals, ∃ x ∈ a.vals, ∃ y ∈ b.vals, v = F x y) ∧
      ∀ f, Ex r.pairs f = Ex a.pairs fun x => Ex b.pairs fun y => f (F x y) := by
  obtain ⟨r, hr⟩ := C05_binop_succeeds st op a b (fun x hx y hy => ⟨F x y, (eval_iff _ _ _ _).1 (hF x hx y hy)⟩) ha.len hb.len hs
  have hF' : ∀ x ∈ a.pairs, ∀ y ∈ b.pairs, op.eval x.1 y.1 = .ok (F x.1 y.1) := fun x hx y hy =>
    hF _ (RV.mem_vals_of_pairs hx) _ (RV.mem_vals_of_pairs hy)
  have law := RV.convolveRV_Ex hF' hr ha.pos hb.pos
  have hm := RV.convolveRV_mass hF' hr ha.pos hb.pos
  refine ⟨r, hr, ?_⟩
  unfold RV.binop at hr
  rw [RV.convolveRV_ok hF', RV.bind_ok_iff] at hr
  obtain ⟨r0, h0, h1⟩ := hr
  have := RV.probLimit_false h1
  subst this
  have hmass : mass (RV.toTuples (RV.rdictOf (RV.prodPairs a.pairs b.pairs F))) = ((a.probs.sum * b.probs.sum : ℕ) : ℚ) := by
    rw [mass, RV.tuples_wsum, ← mass, RV.prodPairs_mass, RV.mass_eq_probs ha.len, RV.mass_eq_probs hb.len]
    push_cast; rfl
  have e : ∀ l : List (ℤ × ℕ), (l.map fun x => (x.2 : ℤ)).map Int.toNat = l.map (·.2) := by
    intro l; rw [List.map_map]; rfl
  refine ⟨(RV.mk'_canonical h0).proper hm, ?_, fun v hv => ?_, fun f => by simpa using law f⟩
  · refine (RV.mk'_sum_le h0).trans (max_le ?_ (le_of_eq ?_))
    · exact Nat.mul_le_mul ha.sum_pos hb.sum_pos
    · rw [mass_eq_sum] at hmass
      rw [e]
      exact_mod_cast hmass
  · have := mk'_support h0 ?_ hv
    · rw [RV.tuples_mem] at this
      obtain ⟨z, hz, rfl⟩ := List.mem_map.1 this
      unfold RV.prodPairs at hz
      simp only [List.mem_flatMap, List.mem_map] at hz
      obtain ⟨x, hx, y, hy, rfl⟩ := hz
      exact ⟨x.1, RV.mem_vals_of_pairs hx, y.1, RV.mem_vals_of_pairs hy, rfl⟩
    · rw [e, List.zip_map']
      have : (fun a : ℤ × ℕ => (a.1, a.2)) = id := rfl
      rw [this, List.map_id, hmass]
      have := Nat.mul_le_mul ha.sum_pos hb.sum_pos
      exact_mod_cast (by omega : a.probs.sum * b.probs.sum ≠ 0)

/-! ## Objects with a law -/

/-- Expectation over an object that is a number or a die. -/
def objLaw : Obj → (ℤ → ℚ) → ℚ
  | .num n, g => g n
  | .rv r, g => Ex r.pairs g
  | _, _ => 0

def objVals : Obj → List ℤ
  | .num n => [n]
  | .rv r => r.vals
  | _ => []

def objSum : Obj → ℕ
  | .rv r => r.probs.sum
  | _ => 1

theorem run_limited (f : Settings → Except Err (RV ℤ × Bool)) (w : World) (r : RV ℤ) (h : f w.settings = .ok (r, false)) :
    (Obj.rv <$> M.ofLimited f) w = (.ok (.rv r), w) := by
  rw [M.map_apply]
  unfold M.ofLimited
  rw [h]
  rfl

theorem run_settings (f : Settings → Except Err (RV ℤ)) (w : World) (r : RV ℤ) (h : f w.settings = .ok r) :
    (Obj.rv <$> M.ofSettings f) w = (.ok (.rv r), w) := by
  rw [run_rv, h]; rfl

/-- An operator with at least one die as operand. -/
theorem obj_op (op : BinOp) (a b : Obj) (ha : (∃ n, a = .num n) ∨ ∃ r : RV ℤ, a = .rv r ∧ r.Proper)
    (hb : (∃ n, b = .num n) ∨ ∃ r : RV ℤ, b = .rv r ∧ r.Proper) (hne : ¬ ((∃ n, a = .num n) ∧ ∃ n, b = .num n)) (F : ℤ → ℤ → ℤ)
    (hF : ∀ x ∈ objVals a, ∀ y ∈ objVals b, op.eval x y = .ok (F x y)) (hs : objSum a * objSum b ≤ RV.sumLimit) (w : World) :
    ∃ r, binop op a b w = (.ok (.rv r), w) ∧ r.Proper ∧ r.probs.sum ≤ objSum a * objSum b ∧
      (∀ v ∈ r.vals, ∃ x ∈ objVals a, ∃ y ∈ objVals b, v = F x y) ∧
      ∀ g, Ex r.pairs g = objLaw a fun x => objLaw b fun y => g (F x y) := by
  rcases ha with ⟨n, rfl⟩ | ⟨X, rfl, hX⟩ <;> rcases hb with ⟨m, rfl⟩ | ⟨Y, rfl, hY⟩
  · exact absurd ⟨⟨_, rfl⟩, ⟨_, rfl⟩⟩ hne
  · have hF' : ∀ y ∈ Y.vals, op.eval n y = .ok (F n y) := fun y hy => hF n (List.mem_singleton_self _) y hy
    have key : ∃ f : Settings → Except Err (RV ℤ), binop op (.num n) (.rv Y) = (Obj.rv <$> M.ofSettings f) ∧
        ∀ st, ∃ g, f st = RV.mapVals st Y g ∧ ∀ y, g y = op.eval n y := by
      by_cases hc : op.isCmp = true
      · refine ⟨fun st => RV.binopNum st op.swap Y n, ?_, fun st => ⟨_, rfl, fun y => eval_swap op hc n y⟩⟩
        unfold binop numBinop
        simp only
        rw [if_pos hc]
      · refine ⟨fun st => RV.rbinopNum st op n Y, ?_, fun st => ⟨_, rfl, fun y => rfl⟩⟩
        unfold binop numBinop
        simp only
        rw [if_neg hc]
    obtain ⟨f, hf, hg⟩ := key
    obtain ⟨g, hg1, hg2⟩ := hg w.settings
    obtain ⟨r, h1, h2, h3, h4, h5⟩ := mapVals_full w.settings hY g (F n) fun y hy => by rw [hg2, hF' y hy]
    refine ⟨r, by rw [hf]; exact run_settings f w r (hg1.trans h1), h2, by simpa [objSum] using h3, fun v hv => ?_, h5⟩
    obtain ⟨y, hy, rfl⟩ := h4 v hv
    exact ⟨n, List.mem_singleton_self _, y, hy, rfl⟩
  · have hF' : ∀ x ∈ X.vals, op.eval x m = .ok (F x m) := fun x hx => hF x hx m (List.mem_singleton_self _)
    obtain ⟨r, h1, h2, h3, h4, h5⟩ := mapVals_full w.settings hX (fun v => op.eval v m) (fun x => F x m) hF'
    refine ⟨r, run_settings _ w r h1, h2, by simpa [objSum] using h3, fun v hv => ?_, h5⟩
    obtain ⟨x, hx, rfl⟩ := h4 v hv
    exact ⟨x, hx, m, List.mem_singleton_self _, rfl⟩
  · obtain ⟨r, h1, h2, h3, h4, h5⟩ := binop_full w.settings op hX hY F hF hs
    exact ⟨r, run_limited _ w r h1, h2, h3, h4, h5⟩

/-! ## The theorem -/

/-- The result `o` is right for the expression `e`. -/
structure Right (e : DExpr) (o : Obj) : Prop where
  kind : (e.dice = [] ∧ ∃ n, o = .num n) ∨ (e.dice ≠ [] ∧ ∃ r : RV ℤ, o = .rv r ∧ r.Proper)
  sum_le : objSum o ≤ (e.dice.map fun X => X.probs.sum).prod
  vals : ∀ v ∈ objVals o, ∃ xs, Outcomes e.dice xs ∧ Yields e xs v
  law : ∀ F : List ℤ → ℤ, (∀ xs, Outcomes e.dice xs → Yields e xs (F xs)) → ∀ g, objLaw o g = ExDice e.dice fun xs => g (F xs)

theorem prod_pos (ds : List (RV ℤ)) (h : ∀ X ∈ ds, X.Proper) : 1 ≤ (ds.map fun X => X.probs.sum).prod := by
  induction ds with
  | nil => simp
  | cons X ds ih =>
    have h1 := (h X (List.mem_cons_self ..)).sum_pos
    have h2 := ih fun Y hY => h Y (List.mem_cons_of_mem _ hY)
    simpa using Nat.mul_le_mul h1 h2

theorem unary_right {e e' : DExpr} {o : Obj} (hd : e'.dice = e.dice) (hr : Right e o) (G : ℤ → ℤ)
    (hy : ∀ xs x, Yields e xs x → Yields e' xs (G x)) (hy' : ∀ xs z, Yields e' xs z → ∃ x, Yields e xs x)
    (m : Obj → M Obj) (hn : ∀ n w, m (.num n) w = (.ok (.num (G n)), w))
    (hrv : ∀ r : RV ℤ, r.Proper → ∀ w, ∃ q : RV ℤ, m (.rv r) w = (.ok (.rv q), w) ∧ q.Proper ∧ q.probs.sum ≤ r.probs.sum ∧
      (∀ v ∈ q.vals, ∃ x ∈ r.vals, v = G x) ∧ ∀ f, Ex q.pairs f = Ex r.pairs fun x => f (G x)) (w : World) :
    ∃ o', m o w = (.ok o', w) ∧ Right e' o' := by
  obtain ⟨hk, hs, hv, hl⟩ := hr
  have hlaw : ∀ F : List ℤ → ℤ, (∀ xs, Outcomes e'.dice xs → Yields e' xs (F xs)) → ∀ g : ℤ → ℚ,
      (objLaw o fun x => g (G x)) = ExDice e'.dice fun xs => g (F xs) := by
    intro F hF g
    classical
    have hex : ∀ xs, Outcomes e.dice xs → ∃ x, Yields e xs x := fun xs hxs => hy' xs _ (hF xs (hd ▸ hxs))
    let F0 : List ℤ → ℤ := fun xs => if h : ∃ x, Yields e xs x then h.choose else 0
    have hF0 : ∀ xs, Outcomes e.dice xs → Yields e xs (F0 xs) := by
      intro xs hxs
      simp only [F0, dif_pos (hex xs hxs)]
      exact (hex xs hxs).choose_spec
    rw [hl F0 hF0, hd]
    refine ExDice_congr _ _ _ fun xs hxs => ?_
    rw [(hF xs (hd ▸ hxs)).unique (hy xs _ (hF0 xs hxs))]
  rcases hk with ⟨h1, n, rfl⟩ | ⟨h1, r, rfl, hp⟩
  · refine ⟨_, hn n w, ⟨.inl ⟨by rw [hd, h1], _, rfl⟩, by rw [hd]; exact hs, ?_, hlaw⟩⟩
    intro v hv'
    rw [objVals, List.mem_singleton] at hv'
    obtain ⟨xs, hxs, hyx⟩ := hv n (List.mem_singleton_self _)
    exact ⟨xs, hd ▸ hxs, hv' ▸ hy xs n hyx⟩
  · obtain ⟨q, q1, q2, q3, q4, q5⟩ := hrv r hp w
    refine ⟨_, q1, ⟨.inr ⟨by rw [hd]; exact h1, q, rfl, q2⟩, by rw [hd]; exact q3.trans hs, ?_, ?_⟩⟩
    · intro v hv'
      obtain ⟨x, hx, rfl⟩ := q4 v hv'
      obtain ⟨xs, hxs, hyx⟩ := hv x hx
      exact ⟨xs, hd ▸ hxs, hy xs x hyx⟩
    · intro F hF g
      rw [← hlaw F hF g]
      exact q5 g

theorem eval_right (e : DExpr) (hp : ∀ X ∈ e.dice, X.Proper) (hdef : ∀ xs, Outcomes e.dice xs → ∃ z, Yields e xs z)
    (hs : (e.dice.map fun X => X.probs.sum).prod ≤ RV.sumLimit) (w : World) : ∃ o, e.eval w = (.ok o, w) ∧ Right e o := by
  induction e with
  | num n =>
    refine ⟨.num n, rfl, ⟨.inl ⟨rfl, n, rfl⟩, le_rfl, fun v hv => ?_, fun F hF g => ?_⟩⟩
    · rw [objVals, List.mem_singleton] at hv
      exact ⟨[], .nil, hv ▸ .num n⟩
    · show g n = g (F [])
      rw [(hF [] .nil).unique (.num n)]
  | die X =>
    have hX := hp X (by simp [DExpr.dice])
    refine ⟨.rv X, rfl, ⟨.inr ⟨by simp [DExpr.dice], X, rfl, hX⟩, by simp [DExpr.dice, objSum], fun v hv => ?_, fun F hF g => ?_⟩⟩
    · exact ⟨[v], .cons hv .nil, .die X v⟩
    · refine Ex_congr_vals fun x hx => ?_
      have := hF [x] (.cons hx .nil)
      show g x = g (F [x])
      rw [this.unique (.die X x)]
  | neg a ih =>
    obtain ⟨o, ho, hr⟩ := ih hp (fun xs hxs => by
      obtain ⟨z, hz⟩ := hdef xs hxs
      cases hz with
      | neg _ _ x hx => exact ⟨x, hx⟩) hs
    obtain ⟨o', ho', hr'⟩ := unary_right (e := a) (e' := .neg a) rfl hr (fun x => -x) (fun xs x h => .neg a xs x h)
      (fun xs z h => by cases h with | neg _ _ x hx => exact ⟨x, hx⟩) negOp (fun n w => rfl)
      (fun r hr w => by
        obtain ⟨q, h1, h2, h3, h4, h5⟩ := mapVals_full w.settings hr (fun x => BinOp.sub.eval 0 x) (fun x => -x)
          fun x _ => by change Except.ok (0 - x) = _; rw [zero_sub]
        exact ⟨q, run_settings _ w q h1, h2, h3, h4, h5⟩) w
    exact ⟨o', (M.bind_ok ho).trans ho', hr'⟩
  | abs a ih =>
    obtain ⟨o, ho, hr⟩ := ih hp (fun xs hxs => by
      obtain ⟨z, hz⟩ := hdef xs hxs
      cases hz with
      | abs _ _ x hx => exact ⟨x, hx⟩) hs
    obtain ⟨o', ho', hr'⟩ := unary_right (e := a) (e' := .abs a) rfl hr (fun x => |x|) (fun xs x h => .abs a xs x h)
      (fun xs z h => by cases h with | abs _ _ x hx => exact ⟨x, hx⟩) absOp (fun n w => rfl)
      (fun r hr w => by
        obtain ⟨q, h1, h2, h3, h4, h5⟩ := mapVals_full w.settings hr (fun x => .ok |x|) (fun x => |x|) fun x _ => rfl
        exact ⟨q, run_settings _ w q h1, h2, h3, h4, h5⟩) w
    exact ⟨o', (M.bind_ok ho).trans ho', hr'⟩
  | op o a b iha ihb =>
    have hpa : ∀ X ∈ a.dice, X.Proper := fun X hX => hp X (List.mem_append_left _ hX)
    have hpb : ∀ X ∈ b.dice, X.Proper := fun X hX => hp X (List.mem_append_right _ hX)
    have hla : ∀ xs, Outcomes a.dice xs → xs.length = a.dice.length := fun xs h => h.length_eq.symm
    have hdef2 : ∀ xs, Outcomes a.dice xs → ∀ ys, Outcomes b.dice ys → ∃ z, Yields (.op o a b) (xs ++ ys) z :=
      fun xs hxs ys hys => hdef _ (hxs.append hys)
    obtain ⟨xs0, hxs0⟩ := outcomes_exist _ hpa
    obtain ⟨ys0, hys0⟩ := outcomes_exist _ hpb
    have hda : ∀ xs, Outcomes a.dice xs → ∃ z, Yields a xs z := fun xs hxs => by
      obtain ⟨z, hz⟩ := hdef2 xs hxs ys0 hys0
      obtain ⟨x, y, hx, _⟩ := hz.op_inv (hla xs hxs)
      exact ⟨x, hx⟩
    have hdb : ∀ ys, Outcomes b.dice ys → ∃ z, Yields b ys z := fun ys hys => by
      obtain ⟨z, hz⟩ := hdef2 xs0 hxs0 ys hys
      obtain ⟨x, y, _, hy, _⟩ := hz.op_inv (hla xs0 hxs0)
      exact ⟨y, hy⟩
    have hprod : ((DExpr.op o a b).dice.map fun X => X.probs.sum).prod =
        (a.dice.map fun X => X.probs.sum).prod * (b.dice.map fun X => X.probs.sum).prod := by
      simp [DExpr.dice]
    have hA := prod_pos _ hpa
    have hB := prod_pos _ hpb
    rw [hprod] at hs
    obtain ⟨oa, hoa, ra⟩ := iha hpa hda ((Nat.le_mul_of_pos_right _ hB).trans hs)
    obtain ⟨ob, hob, rb⟩ := ihb hpb hdb ((Nat.le_mul_of_pos_left _ hA).trans hs)
    have hrun : (DExpr.op o a b).eval w = binop o oa ob w := (M.bind_ok hoa).trans (M.bind_ok hob)
    rw [hrun]
    by_cases hnn : a.dice = [] ∧ b.dice = []
    · -- two numbers
      obtain ⟨da, db⟩ := hnn
      obtain ⟨n, rfl⟩ : ∃ n, oa = .num n := by
        rcases ra.kind with ⟨_, h⟩ | ⟨h, _⟩
        · exact h
        · exact absurd da h
      obtain ⟨m, rfl⟩ : ∃ n, ob = .num n := by
        rcases rb.kind with ⟨_, h⟩ | ⟨h, _⟩
        · exact h
        · exact absurd db h
      have hd : (DExpr.op o a b).dice = [] := by simp [DExpr.dice, da, db]
      have hyn : Yields a [] n := by
        obtain ⟨xs, hxs, h⟩ := ra.vals n (List.mem_singleton_self _)
        rw [da] at hxs
        cases hxs
        exact h
      have hym : Yields b [] m := by
        obtain ⟨xs, hxs, h⟩ := rb.vals m (List.mem_singleton_self _)
        rw [db] at hxs
        cases hxs
        exact h
      obtain ⟨z, hz⟩ := hdef [] (by rw [hd]; exact .nil)
      have hval : intBinop o n m = .ok z := by
        obtain ⟨x, y, hx, hy, hz'⟩ := Yields.op_inv (xs := []) (ys := []) hz (by simp [da])
        cases hx.unique hyn
        cases hy.unique hym
        rcases hz' with ⟨h1, h2⟩ | ⟨_, _, rfl, rfl⟩ | ⟨_, _, rfl, rfl⟩
        · have h1 : o ≠ .or_ ∧ o ≠ .and_ := by simpa [da, db] using h1
          rw [← eval_iff] at h2
          rw [← h2]
          cases o <;> first | rfl | exact absurd rfl h1.1 | exact absurd rfl h1.2
        · rfl
        · rfl
      refine ⟨.num z, ?_, ⟨.inl ⟨hd, z, rfl⟩, by rw [hd]; simp [objSum], fun v hv => ?_, fun F hF g => ?_⟩⟩
      · show (Obj.num <$> M.ofSettings fun _ => intBinop o n m) w = _
        rw [M.map_apply]
        unfold M.ofSettings
        rw [hval]
      · rw [objVals, List.mem_singleton] at hv
        exact ⟨[], by rw [hd]; exact .nil, hv ▸ hz⟩
      · rw [hd]
        have := (hF [] (by rw [hd]; exact .nil)).unique hz
        show g z = g (F [])
        rw [this]
    · have hor : a.dice ≠ [] ∨ b.dice ≠ [] := by
        by_cases h : a.dice = []
        · exact .inr fun h' => hnn ⟨h, h'⟩
        · exact .inl h
      have hop : ∀ xs, Outcomes a.dice xs → ∀ ys, Outcomes b.dice ys → ∀ x y, Yields a xs x → Yields b ys y →
          o.eval x y = .ok (RV.valueOf o.eval x y) ∧ Yields (.op o a b) (xs ++ ys) (RV.valueOf o.eval x y) := by
        intro xs hxs ys hys x y hx hy
        obtain ⟨z, hz⟩ := hdef2 xs hxs ys hys
        obtain ⟨x', y', hx', hy', hz'⟩ := hz.op_inv (hla xs hxs)
        cases hx.unique hx'
        cases hy.unique hy'
        rcases hz' with ⟨h1, h2⟩ | ⟨h1, h2, _⟩ | ⟨h1, h2, _⟩
        · have he := RV.valueOf_ok ⟨z, (eval_iff _ _ _ _).2 h2⟩
          exact ⟨he, .op o a b xs ys x y _ hx hy h1 ((eval_iff _ _ _ _).1 he)⟩
        · exact absurd ⟨h1, h2⟩ hnn
        · exact absurd ⟨h1, h2⟩ hnn
      have ka : (∃ n, oa = .num n) ∨ ∃ r : RV ℤ, oa = .rv r ∧ r.Proper := ra.kind.imp And.right And.right
      have kb : (∃ n, ob = .num n) ∨ ∃ r : RV ℤ, ob = .rv r ∧ r.Proper := rb.kind.imp And.right And.right
      have hne : ¬ ((∃ n, oa = .num n) ∧ ∃ n, ob = .num n) := by
        rintro ⟨⟨n, rfl⟩, ⟨m, rfl⟩⟩
        apply hnn
        constructor
        · rcases ra.kind with ⟨h, _⟩ | ⟨_, r, h, _⟩
          · exact h
          · cases h
        · rcases rb.kind with ⟨h, _⟩ | ⟨_, r, h, _⟩
          · exact h
          · cases h
      obtain ⟨r, r1, r2, r3, r4, r5⟩ := obj_op o oa ob ka kb hne (RV.valueOf o.eval)
        (fun x hx y hy => by
          obtain ⟨xs, hxs, hyx⟩ := ra.vals x hx
          obtain ⟨ys, hys, hyy⟩ := rb.vals y hy
          exact (hop xs hxs ys hys x y hyx hyy).1)
        ((Nat.mul_le_mul ra.sum_le rb.sum_le).trans hs) w
      refine ⟨.rv r, r1, ⟨.inr ⟨?_, r, rfl, r2⟩, ?_, fun v hv => ?_, fun F hF g => ?_⟩⟩
      · simp only [DExpr.dice, ne_eq, List.append_eq_nil_iff]
        exact hnn
      · rw [hprod]
        exact r3.trans (Nat.mul_le_mul ra.sum_le rb.sum_le)
      · obtain ⟨x, hx, y, hy, rfl⟩ := r4 v hv
        obtain ⟨xs, hxs, hyx⟩ := ra.vals x hx
        obtain ⟨ys, hys, hyy⟩ := rb.vals y hy
        exact ⟨xs ++ ys, hxs.append hys, (hop xs hxs ys hys x y hyx hyy).2⟩
      · classical
        let Fa : List ℤ → ℤ := fun xs => if h : ∃ x, Yields a xs x then h.choose else 0
        let Fb : List ℤ → ℤ := fun xs => if h : ∃ x, Yields b xs x then h.choose else 0
        have hFa : ∀ xs, Outcomes a.dice xs → Yields a xs (Fa xs) := by
          intro xs hxs
          simp only [Fa, dif_pos (hda xs hxs)]
          exact (hda xs hxs).choose_spec
        have hFb : ∀ xs, Outcomes b.dice xs → Yields b xs (Fb xs) := by
          intro xs hxs
          simp only [Fb, dif_pos (hdb xs hxs)]
          exact (hdb xs hxs).choose_spec
        show Ex r.pairs g = _
        rw [r5 g, ra.law Fa hFa, DExpr.dice, ExDice_append]
        refine ExDice_congr _ _ _ fun xs hxs => ?_
        rw [rb.law Fb hFb]
        refine ExDice_congr _ _ _ fun ys hys => ?_
        rw [(hF (xs ++ ys) (hxs.append hys)).unique (hop xs hxs ys hys _ _ (hFa xs hxs) (hFb ys hys)).2]

/-- C52.  If the expression has a value for all outcomes of its dice, and the product of the total weights
of its dice is within the limit for exact weights, evaluating it succeeds and changes nothing (in
particular, no warning is logged).  Without dice the result is its value; with dice it is a die
distributed as the value on independent outcomes, and its outcomes are values of the expression. -/
theorem C52_expression (e : DExpr) (hp : ∀ X ∈ e.dice, X.Proper) (F : List ℤ → ℤ)
    (hF : ∀ xs, Outcomes e.dice xs → Yields e xs (F xs))
    (hs : (e.dice.map fun X => X.probs.sum).prod ≤ RV.sumLimit) (w : World) :
    (e.dice = [] ∧ e.eval w = (.ok (.num (F [])), w)) ∨
    (e.dice ≠ [] ∧ ∃ r : RV ℤ, e.eval w = (.ok (.rv r), w) ∧ r.Proper ∧
      (∀ v ∈ r.vals, ∃ xs, Outcomes e.dice xs ∧ v = F xs) ∧
      ∀ g : ℤ → ℚ, Ex r.pairs g = ExDice e.dice fun xs => g (F xs)) := by
  obtain ⟨o, ho, hk, _, hv, hl⟩ := eval_right e hp (fun xs hxs => ⟨_, hF xs hxs⟩) hs w
  rcases hk with ⟨h1, n, rfl⟩ | ⟨h1, r, rfl, hr⟩
  · refine .inl ⟨h1, ?_⟩
    obtain ⟨xs, hxs, hy⟩ := hv n (List.mem_singleton_self _)
    rw [h1] at hxs
    cases hxs
    rw [ho, hy.unique (hF [] (by rw [h1]; exact .nil))]
  · refine .inr ⟨h1, r, ho, hr, fun v hv' => ?_, fun g => hl F hF g⟩
    obtain ⟨xs, hxs, hy⟩ := hv v hv'
    exact ⟨xs, hxs, hy.unique (hF xs hxs)⟩

/-- `2 * d2 - (d3 >= 2)`: the hypotheses are met, and the result of the code. -/
example : ∃ e : DExpr, e = .op .sub (.op .mul (.num 2) (.die ⟨[1, 2], [1, 1], none⟩)) (.op .ge (.die ⟨[1, 2, 3], [1, 1, 1], none⟩) (.num 2)) ∧
    e.dice.length = 2 ∧ (e.eval {}).1 = .ok (.rv ⟨[1, 2, 3, 4], [2, 1, 2, 1], none⟩) ∧ Yields e [2, 1] 4 :=
  ⟨_, rfl, rfl, by decide +kernel,
    .op _ _ _ [2] [1] 4 0 4 (.op _ _ _ [] [2] 2 2 4 (.num 2) (.die _ 2) (.inr (.inl (by simp [DExpr.dice]))) (.mul 2 2))
      (.op _ _ _ [1] [] 1 2 0 (.die _ 1) (.num 2) (.inl (by simp [DExpr.dice])) (.geF 1 2 (by norm_num)))
      (.inl (by simp [DExpr.dice])) (.sub 4 0)⟩

end PythonDice
