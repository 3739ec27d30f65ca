import Verif.Props.Objects
import Verif.Props.Output
import Verif.Props.Ctor
import Verif.Props.Derived

/-!
# C54, C55: blank dice and sequences as operands; C43 for numbers and sequences, C45 for the default threshold
-/

namespace PythonDice
open Spec

/-! ## C54: blank dice -/

/-- C54. Rolling any number of blank dice, or of empty sequences, gives a blank die; rolling a blank number of proper dice gives the
special blank die.  Nothing is logged, memoised or otherwise changed. -/
theorem C54_roll (x : Obj) (w : World) :
    (∀ b, roll x (.blank b) w = (.ok (.blank false), w)) ∧
    ((∀ b, x ≠ .blank b) → roll x (.seq []) w = (.ok (.blank false), w)) ∧
    ((∀ b, x ≠ .blank b) → ∀ b, roll (.blank b) x w = (.ok (.blank true), w)) := by
  refine ⟨fun b => ?_, fun h => ?_, fun h b => ?_⟩
  · cases x <;> rfl
  · cases x with
    | blank b => exact absurd rfl (h b)
    | _ => rfl
  · cases x with
    | blank b => exact absurd rfl (h b)
    | _ => rfl

/-- C54. Positions selected in an ordinary blank die give a blank die.  In the special blank die every position is 0 except the first,
which is the special blank die itself; a sequence of positions gives 0 as soon as it contains another position than 1. -/
theorem C54_select (k : ℤ) (ks : List ℤ) (w : World) :
    matmul (.num k) (.blank false) w = (.ok (.blank false), w) ∧
    matmul (.seq ks) (.blank false) w = (.ok (.blank false), w) ∧
    matmul (.num k) (.blank true) w = (.ok (if k = 1 then .blank true else .num 0), w) ∧
    matmul (.seq ks) (.blank true) w = (.ok (if ∀ i ∈ ks, i = 1 then .blank true else .num 0), w) := by
  refine ⟨rfl, rfl, ?_, ?_⟩
  · by_cases h : k = 1
    · subst h; rfl
    · rw [if_neg h]
      change (Except.ok (blankRmatmul true (decide (k ≠ 1))), w) = _
      rw [decide_eq_true h]
      rfl
  · have e : (seqCmpNum .ne ks 1 ≠ 0) ↔ ¬ ∀ i ∈ ks, i = 1 := by
      unfold seqCmpNum
      rw [Ne, Nat.cast_eq_zero, List.length_eq_zero_iff, List.filter_eq_nil_iff]
      simp [BinOp.test]
    change (Except.ok (blankRmatmul true (decide (seqCmpNum .ne ks 1 ≠ 0))), w) = _
    by_cases h : ∀ i ∈ ks, i = 1
    · rw [if_pos h, decide_eq_false (by rw [e]; exact not_not.2 h)]; rfl
    · rw [if_neg h, decide_eq_true (e.2 h)]; rfl

/-- C54. A blank die is no position. -/
theorem C54_position (b : Bool) (o : Obj) (w : World) : matmul (.blank b) o w = (.error .type, w) := by
  cases o <;> rfl

/-- C54. The length of a blank die is 0, of the special one 1; `!` of a blank die is blank, of the special one 1; minus and absolute value
leave both as they are. -/
theorem C54_unary (b : Bool) (w : World) :
    myLen (.blank b) = (if b then 1 else 0) ∧ myInvert (.blank b) w = (.ok (if b then .num 1 else .blank false), w) ∧
    negOp (.blank b) w = (.ok (.blank b), w) ∧ absOp (.blank b) w = (.ok (.blank b), w) := by
  cases b <;> exact ⟨rfl, rfl, rfl, rfl⟩

example : (do let b ← roll (.blank false) (.num 6); matmul (.seq [1, 1]) b) {} = (.ok (.blank true), {}) := by decide +kernel
example : (do let b ← roll (.blank false) (.num 6); matmul (.seq [1, 2]) b) {} = (.ok (.num 0), {}) := by decide +kernel

/-! ## C55: sequences -/

theorem run_num (f : Settings → Except Err ℤ) (w : World) :
    (Obj.num <$> M.ofSettings f) w = ((f w.settings).map Obj.num, w) := by
  rw [M.map_apply]
  rw [show M.ofSettings f w = (f w.settings, w) from rfl]
  cases f w.settings <;> rfl

theorem eval_outcome (op : BinOp) (x y : ℤ) (w : World) {m : World → Except Err Obj × World}
    (hm : m w = ((op.eval x y).map Obj.num, w)) :
    (m w).2 = w ∧ ∀ o, (m w).1 = .ok o ↔ ∃ z, o = .num z ∧ PyOp op x y z := by
  rw [hm]
  refine ⟨rfl, fun o => ?_⟩
  cases h : op.eval x y with
  | error e =>
    refine ⟨fun h' => by simp [Except.map] at h', ?_⟩
    rintro ⟨z, _, hz⟩
    rw [(eval_iff _ _ _ _).2 hz] at h
    cases h
  | ok z =>
    constructor
    · intro h'
      simp only [Except.map, Except.ok.injEq] at h'
      exact ⟨z, h'.symm, (eval_iff _ _ _ _).1 h⟩
    · rintro ⟨z', rfl, hz⟩
      rw [(eval_iff _ _ _ _).2 hz] at h
      cases h
      rfl

/-- C55. Between sequences and numbers, every operator that is no comparison acts on the sums of the sequences: it succeeds with `z`
exactly if `sum op sum` is defined and equals `z`, and changes nothing. -/
theorem C55_arithmetic (op : BinOp) (hop : op ∉ [BinOp.eq, .ne, .lt, .le, .gt, .ge]) (a b : Obj) (x y : ℤ) (ha : Stands a x) (hb : Stands b y)
    (hs : (∃ s, a = .seq s) ∨ ∃ s, b = .seq s) (w : World) :
    (binop op a b w).2 = w ∧ ∀ o, (binop op a b w).1 = .ok o ↔ ∃ z, o = .num z ∧ PyOp op x y z := by
  have hc : op.isCmp = false := by cases op <;> simp_all [BinOp.isCmp]
  apply eval_outcome
  cases ha with
  | num x =>
    cases hb with
    | num y => simp at hs
    | seq t =>
      change numBinop op x (.seq t) w = _
      unfold numBinop
      simp only [hc, Bool.false_eq_true, if_false]
      exact run_num _ _
  | seq s =>
    cases hb with
    | num y =>
      unfold binop
      simp only [hc, Bool.false_eq_true, if_false]
      exact run_num _ _
    | seq t =>
      unfold binop
      simp only [hc, Bool.false_eq_true, if_false]
      exact run_num _ _

/-- C55. With a die or a blank die on the other side a sequence is replaced by its sum, comparisons included. -/
theorem C55_die (op : BinOp) (s : List ℤ) (X : RV ℤ) (b : Bool) (w : World) :
    binop op (.seq s) (.rv X) w = binop op (.num s.sum) (.rv X) w ∧
    binop op (.rv X) (.seq s) w = binop op (.rv X) (.num s.sum) w ∧
    binop op (.seq s) (.blank b) w = binop op (.num s.sum) (.blank b) w := ⟨rfl, rfl, rfl⟩

/-- C55. `!s` is 1 if the sum is 0 and else 0, `#s` the number of elements; minus and absolute value of a sequence raise TypeError. -/
theorem C55_unary (s : List ℤ) (w : World) :
    myInvert (.seq s) w = (.ok (.num (if s.sum = 0 then 1 else 0)), w) ∧ myLen (.seq s) = s.length ∧
    negOp (.seq s) w = (.error .type, w) ∧ absOp (.seq s) w = (.error .type, w) := ⟨rfl, rfl, rfl, rfl⟩

example : (binop .floordiv (.seq [4, 5]) (.num 2) {}).1 = .ok (.num 4) := by decide +kernel
example : PyOp .floordiv 9 2 4 := .floordivPos _ _ _ (by decide) (by decide) (by decide)
example : (binop .mod (.seq [4, 5]) (.seq []) {}).1 = .error .zeroDivision := by decide +kernel
example : (myInvert (.seq [1, -1]) {}).1 = .ok (.num 1) := by decide +kernel

/-! ## C43: numbers and sequences -/

theorem weightOf_const (s : List ℤ) (v : ℤ) : wsum (s.map fun x => (x, 1)) (fun x => if x = v then 1 else 0) = s.count v := by
  unfold wsum
  induction s with
  | nil => rfl
  | cons a s ih =>
    rw [List.map_cons, List.map_cons, List.sum_cons, ih, List.count_cons]
    by_cases h : a = v
    · simp [h]; ring
    · simp [h]

theorem mass_const (s : List ℤ) : mass (s.map fun x => (x, 1)) = s.length := by
  unfold mass wsum
  induction s with
  | nil => rfl
  | cons a s ih => rw [List.map_cons, List.map_cons, List.sum_cons, ih, List.length_cons]; push_cast; ring

/-- C43. A number or a non-empty sequence is drawn as the die whose faces are its elements: one line for each distinct element, in
increasing order, with its relative frequency. -/
theorem C43_elements (fmt : Option ℚ → Option ℚ → List Char) (hf : ∀ m s, '\n' ∉ fmt m s) (o : Obj) (s : List ℤ)
    (ho : o = .num (s.headD 0) ∧ s.length = 1 ∨ o = .seq s) (hne : s ≠ [])
    (named : Option (List Char)) (hn : ∀ n, named = some n → '\n' ∉ n) (W : ℤ) (hW : W < RV.floatOverflow) (w : World) :
    ∃ text header rows lw vs, outputText fmt (some o) named true (some W) 0 w = (.ok text, w) ∧
      splitLines text = ((named.map (· ++ [' '])).getD [] ++ header) :: (rows ++ [List.replicate (W + 8).toNat '-']) ∧
      vs.Pairwise (· < ·) ∧ (∀ v, v ∈ vs ↔ v ∈ s) ∧
      List.Forall₂ (fun v row => RowShows lw (W - lw).toNat v ((s.count v : ℚ) / s.length) row) vs rows := by
  obtain ⟨d, hd, hp, _, _, _, hpos, hE⟩ := fromSeq_spec w.settings s hne
  have hg : getRv o w = (.ok d, w) := by
    rcases ho with ⟨rfl, hl⟩ | rfl
    · rw [show getRv (.num (s.headD 0)) w = (RV.fromConst w.settings (s.headD 0), w) from rfl, ← hd]
      cases s with
      | nil => exact absurd rfl hne
      | cons a t =>
        have : t = [] := by simpa using hl
        subst this
        rfl
    · rw [show getRv (.seq s) w = (RV.fromSeq w.settings s, w) from rfl, hd]
  have hb : outputsBlank (some o) = false := by
    rcases ho with ⟨rfl, hl⟩ | rfl
    · rfl
    · change decide (s.length = 0) = false
      simpa using hne
  have hPr : ∀ v, Pr d.pairs (· = v) = (s.count v : ℚ) / s.length := by
    intro v
    unfold Pr
    rw [hE, Ex, weightOf_const, mass_const]
  obtain ⟨l, h1, h2, _⟩ := C27_pdf d hp
  have hl : l ≠ [] := by
    rintro rfl
    exact hp.nonempty h2.symm
  obtain ⟨text, header, rows, lw, a, b, c, e⟩ := C43_lines_partial fmt hf o hb named hn W hW 0 w w d hg hp l (by simpa using h1) hl
  refine ⟨text, header, rows, lw, d.vals, a, b, h2 ▸ e, ?_, ?_⟩
  · intro v
    have h0 : (s.count v : ℚ) / s.length ≠ 0 ↔ v ∈ s := by
      have : (s.length : ℚ) ≠ 0 := by simpa using hne
      rw [Ne, div_eq_zero_iff, not_or, and_iff_left this, Nat.cast_eq_zero, List.count_eq_zero, not_not]
    rw [← h0, ← hPr, Pr, Ex, ← RV.weightOf_eq_wsum, Ne, div_eq_zero_iff, not_or, and_iff_left hp.pos, Nat.cast_eq_zero]
    constructor
    · intro hv
      obtain ⟨i, hi, rfl⟩ := List.mem_iff_getElem.1 hv
      have hi' : i < d.probs.length := hp.len ▸ hi
      have hm : (d.vals[i], d.probs[i]) ∈ d.pairs := by
        unfold RV.pairs
        rw [List.mem_iff_getElem]
        exact ⟨i, by simp [hi, hi'], by simp⟩
      rw [RV.weightOf_of_mem (x := (d.vals[i], d.probs[i])) (by rw [RV.pairs_map_fst d hp.len]; exact hp.sorted.imp fun h => ne_of_lt h) hm]
      exact hpos _ (List.getElem_mem hi')
    · intro hv
      by_contra hv'
      refine hv (weightOf_notMem fun h => hv' ?_)
      obtain ⟨x, hx, rfl⟩ := List.mem_map.1 h
      exact RV.mem_vals_of_pairs hx
  · rw [← h2, List.forall₂_map_left_iff]
    simpa only [hPr] using c

/-! ## C45: the default threshold -/

/-- C45. `gwf(n, X)` rolls again what is at most 2. -/
theorem C45_default {w w' : World} (hw : Reachable w) (n : ℤ) (X : RV ℤ) (hX : X.Proper) {o : Obj}
    (h : (gwf (.num n) (.rv X)) w = (.ok o, w')) (h0 : w'.warns = 0) :
    ∃ q, o = .rv q ∧ mass q.pairs ≠ 0 ∧
      ∀ f, Ex q.pairs f = indep (rerollLaw X.pairs 2) n.natAbs fun xs => f (n.sign * xs.sum) :=
  C45_gwf hw n 2 X hX h h0

end PythonDice
