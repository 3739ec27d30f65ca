import Verif.Props.Library
import Mathlib.Data.Nat.Digits.Lemmas

/-!
# C06, C22, C23, C24, C31, C47, C51: operators between numbers, sequences, dice and blanks
-/

namespace PythonDice
open Spec

/-! ## C06: a die and a number or sequence -/

/-- A number, or a sequence standing for the sum of its elements. -/
inductive Stands : Obj → ℤ → Prop
  | num (n) : Stands (.num n) n
  | seq (s) : Stands (.seq s) s.sum

theorem run_rv (f : Settings → Except Err (RV ℤ)) (w : World) :
    (Obj.rv <$> M.ofSettings f) w = ((f w.settings).map Obj.rv, w) := by
  rw [M.map_apply]
  rw [show M.ofSettings f w = (f w.settings, w) from rfl]
  cases f w.settings <;> rfl

/-- From the outcome of a `Settings`-function to the outcome of the operator. -/
theorem law_of_run {m : M Obj} {f : Settings → Except Err (RV ℤ)} (hm : ∀ w, m w = ((f w.settings).map Obj.rv, w)) (X : RV ℤ)
    (P : ℤ → ℤ → Prop)
    (h : ∀ st, ((∃ r, f st = .ok r) ↔ ∀ x ∈ X.vals, ∃ z, P x z) ∧
      ∀ r, f st = .ok r → mass X.pairs ≠ 0 → ∀ F : ℤ → ℤ, (∀ x ∈ X.vals, P x (F x)) → ∀ g : ℤ → ℚ,
        Ex r.pairs g = Ex X.pairs fun x => g (F x)) (w : World) :
    (m w).2 = w ∧ ((∃ o, (m w).1 = .ok o) ↔ ∀ x ∈ X.vals, ∃ z, P x z) ∧
    ∀ o, (m w).1 = .ok o → mass X.pairs ≠ 0 → ∃ r, o = .rv r ∧
      ∀ F : ℤ → ℤ, (∀ x ∈ X.vals, P x (F x)) → ∀ g : ℤ → ℚ, Ex r.pairs g = Ex X.pairs fun x => g (F x) := by
  obtain ⟨h1, h2⟩ := h w.settings
  rw [hm w, ← h1]
  refine ⟨rfl, ?_, ?_⟩
  · cases f w.settings <;> simp [Except.map]
  · intro o ho hX
    cases hf : f w.settings with
    | error e => rw [hf] at ho; cases ho
    | ok r =>
      rw [hf] at ho
      cases ho
      exact ⟨r, rfl, h2 r hf hX⟩

/-- C06. `X op c` for a number or sequence `c`: the state (hence the warning count) is unchanged, it raises exactly when the operation is
undefined for some outcome, and the result is distributed as `x op c`. -/
theorem C06_die_op_object (op : BinOp) (X : RV ℤ) (hl : X.vals.length = X.probs.length) (c : Obj) (n : ℤ) (hc : Stands c n) (w : World) :
    (binop op (.rv X) c w).2 = w ∧ ((∃ o, (binop op (.rv X) c w).1 = .ok o) ↔ ∀ x ∈ X.vals, ∃ z, PyOp op x n z) ∧
    ∀ o, (binop op (.rv X) c w).1 = .ok o → mass X.pairs ≠ 0 → ∃ r, o = .rv r ∧
      ∀ F : ℤ → ℤ, (∀ x ∈ X.vals, PyOp op x n (F x)) → ∀ g : ℤ → ℚ, Ex r.pairs g = Ex X.pairs fun x => g (F x) := by
  refine law_of_run (f := fun st => RV.binopNum st op X n) ?_ X (fun x z => PyOp op x n z)
    (fun st => C06_binop_number st op X n hl) w
  intro w
  cases hc <;> exact run_rv _ w

theorem eval_swap (op : BinOp) (h : op.isCmp = true) (x y : ℤ) : op.swap.eval y x = op.eval x y := by
  cases op <;> simp_all [BinOp.isCmp, BinOp.swap, BinOp.eval, eq_comm]

/-- C06. `c op X` for a number or sequence `c`. -/
theorem C06_object_op_die (op : BinOp) (X : RV ℤ) (hl : X.vals.length = X.probs.length) (c : Obj) (n : ℤ) (hc : Stands c n) (w : World) :
    (binop op c (.rv X) w).2 = w ∧ ((∃ o, (binop op c (.rv X) w).1 = .ok o) ↔ ∀ x ∈ X.vals, ∃ z, PyOp op n x z) ∧
    ∀ o, (binop op c (.rv X) w).1 = .ok o → mass X.pairs ≠ 0 → ∃ r, o = .rv r ∧
      ∀ F : ℤ → ℤ, (∀ x ∈ X.vals, PyOp op n x (F x)) → ∀ g : ℤ → ℚ, Ex r.pairs g = Ex X.pairs fun x => g (F x) := by
  refine law_of_run (f := fun st => RV.rbinopNum st op n X) ?_ X (fun x z => PyOp op n x z)
    (fun st => C06_number_binop st op X n hl) w
  have e : ∀ w, numBinop op n (.rv X) w = ((RV.rbinopNum w.settings op n X).map Obj.rv, w) := by
    intro w
    unfold numBinop
    simp only
    split
    · rename_i h
      rw [run_rv]
      have : RV.binopNum w.settings op.swap X n = RV.rbinopNum w.settings op n X := by
        unfold RV.binopNum RV.rbinopNum
        congr 1
        funext v
        exact eval_swap op h n v
      rw [this]
    · rw [run_rv]
  intro w
  cases hc <;> exact e w

example : (binop .sub (.seq [2, 3]) (.rv ⟨[1, 2], [1, 1], none⟩) {}).1 = .ok (.rv ⟨[3, 4], [1, 1], none⟩) := by decide +kernel
example : (binop .lt (.seq [1, 1]) (.rv ⟨[2, 3], [1, 2], none⟩) {}).1 = .ok (.rv ⟨[0, 1], [1, 2], none⟩) := by decide +kernel

/-! ## C22: indexing -/

/-- The `i`-th element counting from 1; 0 outside. -/
def elemAt (s : List ℤ) (i : ℤ) : ℤ := if 1 ≤ i then s.getD (i - 1).toNat 0 else 0

theorem getItem_eq (s : List ℤ) (i : ℤ) : getItem s i = elemAt s i := by
  unfold getItem elemAt
  by_cases h1 : 1 ≤ i
  · by_cases h2 : i - 1 < s.length
    · rw [if_pos ⟨by omega, h2⟩, if_pos h1]
    · rw [if_neg (by omega), if_pos h1, List.getD_eq_default _ _ (by omega)]
  · rw [if_neg (by omega), if_neg h1]

/-- C22. `i @ s`. -/
theorem C22_index (i : ℤ) (s : List ℤ) (w : World) : matmul (.num i) (.seq s) w = (.ok (.num (elemAt s i)), w) := by
  rw [← getItem_eq]; rfl

/-- C22. `{i, j, …} @ s`. -/
theorem C22_select (is s : List ℤ) (w : World) :
    matmul (.seq is) (.seq s) w = (.ok (.num ((is.map (elemAt s)).sum)), w) := by
  have : (is.map (elemAt s)) = is.map fun i => getItem s i := List.map_congr_left fun i _ => (getItem_eq s i).symm
  rw [this]; rfl

/-- `ds` is the decimal notation of `n`: digits, without superfluous zeros, of value `n`. -/
structure IsDecimal (n : ℕ) (ds : List ℤ) : Prop where
  digits : ∀ d ∈ ds, 0 ≤ d ∧ d ≤ 9
  nonempty : ds ≠ []
  leading : ds.head? = some 0 → ds = [0]
  value : ds.foldl (fun a d => 10 * a + d) (0 : ℤ) = (n : ℤ)

theorem foldl_digits (l : List ℕ) : ((l.reverse.map fun d : ℕ => (d : ℤ)).foldl (fun a d => 10 * a + d) (0 : ℤ)) = (↑(Nat.ofDigits (10 : ℕ) l) : ℤ) := by
  induction l with
  | nil => rfl
  | cons d l ih =>
    rw [List.reverse_cons, List.map_append, List.foldl_append, ih, Nat.ofDigits_cons]
    simp only [List.map_cons, List.map_nil, List.foldl_cons, List.foldl_nil]
    push_cast
    ring

theorem decDigits_isDecimal (n : ℕ) : IsDecimal n ((decDigits n).map fun d : ℕ => (d : ℤ)) := by
  unfold decDigits
  split
  · subst n
    exact ⟨by simp, by simp, by simp, by simp⟩
  · rename_i hn
    have hne : Nat.digits 10 n ≠ [] := Nat.digits_ne_nil_iff_ne_zero.2 hn
    refine ⟨?_, by simpa using hne, ?_, ?_⟩
    · intro d hd
      obtain ⟨m, hm, rfl⟩ := List.mem_map.1 hd
      have := Nat.digits_lt_base (b := 10) (by norm_num) (List.mem_reverse.1 hm)
      omega
    · intro h
      exfalso
      rw [List.head?_map, List.head?_reverse] at h
      have hl := Nat.getLast_digit_ne_zero 10 hn
      rw [List.getLast?_eq_some_getLast hne] at h
      simp at h
      exact hl h
    · rw [foldl_digits, Nat.ofDigits_digits]

theorem mapM_intOfChar (l : List ℕ) : (l.map some).mapM intOfChar = Except.ok (l.map fun d : ℕ => (d : ℤ)) := by
  induction l with
  | nil => rfl
  | cons d l ih => rw [List.map_cons, List.mapM_cons, ih]; rfl

/-- C22 (partial): `{i, j, …} @ n` selects decimal digits, for `n ≥ 0`.  Missing: negative numbers, for which it raises (see the
counterexample). -/
theorem C22_digits_partial (is : List ℤ) (n : ℕ) (w : World) :
    ∃ ds, IsDecimal n ds ∧ matmul (.seq is) (.num n) w = (.ok (.num ((is.map (elemAt ds)).sum)), w) := by
  refine ⟨_, decDigits_isDecimal n, ?_⟩
  have h : digitsSeq (n : ℤ) = .ok ((decDigits n).map fun d : ℕ => (d : ℤ)) := by
    rw [digitsSeq, strInt, if_neg (by omega), Int.natAbs_natCast, mapM_intOfChar]
  have e : matmul (.seq is) (.num n) = (M.ofSettings (fun _ => digitsSeq n) >>= fun ds => pure (.num (sumAt ds is))) := rfl
  rw [e, h]
  change (Except.ok (Obj.num (sumAt _ is)), w) = _
  rw [sumAt, List.map_congr_left fun i _ => getItem_eq _ i]

/-- C22 fails for negative numbers: `{} @ -1`, and any other selection, raises `ValueError`. -/
theorem C22_negative_counterexample (is : List ℤ) (n : ℤ) (hn : n < 0) (w : World) :
    matmul (.seq is) (.num n) w = (.error .value, w) := by
  have h : digitsSeq n = .error .value := by
    rw [digitsSeq, strInt, if_pos hn, List.mapM_cons]; rfl
  have e : matmul (.seq is) (.num n) = (M.ofSettings (fun _ => digitsSeq n) >>= fun ds => pure (.num (sumAt ds is))) := rfl
  rw [e, h]; rfl

/-- The decimal notation is unique, so `IsDecimal` determines the digits. -/
theorem IsDecimal.unique {n : ℕ} {a b : List ℤ} (ha : IsDecimal n a) (hb : IsDecimal n b) : a = b := by
  suffices h : ∀ a, IsDecimal n a → a = (decDigits n).map fun d : ℕ => (d : ℤ) by rw [h a ha, h b hb]
  clear ha hb a b
  intro a ha
  obtain ⟨l, rfl⟩ : ∃ l : List ℕ, a = l.reverse.map fun d : ℕ => (d : ℤ) := by
    refine ⟨(a.map Int.toNat).reverse, ?_⟩
    rw [List.reverse_reverse, List.map_map]
    conv_lhs => rw [← List.map_id a]
    exact List.map_congr_left fun d hd => by have := ha.digits d hd; simp; omega
  have hv := ha.value
  rw [foldl_digits] at hv
  have hv : Nat.ofDigits 10 l = n := by exact_mod_cast hv
  unfold decDigits
  by_cases h0 : l.reverse.head? = some 0
  · have := ha.leading (by rw [List.head?_map, h0]; rfl)
    have hl : l = [0] := by
      have h1 : l.reverse = [0] := by
        cases hr : l.reverse with
        | nil => rw [hr] at this; simp at this
        | cons x t => rw [hr] at this; simpa using this
      simpa using congrArg List.reverse h1
    subst hl
    simp at hv
    subst hv
    simp
  · have hne : l ≠ [] := by rintro rfl; exact ha.nonempty rfl
    have hd : Nat.digits 10 (Nat.ofDigits 10 l) = l := by
      refine Nat.digits_ofDigits 10 (by norm_num) l ?_ ?_
      · intro d hd
        have := ha.digits d (List.mem_map.2 ⟨d, List.mem_reverse.2 hd, rfl⟩)
        omega
      · intro hne h
        apply h0
        rw [List.head?_reverse, List.getLast?_eq_some_getLast hne, h]
    rw [hv] at hd
    rw [if_neg, hd]
    rintro rfl
    simp at hd
    exact hne (by first | exact hd | exact hd.symm)

example : ((matmul (.seq [1, 3, 9, 1]) (.num 507)) {}).1 = .ok (.num 17) := by decide +kernel
example : ((matmul (.num 2) (.seq [5, 6])) {}).1 = .ok (.num 6) := by decide +kernel

/-! ## C23: comparisons of sequences -/

/-- What a comparison operator says about two values of an ordered type. -/
def Cmp {α : Type} [LinearOrder α] : BinOp → α → α → Prop
  | .eq, x, y => x = y
  | .ne, x, y => x ≠ y
  | .lt, x, y => x < y
  | .le, x, y => x ≤ y
  | .gt, x, y => x > y
  | .ge, x, y => x ≥ y
  | _, _, _ => False

instance {α : Type} [LinearOrder α] (op : BinOp) (x y : α) : Decidable (Cmp op x y) := by
  cases op <;> unfold Cmp <;> infer_instance

theorem test_iff (op : BinOp) (x y : ℤ) : op.test x y = true ↔ Cmp op x y := by cases op <;> simp [BinOp.test, Cmp]

theorem seqCmpNum_countP (op : BinOp) (s : List ℤ) (n : ℤ) : seqCmpNum op s n = ((s.countP fun x => decide (Cmp op x n) : ℕ) : ℤ) := by
  rw [seqCmpNum, List.countP_eq_length_filter]
  congr 3
  funext x
  rw [Bool.eq_iff_iff, test_iff, decide_eq_true_iff]

/-- C23. `s cmp n` counts the elements that satisfy the comparison. -/
theorem C23_seq_number (op : BinOp) (h : op.isCmp = true) (s : List ℤ) (n : ℤ) (w : World) :
    binop op (.seq s) (.num n) w = (.ok (.num (s.countP fun x => decide (Cmp op x n) : ℕ)), w) := by
  rw [← seqCmpNum_countP]
  unfold binop
  simp only
  rw [if_pos h]; rfl

/-- C23. `n cmp s` counts them as well. -/
theorem C23_number_seq (op : BinOp) (h : op.isCmp = true) (s : List ℤ) (n : ℤ) (w : World) :
    binop op (.num n) (.seq s) w = (.ok (.num (s.countP fun x => decide (Cmp op n x) : ℕ)), w) := by
  have : ∀ x : ℤ, Cmp op n x ↔ Cmp op.swap x n := by
    intro x; cases op <;> simp_all [Cmp, BinOp.swap, BinOp.isCmp, eq_comm]
  simp only [this]
  rw [← seqCmpNum_countP]
  unfold binop numBinop
  simp only
  rw [if_pos h]; rfl

/-- A missing value counts as minus infinity. -/
def orBot : Option ℤ → WithBot ℤ
  | some x => x
  | none => ⊥

theorem orBot_inj {a b : Option ℤ} (h : orBot a = orBot b) : a = b := by
  cases a <;> cases b <;> simp_all [orBot]

theorem testInf_iff (op : BinOp) (h : op.isCmp = true) (a b : Option ℤ) :
    op.testInf a b = true ↔ Cmp op (orBot a) (orBot b) := by
  rcases a with _ | x <;> rcases b with _ | y
  · change op.test 0 0 = true ↔ Cmp op (⊥ : WithBot ℤ) ⊥
    cases op <;> simp_all [BinOp.test, Cmp, BinOp.isCmp]
  · change op.testInf none (some y) = true ↔ Cmp op (⊥ : WithBot ℤ) (y : WithBot ℤ)
    cases op <;> simp_all [BinOp.testInf, Cmp, BinOp.isCmp]
  · change op.testInf (some x) none = true ↔ Cmp op (x : WithBot ℤ) (⊥ : WithBot ℤ)
    cases op <;> simp_all [BinOp.testInf, Cmp, BinOp.isCmp]
  · change op.test x y = true ↔ Cmp op (x : WithBot ℤ) (y : WithBot ℤ)
    cases op <;> simp_all [BinOp.test, Cmp, BinOp.isCmp]

theorem zipLongest_mem (s t : List ℤ) (x : Option ℤ × Option ℤ) :
    x ∈ zipLongest s t ↔ ∃ i, (i < s.length ∨ i < t.length) ∧ x = (s[i]?, t[i]?) := by
  induction s generalizing t with
  | nil =>
    simp only [zipLongest, List.mem_map, List.length_nil, List.getElem?_nil]
    constructor
    · rintro ⟨y, hy, rfl⟩
      obtain ⟨i, hi, rfl⟩ := List.getElem_of_mem hy
      exact ⟨i, Or.inr hi, by rw [List.getElem?_eq_getElem hi]⟩
    · rintro ⟨i, hi, rfl⟩
      have hi : i < t.length := by omega
      exact ⟨t[i], List.getElem_mem hi, by rw [List.getElem?_eq_getElem hi]⟩
  | cons a s ih =>
    cases t with
    | nil =>
      rw [zipLongest, List.mem_cons, ih]
      constructor
      · rintro (rfl | ⟨i, hi, rfl⟩)
        · exact ⟨0, by simp, by simp⟩
        · exact ⟨i + 1, by simpa using hi, by simp⟩
      · rintro ⟨_ | i, hi, rfl⟩
        · left; simp
        · right; exact ⟨i, by simpa using hi, by simp⟩
    | cons b t =>
      rw [zipLongest, List.mem_cons, ih]
      constructor
      · rintro (rfl | ⟨i, hi, rfl⟩)
        · exact ⟨0, by simp, by simp⟩
        · exact ⟨i + 1, by simpa using hi, by simp⟩
      · rintro ⟨_ | i, hi, rfl⟩
        · left; simp
        · right; exact ⟨i, by simpa using hi, by simp⟩

theorem seqAll_iff (op : BinOp) (h : op.isCmp = true) (s t : List ℤ) :
    seqAll op s t = true ↔ ∀ i, i < s.length ∨ i < t.length → Cmp op (orBot s[i]?) (orBot t[i]?) := by
  rw [seqAll, List.all_eq_true]
  constructor
  · intro H i hi
    exact (testInf_iff op h _ _).1 (H (s[i]?, t[i]?) ((zipLongest_mem s t _).2 ⟨i, hi, rfl⟩))
  · intro H x hx
    obtain ⟨i, hi, rfl⟩ := (zipLongest_mem s t x).1 hx
    exact (testInf_iff op h _ _).2 (H i hi)

theorem seqAll_eq_iff (s t : List ℤ) : seqAll .eq s t = true ↔ s = t := by
  rw [seqAll_iff .eq rfl]
  constructor
  · intro H
    refine List.ext_getElem? fun i => ?_
    by_cases hi : i < s.length ∨ i < t.length
    · exact orBot_inj (H i hi)
    · push Not at hi
      rw [List.getElem?_eq_none hi.1, List.getElem?_eq_none hi.2]
  · rintro rfl i _
    exact rfl

theorem run_seqCmp (op : BinOp) (h : op.isCmp = true) (s t : List ℤ) (w : World) :
    binop op (.seq s) (.seq t) w = (.ok (.num (ofBool (seqCmpSeq op s t))), w) := by
  unfold binop
  simp only
  rw [if_pos h]; rfl

/-- C23. `s == t` answers 1 iff the sequences have the same elements in the same order, else 0. -/
theorem C23_seq_eq (s t : List ℤ) (w : World) : binop .eq (.seq s) (.seq t) w = (.ok (.num (if s = t then 1 else 0)), w) := by
  rw [run_seqCmp .eq rfl]
  have := seqAll_eq_iff s t
  by_cases h : s = t
  · have e : seqCmpSeq .eq s t = true := this.2 h
    rw [if_pos h, e]; rfl
  · have e : seqCmpSeq .eq s t = false := Bool.eq_false_iff.2 (mt this.1 h)
    rw [if_neg h, e]; rfl

/-- C23. `s != t` is the negation. -/
theorem C23_seq_ne (s t : List ℤ) (w : World) : binop .ne (.seq s) (.seq t) w = (.ok (.num (if s = t then 0 else 1)), w) := by
  rw [run_seqCmp .ne rfl, seqCmpSeq]
  have := seqAll_eq_iff s t
  by_cases h : s = t
  · rw [if_pos h, this.2 h]; rfl
  · rw [if_neg h, Bool.eq_false_iff.2 (mt this.1 h)]; rfl

/-- C23. `<, <=, >, >=` hold iff they hold at every position, missing positions counting as minus infinity (`⊥`). -/
theorem C23_seq_order (op : BinOp) (h : op ∈ [BinOp.lt, .le, .gt, .ge]) (s t : List ℤ) (w : World) :
    ∃ b : ℤ, binop op (.seq s) (.seq t) w = (.ok (.num b), w) ∧ (b = 0 ∨ b = 1) ∧
      (b = 1 ↔ ∀ i, i < s.length ∨ i < t.length → Cmp op (orBot s[i]?) (orBot t[i]?)) := by
  have hc : op.isCmp = true := by simp at h; rcases h with rfl | rfl | rfl | rfl <;> rfl
  have he : seqCmpSeq op s t = seqAll op s t := by simp at h; rcases h with rfl | rfl | rfl | rfl <;> rfl
  refine ⟨_, run_seqCmp op hc s t w, ?_, ?_⟩
  · unfold ofBool; split <;> simp
  · rw [← seqAll_iff op hc, he]
    unfold ofBool
    cases seqAll op s t <;> simp

/-- C23. `s cmp X` is `sum(s) cmp X` (whose law is `C06_object_op_die`). -/
theorem C23_seq_die (op : BinOp) (s : List ℤ) (X : RV ℤ) : binop op (.seq s) (.rv X) = binop op (.num s.sum) (.rv X) := rfl

example : (binop .ge (.seq [3, 2, 1]) (.seq [3, 1]) {}).1 = .ok (.num 1) := by decide +kernel
example : (binop .lt (.seq [1]) (.seq [2, 5]) {}).1 = .ok (.num 1) := by decide +kernel
example : (binop .gt (.num 3) (.seq [1, 2, 3]) {}).1 = .ok (.num 2) := by decide +kernel

/-! ## C24: building sequences -/

mutual
/-- The numbers of a nested source, in order. -/
def numbersOf : Src → List ℤ
  | .num n => [n]
  | .rv _ => []
  | .blank _ => []
  | .iter items => numbersIn items
/-- The same for a list of sources. -/
def numbersIn : List Src → List ℤ
  | [] => []
  | x :: xs => numbersOf x ++ numbersIn xs
end

mutual
/-- The listed outcomes of the dice of a nested source, in order. -/
def facesOf : Src → List ℤ
  | .num _ => []
  | .rv r => r.vals
  | .blank _ => []
  | .iter items => facesIn items
/-- The same for a list of sources. -/
def facesIn : List Src → List ℤ
  | [] => []
  | x :: xs => facesOf x ++ facesIn xs
end

mutual
theorem flattenSrc_nums : ∀ s : Src, (flattenSrc s).flatMap Src.numVals = numbersOf s
  | .num n => by simp [flattenSrc, numbersOf, Src.numVals]
  | .rv r => by simp [flattenSrc, numbersOf, Src.numVals]
  | .blank b => by simp [flattenSrc, numbersOf, Src.numVals]
  | .iter items => by rw [flattenSrc, numbersOf, flattenList_nums items]
theorem flattenList_nums : ∀ l : List Src, (flattenList l).flatMap Src.numVals = numbersIn l
  | [] => by simp [flattenList, numbersIn]
  | x :: xs => by rw [flattenList, numbersIn, List.flatMap_append, flattenSrc_nums x, flattenList_nums xs]
end

mutual
theorem flattenSrc_faces : ∀ s : Src, (flattenSrc s).flatMap Src.rvVals = facesOf s
  | .num n => by simp [flattenSrc, facesOf, Src.rvVals]
  | .rv r => by simp [flattenSrc, facesOf, Src.rvVals]
  | .blank b => by simp [flattenSrc, facesOf, Src.rvVals]
  | .iter items => by rw [flattenSrc, facesOf, flattenList_faces items]
theorem flattenList_faces : ∀ l : List Src, (flattenList l).flatMap Src.rvVals = facesIn l
  | [] => by simp [flattenList, facesIn]
  | x :: xs => by rw [flattenList, facesIn, List.flatMap_append, flattenSrc_faces x, flattenList_faces xs]
end

/-- C24. `get_seq` keeps the numbers, in order, then appends the outcomes of the dice, in order; blanks vanish. -/
theorem C24_contents (source : List Src) : getSeq source = numbersIn source ++ facesIn source := by
  simp only [getSeq, flattenList_nums, flattenList_faces]

theorem numbersIn_append (a b : List Src) : numbersIn (a ++ b) = numbersIn a ++ numbersIn b := by
  induction a with
  | nil => simp [numbersIn]
  | cons x a ih => simp [numbersIn, ih]

theorem facesIn_append (a b : List Src) : facesIn (a ++ b) = facesIn a ++ facesIn b := by
  induction a with
  | nil => simp [facesIn]
  | cons x a ih => simp [facesIn, ih]

/-- C24. Nesting is irrelevant: brackets around any stretch of the source, at any position, may be dropped. -/
theorem C24_nesting (before inner after : List Src) :
    getSeq (before ++ .iter inner :: after) = getSeq (before ++ inner ++ after) := by
  simp only [C24_contents, numbersIn_append, facesIn_append, numbersIn, facesIn, numbersOf, facesOf, List.append_assoc]

theorem numbersIn_nums (s : List ℤ) : numbersIn (s.map Src.num) = s ∧ facesIn (s.map Src.num) = [] := by
  induction s with
  | nil => simp [numbersIn, facesIn]
  | cons x s ih => simp [numbersIn, facesIn, numbersOf, facesOf, ih]

/-- C24. `get_seq` of a sequence is that sequence. -/
theorem C24_idempotent (s : List ℤ) : getSeq [Obj.toSrc (.seq s)] = s := by
  simp [C24_contents, Obj.toSrc, numbersIn, facesIn, numbersOf, facesOf, numbersIn_nums]

/-- C24. Blanks vanish, wherever they stand. -/
theorem C24_blank (before after : List Src) (b : Bool) : getSeq (before ++ .blank b :: after) = getSeq (before ++ after) := by
  simp [C24_contents, numbersIn_append, facesIn_append, numbersIn, facesIn, numbersOf, facesOf]

example : getSeq [.num 1, .iter [.rv ⟨[7, 8], [1, 1], none⟩, .iter [.num 2, .blank false]], .num 3] = [1, 2, 3, 7, 8] := by
  decide +kernel

/-! ## C31: blank dice -/

/-- What an operand other than a blank is worth in arithmetic: a sequence is its sum. -/
def worth : Obj → Obj
  | .seq s => .num s.sum
  | o => o

/-- Not a blank. -/
def NonBlank (o : Obj) : Prop := ∀ b, o ≠ .blank b

/-- C31 (partial): an ordinary blank as right operand of `+`, `-`, `|` leaves the other operand; it absorbs the rest.  Missing: two blanks of
different kinds, for which the two sides disagree (see the counterexample). -/
theorem C31_right_partial (op : BinOp) (o : Obj) (ho : NonBlank o) (w : World) :
    binop op o (.blank false) w =
      (.ok (if op = .add ∨ op = .sub ∨ op = .or_ then worth o else .blank false), w) := by
  cases o with
  | blank b => exact absurd rfl (ho b)
  | _ => cases op <;> rfl

/-- C31 (partial): an ordinary blank as left operand of `+` and `|` leaves the other operand (a sequence unsummed), of `-` negates it;
it absorbs the rest. -/
theorem C31_left_partial (op : BinOp) (o : Obj) (ho : NonBlank o) (w : World) :
    binop op (.blank false) o w =
      if op = .sub then negOp (worth o) w
      else (.ok (if op = .add ∨ op = .or_ then o else .blank false), w) := by
  cases o with
  | blank b => exact absurd rfl (ho b)
  | _ => cases op <;> rfl

/-- C31 (partial): a special blank absorbs arithmetic and answers 1 to comparisons and logical operators, on both sides. -/
theorem C31_special_partial (op : BinOp) (o : Obj) (ho : NonBlank o) (w : World) :
    binop op o (.blank true) w =
        (.ok (if op.isCmp ∨ op = .or_ ∨ op = .and_ then .num 1 else .blank true), w) ∧
      binop op (.blank true) o w =
        (.ok (if op.isCmp ∨ op = .or_ ∨ op = .and_ then .num 1 else .blank true), w) := by
  cases o with
  | blank b => exact absurd rfl (ho b)
  | _ => cases op <;> exact ⟨rfl, rfl⟩

/-- C31. Two blanks of the same kind behave as the one. -/
theorem C31_same (op : BinOp) (b : Bool) (w : World) :
    binop op (.blank b) (.blank b) w =
      (.ok (if b ∧ (op.isCmp ∨ op = .or_ ∨ op = .and_) then .num 1 else .blank b), w) := by
  cases b <;> cases op <;> rfl

/-- C31 fails for a comparison of an ordinary with a special blank: the left operand decides. -/
theorem C31_mixed_counterexample :
    (binop .eq (.blank false) (.blank true) {}).1 = .ok (.blank false) ∧
    (binop .eq (.blank true) (.blank false) {}).1 = .ok (.num 1) := by decide +kernel

example : (binop .sub (.blank false) (.seq [1, 2]) {}).1 = .ok (.num (-3)) := by decide +kernel
example : NonBlank (.seq [1, 2]) := by intro b h; cases h

/-! ## C47: plain integers -/

/-- C47 (partial): the `k`-th decimal character of `n ≥ 0` (0 out of range).  Missing: the first character of a negative number. -/
theorem C47_matmul_partial (k : ℤ) (n : ℕ) (w : World) :
    ∃ ds, IsDecimal n ds ∧ myMatmul (.num k) (.num n) w = (.ok (.num (elemAt ds k)), w) := by
  refine ⟨_, decDigits_isDecimal n, ?_⟩
  have hs : strInt (n : ℤ) = (decDigits n).map some := by rw [strInt, if_neg (by omega), Int.natAbs_natCast]
  unfold myMatmul
  simp only [hs, List.length_map]
  unfold elemAt
  split
  · rename_i h
    have hk : (k - 1).toNat < (decDigits n).length := by omega
    rw [if_pos (by omega), List.getD_eq_getElem _ _ (by simpa using hk), List.getD_eq_getElem _ _ (by simpa using hk),
      List.getElem_map, List.getElem_map]
    rfl
  · rename_i h
    change (Except.ok (Obj.num 0), w) = _
    by_cases h1 : 1 ≤ k
    · rw [if_pos h1, List.getD_eq_default _ _ (by simp; omega)]
    · rw [if_neg h1]

/-- C47 (partial): for a negative number the sign is the first character; the digits follow. -/
theorem C47_matmul_negative_partial (k : ℤ) (hk : k ≠ 1) (n : ℕ) (hn : 0 < n) (w : World) :
    ∃ ds, IsDecimal n ds ∧ myMatmul (.num k) (.num (-n)) w = (.ok (.num (elemAt ds (k - 1))), w) := by
  refine ⟨_, decDigits_isDecimal n, ?_⟩
  have hs : strInt (-(n : ℤ)) = none :: (decDigits n).map some := by
    rw [strInt, if_pos (by omega), Int.natAbs_neg, Int.natAbs_natCast]
  unfold myMatmul
  simp only [hs, List.length_cons, List.length_map]
  unfold elemAt
  split
  · rename_i h
    have e : (k - 1).toNat = (k - 1 - 1).toNat + 1 := by omega
    have hk : (k - 1 - 1).toNat < (decDigits n).length := by push_cast at h; omega
    rw [if_pos (by omega), e, List.getD_cons_succ, List.getD_eq_getElem _ _ (by simpa using hk),
      List.getD_eq_getElem _ _ (by simpa using hk), List.getElem_map, List.getElem_map]
    rfl
  · rename_i h
    change (Except.ok (Obj.num 0), w) = _
    by_cases h1 : 1 ≤ k - 1
    · rw [if_pos h1, List.getD_eq_default _ _ (by push_cast at h; simp; omega)]
    · rw [if_neg h1]

/-- C47 fails for the sign: `1 @ -n` raises `ValueError`. -/
theorem C47_sign_counterexample (n : ℤ) (hn : n < 0) (w : World) : myMatmul (.num 1) (.num n) w = (.error .value, w) := by
  have hs : strInt n = none :: (decDigits n.natAbs).map some := by rw [strInt, if_pos hn]
  unfold myMatmul
  simp only [hs]
  rw [if_pos (by simp)]
  rfl

/-- C47. `len(n)` is the number of decimal digits of `|n|`. -/
theorem C47_len (n : ℤ) : ∃ ds, IsDecimal n.natAbs ds ∧ myLen (.num n) = ds.length :=
  ⟨_, decDigits_isDecimal n.natAbs, by simp [myLen]⟩

/-- C47. `~n` is 1 iff `n = 0`; `&` and `|` are conjunction and disjunction; the answers are 0 or 1. -/
theorem C47_logic (x y : ℤ) (w : World) :
    myInvert (.num x) w = (.ok (.num (if x = 0 then 1 else 0)), w) ∧
    (∃ b : ℤ, myAnd (.num x) (.num y) w = (.ok (.num b), w) ∧ PyOp .and_ x y b) ∧
    (∃ b : ℤ, myOr (.num x) (.num y) w = (.ok (.num b), w) ∧ PyOp .or_ x y b) := by
  refine ⟨rfl, ⟨_, rfl, ?_⟩, ⟨_, rfl, ?_⟩⟩
  · exact (eval_iff _ _ _ _).1 (by simp [BinOp.eval, ofBool])
  · exact (eval_iff _ _ _ _).1 (by simp [BinOp.eval, ofBool])

example : (myMatmul (.num 2) (.num (-507)) {}).1 = .ok (.num 5) := by decide +kernel
example : myLen (.num (-507)) = 3 := by decide +kernel

/-! ## C51: ranges -/

/-- C51. `myrange(a, b)` lists the integers from `a` to `b`, ascending; in particular nothing for `b < a`. -/
theorem C51_range (a b : ℤ) (w : World) :
    ∃ l, myRange (.num a) (.num b) w = (.ok (.seq l), w) ∧ l.Pairwise (· < ·) ∧ ∀ x, x ∈ l ↔ a ≤ x ∧ x ≤ b := by
  refine ⟨_, rfl, ?_, fun x => ?_⟩
  · unfold pyRange
    rw [List.pairwise_map]
    exact List.pairwise_lt_range.imp fun h => by omega
  · unfold pyRange
    rw [List.mem_map]
    constructor
    · rintro ⟨i, hi, rfl⟩
      have := List.mem_range.1 hi
      omega
    · rintro ⟨h1, h2⟩
      exact ⟨(x - a).toNat, List.mem_range.2 (by omega), by omega⟩

/-- C51. A die (or blank) as an endpoint raises `TypeError`. -/
theorem C51_die (l r d : Obj) (hd : (∃ X, d = .rv X) ∨ ∃ b, d = .blank b) (h : l = d ∨ r = d) (w : World) :
    myRange l r w = (.error .type, w) := by
  rcases hd with ⟨X, rfl⟩ | ⟨b, rfl⟩ <;> rcases h with rfl | rfl
  · rfl
  · cases l <;> rfl
  · rfl
  · cases l <;> rfl

example : (myRange (.num (-1)) (.num 2) {}).1 = .ok (.seq [-1, 0, 1, 2]) := by decide +kernel
example : (myRange (.num 3) (.num 2) {}).1 = .ok (.seq []) := by decide +kernel

end PythonDice
