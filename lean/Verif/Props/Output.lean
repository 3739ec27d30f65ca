import Verif.Spec.Decimal
import Verif.Model.Output
import Verif.Spec.Text
import Verif.Props.Display

/-!
# C43: rendering
-/

namespace PythonDice
open Spec

theorem charOf_some (d : ℕ) : charOf (some d) = digitChar d := rfl

theorem foldl_digits_nat (l : List ℕ) : l.reverse.foldl (fun a d => 10 * a + d) 0 = Nat.ofDigits 10 l := by
  induction l with
  | nil => rfl
  | cons d l ih => rw [List.reverse_cons, List.foldl_append, ih, Nat.ofDigits_cons]; simp [add_comm]

theorem decDigits_text (n : ℕ) : NatText n ((decDigits n).map digitChar) := by
  refine ⟨decDigits n, rfl, ?_⟩
  unfold decDigits
  split
  · subst n; simp
  · rename_i hn
    have hne : Nat.digits 10 n ≠ [] := Nat.digits_ne_nil_iff_ne_zero.2 hn
    refine ⟨?_, by simpa using hne, ?_, ?_⟩
    · intro d hd
      exact Nat.digits_lt_base (by norm_num) (List.mem_reverse.1 hd)
    · intro h
      rw [List.head?_reverse, List.getLast?_eq_getLast_of_ne_nil hne] at h
      exact absurd (Option.some.inj h) (Nat.getLast_digit_ne_zero 10 hn)
    · rw [foldl_digits_nat, Nat.ofDigits_digits]

theorem strOfInt_text (n : ℤ) : IntText n (strOfInt n) := by
  unfold IntText strOfInt strInt
  split
  · refine ⟨(decDigits n.natAbs).map digitChar, ?_, decDigits_text _⟩
    rw [List.map_cons, List.map_map]; rfl
  · rw [List.map_map]
    exact decDigits_text _

theorem digit_ne (d : ℕ) (c : Char) (h : c = '\n' ∨ c = ' ') : digitChar d ≠ c := by
  unfold digitChar
  by_cases hd : d < 10
  · interval_cases d <;> rcases h with rfl | rfl <;> decide
  · rw [List.getD_eq_default _ _ (by simpa using hd)]
    rcases h with rfl | rfl <;> decide

theorem newline_strOfInt (n : ℤ) : '\n' ∉ strOfInt n := by
  intro h
  unfold strOfInt at h
  obtain ⟨c, _, hc⟩ := List.mem_map.1 h
  cases c with
  | none => exact absurd hc (by decide)
  | some d => exact digit_ne d '\n' (.inl rfl) hc

theorem fixed2_text (x : ℚ) : HundredthsText (roundHalfEven (100 * x)).toNat (fixed2 x) :=
  ⟨_, decDigits_text _, rfl⟩

theorem newline_fixed2 (x : ℚ) : '\n' ∉ fixed2 x := by
  intro h
  unfold fixed2 at h
  rcases List.mem_append.1 h with h | h
  · obtain ⟨d, _, hd⟩ := List.mem_map.1 h
    exact digit_ne d '\n' (.inl rfl) hd
  · simp only [List.mem_cons, List.not_mem_nil, or_false] at h
    rcases h with h | h | h
    · exact absurd h (by decide)
    · exact digit_ne _ '\n' (.inl rfl) h.symm
    · exact digit_ne _ '\n' (.inl rfl) h.symm

theorem newline_row (lw b : ℕ) (x : ℤ × ℚ) : '\n' ∉ outputRow lw b x := by
  unfold outputRow padLeft
  simp only [List.mem_append, List.mem_replicate, List.mem_cons, List.not_mem_nil, or_false, not_or, not_and]
  refine ⟨⟨⟨⟨⟨fun _ => by decide, newline_strOfInt _⟩, by decide, by decide⟩, fun _ => by decide, newline_fixed2 _⟩, by decide, by decide⟩,
    fun _ => by decide⟩

theorem newline_sep (W : ℤ) : '\n' ∉ outputSep W := by
  unfold outputSep
  rw [List.mem_replicate]
  rintro ⟨_, h⟩
  exact absurd h (by decide)

theorem splitLines_table (lw b : ℕ) (W : ℤ) (l : List (ℤ × ℚ)) (pre : List Char) (hp : '\n' ∉ pre) :
    splitLines (pre ++ (l.flatMap (fun x => '\n' :: outputRow lw b x) ++ '\n' :: outputSep W)) =
      pre :: (l.map (outputRow lw b) ++ [outputSep W]) := by
  induction l generalizing pre with
  | nil => rw [List.flatMap_nil, List.nil_append, splitLines_cons hp, splitLines_single (newline_sep W)]; rfl
  | cons x l ih =>
    rw [List.flatMap_cons, List.cons_append, List.cons_append, splitLines_cons hp, List.append_assoc, ih _ (newline_row lw b x)]
    rfl

theorem roundHalfEven_err (q : ℚ) : |(roundHalfEven q : ℚ) - q| ≤ 1 / 2 := by
  rw [abs_sub_comm]
  rcases le_total (q - ⌊q⌋) (1 / 2) with h | h
  · refine le_trans (roundHalfEven_nearest q ⌊q⌋) ?_
    rw [abs_of_nonneg (by linarith [Int.floor_le q])]
    exact h
  · refine le_trans (roundHalfEven_nearest q (⌊q⌋ + 1)) ?_
    have := Int.lt_floor_add_one q
    push_cast
    rw [abs_of_nonpos (by linarith)]
    linarith

theorem roundHalfEven_toNat {q : ℚ} (h : 0 ≤ q) : (((roundHalfEven q).toNat : ℕ) : ℚ) = roundHalfEven q := by
  have : 0 ≤ roundHalfEven q := by
    by_contra hc
    push Not at hc
    have h1 := abs_le.1 (roundHalfEven_err q)
    have : (roundHalfEven q : ℚ) ≤ -1 := by exact_mod_cast Int.le_sub_one_of_lt hc
    linarith
  exact_mod_cast Int.toNat_of_nonneg this

theorem abs3 {a b c x y : ℚ} (h1 : |a - b| ≤ x) (h2 : |b - c| ≤ y) : |a - c| ≤ x + y := by
  have := abs_le.1 h1
  have := abs_le.1 h2
  rw [abs_le]; constructor <;> linarith

theorem dbl_unit_err {P : ℚ} (h0 : 0 ≤ P) (h1 : P ≤ 1) : |dbl P - P| ≤ 1 / 2 ^ 52 := by
  refine le_trans (dbl_err' P) ?_
  rw [abs_of_nonneg h0]
  have := tiny
  have h : (1 : ℚ) / 2 ^ 53 * P ≤ 1 / 2 ^ 53 := by
    have : (0 : ℚ) < 1 / 2 ^ 53 := by norm_num
    nlinarith
  have e : (1 : ℚ) / 2 ^ 53 + 1 / 2 ^ 53 / 4 ≤ 1 / 2 ^ 52 := by norm_num
  generalize (1 : ℚ) / 2 ^ 1075 = t at *
  linarith

theorem dbl_unit_le {P : ℚ} (h0 : 0 ≤ P) (h1 : P ≤ 1) : 0 ≤ dbl P ∧ dbl P ≤ 1 := by
  refine ⟨dbl_nonneg h0, ?_⟩
  have := dbl_mono h1
  rwa [show dbl 1 = 1 from dbl_of_wide ⟨1, 0, by norm_num, by norm_num, by norm_num⟩] at this

theorem row_numbers (b : ℕ) (P : ℚ) (h0 : 0 ≤ P) (h1 : P ≤ 1) :
    |((roundHalfEven (100 * dbl (100 * dbl P))).toNat : ℚ) / 100 - 100 * P| ≤ 1 / 200 + 1 / 2 ^ 44 ∧
      |((roundHalfEven (dbl (dbl P * dbl b))).toNat : ℚ) - P * b| ≤ 1 / 2 + b / 2 ^ 50 := by
  have hu := dbl_unit_err h0 h1
  obtain ⟨hp0, hp1⟩ := dbl_unit_le h0 h1
  constructor
  · have hx0 : 0 ≤ dbl (100 * dbl P) := dbl_nonneg (by linarith)
    rw [roundHalfEven_toNat (by linarith)]
    have e1 : |(roundHalfEven (100 * dbl (100 * dbl P)) : ℚ) / 100 - dbl (100 * dbl P)| ≤ 1 / 200 := by
      have := abs_le.1 (roundHalfEven_err (100 * dbl (100 * dbl P)))
      rw [abs_le]
      constructor <;> linarith
    have e2 : |dbl (100 * dbl P) - 100 * dbl P| ≤ 1 / 2 ^ 46 := by
      refine le_trans (dbl_err' _) ?_
      have := tiny
      rw [abs_of_nonneg (by linarith)]
      have h : (1 : ℚ) / 2 ^ 53 * (100 * dbl P) ≤ 1 / 2 ^ 53 * 100 := by
        have : (0 : ℚ) < 1 / 2 ^ 53 := by norm_num
        nlinarith
      have e : (1 : ℚ) / 2 ^ 53 * 100 + 1 / 2 ^ 53 / 4 ≤ 1 / 2 ^ 46 := by norm_num
      generalize (1 : ℚ) / 2 ^ 1075 = t at *
      linarith
    have e3 : |100 * dbl P - 100 * P| ≤ 100 / 2 ^ 52 := by
      rw [← mul_sub, abs_mul]
      norm_num at hu ⊢
      linarith
    refine le_trans (abs3 (abs3 e1 e2) e3) ?_
    norm_num
  · have hx0 : 0 ≤ dbl (dbl P * dbl b) := dbl_nonneg (mul_nonneg hp0 (dbl_nonneg (by positivity)))
    rw [roundHalfEven_toNat hx0]
    rcases Nat.eq_zero_or_pos b with rfl | hb
    · have e1 := roundHalfEven_err (dbl (dbl P * dbl ((0 : ℕ) : ℚ)))
      simp only [Nat.cast_zero, dbl_zero, mul_zero, sub_zero, zero_div, add_zero] at e1 ⊢
      exact e1
    · have hb' : (1 : ℚ) ≤ b := by exact_mod_cast hb
      have e1 := roundHalfEven_err (dbl (dbl P * dbl b))
      have e2 := product_error hb' hp0 hp1
      have e3 : |dbl P * b - P * b| ≤ b / 2 ^ 52 := by
        rw [← sub_mul, abs_mul, abs_of_nonneg (by linarith : (0 : ℚ) ≤ b)]
        have : |dbl P - P| * b ≤ 1 / 2 ^ 52 * b := mul_le_mul_of_nonneg_right hu (by linarith)
        linarith
      refine le_trans (abs3 (abs3 e1 e2) e3) ?_
      have : (b : ℚ) / 2 ^ 51 + b / 2 ^ 52 ≤ b / 2 ^ 50 := by
        rw [← sub_nonneg]
        have : (b : ℚ) / 2 ^ 50 - (b / 2 ^ 51 + b / 2 ^ 52) = b * (1 / 2 ^ 52) := by ring
        rw [this]; positivity
      linarith

theorem row_shows (lw b : ℕ) (v : ℤ) (P : ℚ) (h0 : 0 ≤ P) (h1 : P ≤ 1) (hl : (strOfInt v).length ≤ lw) :
    RowShows lw b v P (outputRow lw b (v, dbl P)) := by
  refine ⟨lw - (strOfInt v).length, strOfInt v, 5 - (fixed2 (dbl (100 * dbl P))).length, fixed2 (dbl (100 * dbl P)),
    (roundHalfEven (dbl (dbl P * dbl b))).toNat, (roundHalfEven (100 * dbl (100 * dbl P))).toNat, ?_, strOfInt_text v, by omega, fixed2_text _,
    by omega, (row_numbers b P h0 h1).1, (row_numbers b P h0 h1).2⟩
  simp [outputRow, padLeft]

theorem getValsProbs_sub {r : RV ℤ} (hr : r.Proper) {cut : ℚ} {l : List (ℤ × ℚ)} (h : r.getValsProbs cut = .ok l) :
    l.Sublist (shown r) := by
  unfold RV.getValsProbs at h
  split at h
  · cases h
  · rw [valsProbs_eq hr] at h
    change (if 0 < cut then _ else _) = _ at h
    split at h
    · cases h; exact List.filter_sublist
    · cases h; exact List.Sublist.refl _

theorem settings_bind {β : Type} (f : Settings → M β) (w : World) : (M.settings >>= f) w = f w.settings w := rfl

theorem output_lines (fmt : Option ℚ → Option ℚ → List Char) (hf : ∀ m s, '\n' ∉ fmt m s) (o : Obj) (ho : outputsBlank (some o) = false)
    (named : Option (List Char)) (hn : ∀ n, named = some n → '\n' ∉ n) (W : ℤ) (hW : W < RV.floatOverflow) (cut : ℚ)
    (w w1 : World) (r : RV ℤ) (hg : getRv o w = (.ok r, w1)) (hr : r.Proper) (l : List (ℤ × ℚ))
    (hl : r.getValsProbs (dbl (cut / 100)) = .ok l) (hne : l ≠ []) :
    ∃ text rows lw, outputText fmt (some o) named true (some W) cut w = (.ok text, w1) ∧
      splitLines text = ((named.map (· ++ [' '])).getD [] ++ outputHeader fmt w.settings r) :: (rows ++ [List.replicate (W + 8).toNat '-']) ∧
      List.Forall₂ (fun vp row => RowShows lw (W - lw).toNat vp.1 (Pr r.pairs (· = vp.1)) row) l rows ∧
      (l.map (·.1)).Pairwise (· < ·) := by
  have hsub := getValsProbs_sub hr hl
  obtain ⟨lw, hlw⟩ : ∃ lw, (l.map fun x => (strOfInt x.1).length).max? = some lw := by
    cases h : (l.map fun x => (strOfInt x.1).length).max? with
    | none => rw [List.max?_eq_none_iff, List.map_eq_nil_iff] at h; exact absurd h hne
    | some k => exact ⟨k, rfl⟩
  have hmax : ∀ x ∈ l, (strOfInt x.1).length ≤ lw := by
    intro x hx
    exact ((List.max?_eq_some_iff).1 hlw).2 _ (List.mem_map.2 ⟨x, hx, rfl⟩)
  have hpos : (0 : ℤ) < (RV.floatOverflow : ℤ) := by
    have h := one_lt_floatOverflow
    have h2 : (0 : ℚ) < RV.floatOverflow := lt_trans (by positivity) h
    exact_mod_cast h2
  have hblk : ¬ RV.floatOverflow ≤ (W - lw).toNat := by
    generalize RV.floatOverflow = F at *
    omega
  have hname : '\n' ∉ outputName named ++ outputHeader fmt w.settings r := by
    rw [List.mem_append, not_or]
    constructor
    · cases named with
      | none => simp [outputName]
      | some n =>
        simp only [outputName, List.mem_append, List.mem_singleton, not_or]
        exact ⟨hn n rfl, by decide⟩
    · unfold outputHeader
      split
      · exact hf _ _
      · decide
  have htbl : outputPdf true W cut r = .ok (l.flatMap (fun x => '\n' :: outputRow lw (W - lw).toNat x) ++ '\n' :: outputSep W) := by
    unfold outputPdf
    rw [if_pos rfl, hl]
    change outputTable W l = _
    unfold outputTable
    rw [hlw]
    exact if_neg hblk
  refine ⟨(outputName named ++ outputHeader fmt w.settings r) ++
      (l.flatMap (fun x => '\n' :: outputRow lw (W - lw).toNat x) ++ '\n' :: outputSep W),
    l.map (outputRow lw (W - lw).toNat), lw, ?_, ?_, ?_, ?_⟩
  · unfold outputText
    rw [settings_bind, if_neg (by rw [ho]; decide)]
    change (getRv o >>= _) w = _
    rw [M.bind_ok hg]
    change (M.ofSettings (fun _ => outputPdf true W cut r) >>= _) w1 = _
    rw [M.bind_ok (show M.ofSettings (fun _ => outputPdf true W cut r) w1 = (.ok _, w1) by
      rw [show M.ofSettings (fun _ => outputPdf true W cut r) w1 = (outputPdf true W cut r, w1) from rfl, htbl])]
    rfl
  · rw [splitLines_table lw _ W l _ hname]
    cases named <;> rfl
  · rw [List.forall₂_map_right_iff]
    rw [List.forall₂_same]
    intro x hx
    obtain ⟨h0, h1⟩ := pr_le_one r.pairs (· = x.1)
    have := row_shows lw (W - lw).toNat x.1 _ h0 h1 (hmax x hx)
    rw [← (shown_mem (hsub.subset hx)).2] at this
    exact this
  · refine List.Pairwise.sublist (hsub.map _) ?_
    have : (shown r).map (·.1) = r.vals := by
      unfold shown
      rw [List.map_map]
      exact List.map_id _
    rw [this]
    exact hr.sorted

/-- C43. The text has a header line (name, mean, deviation), then one line per listed outcome, in increasing order and aligned, then a
separator line of dashes.  Missing: a cut that leaves no outcome (`hne`), for which rendering raises (see the counterexample). -/
theorem C43_lines_partial (fmt : Option ℚ → Option ℚ → List Char) (hf : ∀ m s, '\n' ∉ fmt m s) (o : Obj) (ho : outputsBlank (some o) = false)
    (named : Option (List Char)) (hn : ∀ n, named = some n → '\n' ∉ n) (W : ℤ) (hW : W < RV.floatOverflow) (cut : ℚ)
    (w w1 : World) (r : RV ℤ) (hg : getRv o w = (.ok r, w1)) (hr : r.Proper) (l : List (ℤ × ℚ))
    (hl : r.getValsProbs (dbl (cut / 100)) = .ok l) (hne : l ≠ []) :
    ∃ text header rows lw, outputText fmt (some o) named true (some W) cut w = (.ok text, w1) ∧
      splitLines text = ((named.map (· ++ [' '])).getD [] ++ header) :: (rows ++ [List.replicate (W + 8).toNat '-']) ∧
      List.Forall₂ (fun vp row => RowShows lw (W - lw).toNat vp.1 (Pr r.pairs (· = vp.1)) row) l rows ∧
      (l.map (·.1)).Pairwise (· < ·) := by
  obtain ⟨text, rows, lw, h1, h2, h3, h4⟩ := output_lines fmt hf o ho named hn W hW cut w w1 r hg hr l hl hne
  exact ⟨text, _, rows, lw, h1, h2, h3, h4⟩

/-- C43. Without a cut every outcome of a die is listed exactly once, and rendering succeeds. -/
theorem C43_all_outcomes (fmt : Option ℚ → Option ℚ → List Char) (hf : ∀ m s, '\n' ∉ fmt m s) (r : RV ℤ) (hr : r.Proper)
    (named : Option (List Char)) (hn : ∀ n, named = some n → '\n' ∉ n) (W : ℤ) (hW : W < RV.floatOverflow) (w : World) :
    ∃ text header rows lw, outputText fmt (some (.rv r)) named true (some W) 0 w = (.ok text, w) ∧
      splitLines text = ((named.map (· ++ [' '])).getD [] ++ header) :: (rows ++ [List.replicate (W + 8).toNat '-']) ∧
      List.Forall₂ (fun v row => RowShows lw (W - lw).toNat v (Pr r.pairs (· = v)) row) r.vals rows := by
  obtain ⟨l, h1, h2, _⟩ := C27_pdf r hr
  have hne : l ≠ [] := by
    rintro rfl
    exact hr.nonempty h2.symm
  obtain ⟨text, header, rows, lw, a, b, c, _⟩ := C43_lines_partial fmt hf (.rv r) rfl named hn W hW 0 w w r rfl hr l (by simpa using h1) hne
  refine ⟨text, header, rows, lw, a, b, ?_⟩
  rw [← h2, List.forall₂_map_left_iff]
  exact c

/-- C43. `None`, blank dice and empty sequences render as an (almost) empty line and the separator. -/
theorem C43_blank (fmt : Option ℚ → Option ℚ → List Char) (o : Option Obj) (ho : o = none ∨ (∃ b, o = some (.blank b)) ∨ o = some (.seq []))
    (named : Option (List Char)) (hn : ∀ n, named = some n → '\n' ∉ n) (showPdf : Bool) (W : ℤ) (cut : ℚ) (w : World) :
    ∃ text, outputText fmt o named showPdf (some W) cut w = (.ok text, w) ∧
      splitLines text = [(named.map (· ++ [' '])).getD [], List.replicate (W + 8).toNat '-'] := by
  have hb : outputsBlank o = true := by rcases ho with rfl | ⟨b, rfl⟩ | rfl <;> rfl
  refine ⟨outputBlank named W, ?_, ?_⟩
  · unfold outputText
    rw [settings_bind, if_pos hb]
    rfl
  · unfold outputBlank
    have hname : '\n' ∉ outputName named := by
      cases named with
      | none => simp [outputName]
      | some n =>
        simp only [outputName, List.mem_append, List.mem_singleton, not_or]
        exact ⟨hn n rfl, by decide⟩
    rw [splitLines_cons hname, splitLines_single (newline_sep W)]
    cases named <;> rfl

/-- C43. The default width is the setting. -/
theorem C43_default_width (fmt : Option ℚ → Option ℚ → List Char) (o : Option Obj) (named : Option (List Char)) (showPdf : Bool) (cut : ℚ)
    (w : World) : outputText fmt o named showPdf none cut w = outputText fmt o named showPdf (some w.settings.defaultOutputWidth) cut w := by
  unfold outputText
  rw [settings_bind, settings_bind]
  simp only [Option.getD_none, Option.getD_some]

/-- C43, counterexample: with a cut, the constant 0 has no listed outcome left and rendering raises ValueError. -/
theorem C43_cut_counterexample (fmt : Option ℚ → Option ℚ → List Char) :
    outputText fmt (some (.num 0)) none true none 5 {} = (.error .value, {}) := by
  have h : RV.fromConst {} (0 : ℤ) = .ok ⟨[0], [1], none⟩ := by decide +kernel
  have h2 : outputPdf true 180 5 ⟨[0], [1], none⟩ = .error .value := by decide +kernel
  unfold outputText
  rw [settings_bind, if_neg (by decide)]
  change (getRv (.num 0) >>= _) {} = _
  rw [M.bind_ok (show getRv (.num 0) {} = (.ok ⟨[0], [1], none⟩, {}) from by
    rw [show getRv (.num 0) {} = (RV.fromConst {} (0 : ℤ), {}) from rfl, h])]
  change (M.ofSettings (fun _ => outputPdf true 180 5 ⟨[0], [1], none⟩) >>= _) {} = _
  rw [M.bind_error (show M.ofSettings (fun _ => outputPdf true 180 5 ⟨[0], [1], none⟩) {} = (.error .value, {}) by
    rw [show M.ofSettings (fun _ => outputPdf true 180 5 ⟨[0], [1], none⟩) {} = (outputPdf true 180 5 ⟨[0], [1], none⟩, {}) from rfl, h2])]

/-- The table of a die with faces -1 (weight 1) and 10 (weight 2), drawn 13 characters wide. -/
example : (outputPdf true 13 0 ⟨[-1, 10], [1, 2], none⟩).toOption.map String.ofList =
    some "\n-1: 33.33  ████\n10: 66.67  ███████\n---------------------" := by decide +kernel

end PythonDice
