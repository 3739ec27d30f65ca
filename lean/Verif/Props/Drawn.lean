import Verif.Spec.Table
import Verif.Props.Naive
import Verif.Props.Header
import Verif.Props.Blanks
import Verif.Props.Sound

/-!
# C81: the tables of what a program outputs show the probabilities that enumeration gives
-/

namespace PythonDice

open Spec Compiler Lexer
open Spec.Py (ReadsProgram)
open Spec.Naive (Shows ShowsOutput drawn PrintedTable)

theorem prob_cons (x : ℤ × ℚ) (l : Naive.Law) (v : ℤ) : Naive.prob (x :: l) v = (if x.1 = v then x.2 else 0) + Naive.prob l v := by
  unfold Naive.prob
  by_cases h : x.1 = v <;> simp [h]

theorem prob_eq_mean (l : Naive.Law) (v : ℤ) : Naive.prob l v = Naive.mean l fun x => if x = v then 1 else 0 := by
  induction l with
  | nil => rfl
  | cons x l ih =>
    rw [prob_cons, Enum.mean_cons, ih]
    split <;> ring

theorem mean_eq_sum (l : Naive.Law) (S : Finset ℤ) (hS : ∀ x ∈ l, x.1 ∈ S) (f : ℤ → ℚ) : Naive.mean l f = ∑ v ∈ S, Naive.prob l v * f v := by
  induction l with
  | nil => simp [Naive.mean, Naive.prob]
  | cons x l ih =>
    rw [Enum.mean_cons, ih fun y hy => hS y (List.mem_cons_of_mem _ hy)]
    have e : ∀ v ∈ S, Naive.prob (x :: l) v * f v = (if x.1 = v then x.2 * f v else 0) + Naive.prob l v * f v := by
      intro v _
      rw [prob_cons]
      split <;> ring
    rw [Finset.sum_congr rfl e, Finset.sum_add_distrib, Finset.sum_ite_eq, if_pos (hS x List.mem_cons_self)]

/-- Equal probabilities give equal means. -/
theorem Ex_of_prob {l : List (ℤ × ℕ)} {m : Naive.Law} (h : ∀ v, Pr l (· = v) = Naive.prob m v) (f : ℤ → ℚ) : Ex l f = Naive.mean m f := by
  have hl : ∀ x ∈ l, x.1 ∈ (l.map Prod.fst ++ m.map Prod.fst).toFinset := fun x hx => by
    rw [List.mem_toFinset]
    exact List.mem_append_left _ (List.mem_map_of_mem hx)
  have hm : ∀ x ∈ m, x.1 ∈ (l.map Prod.fst ++ m.map Prod.fst).toFinset := fun x hx => by
    rw [List.mem_toFinset]
    exact List.mem_append_right _ (List.mem_map_of_mem hx)
  rw [mean_eq_sum m _ hm, Ex, wsum_weights l _ hl, Finset.sum_div]
  refine Finset.sum_congr rfl fun v _ => ?_
  rw [← h v, Pr, Ex]
  ring

/-- The outcomes of a die without weights 0 are what can happen. -/
theorem mem_vals_iff {d : RV ℤ} (hp : d.Proper) (hpos : ∀ p ∈ d.probs, p ≠ 0) (v : ℤ) : v ∈ d.vals ↔ Pr d.pairs (· = v) ≠ 0 := by
  rw [Pr, Ex, ← RV.weightOf_eq_wsum, Ne, div_eq_zero_iff, not_or, and_iff_left hp.pos, Nat.cast_eq_zero]
  constructor
  · intro hv
    obtain ⟨i, hi, rfl⟩ := List.mem_iff_getElem.1 hv
    have hi' : i < d.probs.length := hp.len ▸ hi
    have hm : (d.vals[i], d.probs[i]) ∈ d.pairs := by
      unfold RV.pairs
      rw [List.mem_iff_getElem]
      exact ⟨i, by simp [hi, hi'], by simp⟩
    rw [RV.weightOf_of_mem (x := (d.vals[i], d.probs[i])) (by rw [RV.pairs_map_fst d hp.len]; exact hp.sorted.imp fun h => ne_of_lt h) hm]
    exact hpos _ (List.getElem_mem hi')
  · intro hv
    by_contra hv'
    refine hv (weightOf_notMem fun h => hv' ?_)
    obtain ⟨x, hx, rfl⟩ := List.mem_map.1 h
    exact RV.mem_vals_of_pairs hx

/-- What is drawn for a die. -/
theorem drawn_die {o : Obj} (ho : outputsBlank (some o) = false) {d : RV ℤ} {w : World} (hg : getRv o w = (.ok d, w)) (hp : d.Proper)
    (hpos : ∀ p ∈ d.probs, p ≠ 0) {l : Naive.Law} (hl : ∀ f, Ex d.pairs f = Naive.mean l f) (named : Option (List Char))
    (hn : ∀ n, named = some n → '\n' ∉ n) {W : ℤ} (hW : W < RV.floatOverflow) {v : Naive.Val} (hv : drawn v = some l) :
    ∃ text, outputFull (some o) named true (some W) 0 w = (.ok text, w) ∧ PrintedTable W named v (splitLines text) := by
  have hPr : ∀ x, Pr d.pairs (· = x) = Naive.prob l x := fun x => by rw [prob_eq_mean, ← hl, Pr]
  obtain ⟨vp, h1, h2, _⟩ := C27_pdf d hp
  have hne : vp ≠ [] := by
    rintro rfl
    exact hp.nonempty h2.symm
  obtain ⟨text, rows, lw, e1, e2, e3, e4⟩ := C71_lines_partial o ho named hn W hW 0 w w d hg hp vp (by simpa using h1) hne
  refine ⟨text, e1, ?_⟩
  unfold PrintedTable
  rw [hv]
  refine ⟨_, rows, lw, d.vals, e2, h2 ▸ e4, fun x => ?_, ?_, fun hm => ?_⟩
  · rw [mem_vals_iff hp hpos, hPr]
  · rw [← h2, List.forall₂_map_left_iff]
    simpa only [hPr] using e3
  · rw [← hl] at hm
    have e : Variance d.pairs = Naive.mean l fun x => ((x : ℚ) - Naive.mean l fun y => (y : ℚ)) ^ 2 := by rw [Variance, Mean, hl, hl]
    have := C71_small w.settings d hp hm
    rw [e, Mean, hl] at this
    exact this

/-- **C81** (src/output.py:8-60, src/factory.py): what is printed for an object is the table of the value that it is, whatever the name, the width and
the state; and printing changes nothing. -/
theorem C81_object {o : Obj} {v : Naive.Val} (h : Shows o v) (named : Option (List Char)) (hn : ∀ n, named = some n → '\n' ∉ n) {W : ℤ}
    (hW : W < RV.floatOverflow) (w : World) :
    ∃ text, outputFull (some o) named true (some W) 0 w = (.ok text, w) ∧ PrintedTable W named v (splitLines text) := by
  match o, v, h with
  | .num a, .num _, rfl =>
    obtain ⟨d, hd, hp, _, _, _, hpos, hE⟩ := fromSeq_spec w.settings [a] (by simp)
    refine drawn_die (d := d) (l := Naive.sure a) rfl ?_ hp hpos (fun f => ?_) named hn hW rfl
    · rw [show getRv (.num a) w = (RV.fromConst w.settings a, w) from rfl, ← hd]
      rfl
    · rw [hE, Enum.mean_sure]
      simp [Ex, mass, wsum]
  | .seq s, .seq _, rfl =>
    by_cases hs : s = []
    · subst hs
      exact C43_blank headerText _ (.inr (.inr rfl)) named hn true W 0 w
    · obtain ⟨d, hd, hp, _, _, _, hpos, hE⟩ := fromSeq_spec w.settings s hs
      refine drawn_die (d := d) (l := Naive.uniform s) (by change decide (s.length = 0) = false; simpa using hs) ?_ hp hpos (fun f => ?_) named hn hW
        (by rw [drawn, if_neg hs])
      · rw [show getRv (.seq s) w = (RV.fromSeq w.settings s, w) from rfl, hd]
      · rw [hE, Enum.mean_uniform]
  | .blank a, .blank _, rfl =>
    exact C43_blank headerText _ (.inr (.inl ⟨a, rfl⟩)) named hn true W 0 w
  | .rv r, .die l _, ⟨h0, h1, h2, h3, h4, h5⟩ =>
    have hp : r.Proper := Enum.GoodDie.proper ⟨h1, h2, h0, h3, h4⟩
    exact drawn_die rfl rfl hp (fun p hp => (h3 p hp).ne') (Ex_of_prob h5) named hn hW rfl

theorem shows_fst {o : Obj × Option PyText} {v : Naive.Val × Option Naive.Text} (h : ShowsOutput o v) : Shows o.1 v.1 := by
  match o, v, h with
  | (_, none), (_, none), h => exact h
  | (_, some _), (_, some _), h => exact h.1

/-- C81. The outputs of a program that enumeration describes: their tables show exactly the possible outcomes with the probabilities that
enumeration gives (percentages and bars rounded), and mean and deviation.  Missing: what is missing of C66. -/
theorem C81_program_partial (R : Rules) (n : ℕ) {c : Naive.Config} {b : Block} {vs : List (Naive.Val × Option Naive.Text)}
    (hv : Naive.outputs R c b = some vs) {w : World}
    (hw : Reachable w) (hd : w.settings.maxFuncDepth = c.depth) (hk : w.settings.maxFuncDepth - w.settings.currDepth = c.left)
    (he : w.settings.explodeDepth.toNat = c.explode)
    (hp : w.settings.positionOrder = if c.low then .lowestFirst else .highestFirst)
    {outs : List (Obj × Option PyText)} (h : (run R n b w).1 = .ok outs) (h0 : (run R n b w).2.warns = 0) :
    List.Forall₂ (fun o v => ∀ (named : Option (List Char)) (W : ℤ) (w' : World), (∀ n, named = some n → '\n' ∉ n) → W < RV.floatOverflow →
      ∃ text, outputFull (some o.1) named true (some W) 0 w' = (.ok text, w') ∧ PrintedTable W named v.1 (splitLines text)) outs vs :=
  (C66_laws_partial R n hv hw hd hk he hp h h0).imp fun o v hs named W w' hn hW => C81_object (shows_fst hs) named hn hW w'

/-- C81. From the source text to the printed tables: compiled, read by Python, run, and printed. -/
theorem C81_text_partial (fl : Flags) {s t : List Char} {b : Block} (h : compile fl Char.isDigit s = .ok t)
    (hs : SourceOf (tokens Char.isDigit s) b) (hlit : LiteralsIn PlainChar (tokens Char.isDigit s)) (hc : cleanB (passFlags fl b) b = true)
    (hr : noResultB b = true) (hf : freeB (passFlags fl b).style true b = true) {p : Py.Block} (hp : ReadsProgram t p) (n : ℕ)
    {vs : List (Naive.Val × Option Naive.Text)} (hv : Naive.outputs (passFlags fl b).style.rules ⟨2, false, 10, 10⟩ b = some vs)
    {outs : List (Obj × Option PyText)} (ho : (Exec.unsafeExec n p {}).1 = .ok outs) (h0 : (Exec.unsafeExec n p {}).2.warns = 0) :
    List.Forall₂ (fun o v => ∀ (named : Option (List Char)) (W : ℤ) (w' : World), (∀ n, named = some n → '\n' ∉ n) → W < RV.floatOverflow →
      ∃ text, outputFull (some o.1) named true (some W) 0 w' = (.ok text, w') ∧ PrintedTable W named v.1 (splitLines text)) outs vs :=
  (C66_text_partial fl h hs hlit hc hr hf hp n hv ho h0).imp fun o v hs named W w' hn hW => C81_object (shows_fst hs) named hn hW w'

/-- C81. Whatever any Python program outputs without a warning, after whatever other programs, can be printed: it is some value, and its table is
printed. -/
theorem C81_exec (n : ℕ) (ps : List Py.Block) (p : Py.Block) {o : Obj} {t : Option PyText}
    (h : (o, t) ∈ (Exec.unsafeExec n p (executed n ps {})).2.outs) (h0 : (Exec.unsafeExec n p (executed n ps {})).2.warns = 0) :
    ∃ v, Shows o v ∧ ∀ (named : Option (List Char)) (W : ℤ) (w' : World), (∀ n, named = some n → '\n' ∉ n) → W < RV.floatOverflow →
      ∃ text, outputFull (some o) named true (some W) 0 w' = (.ok text, w') ∧ PrintedTable W named v (splitLines text) := by
  have key : ∃ v, Shows o v := by
    match o, h with
    | .num a, _ => exact ⟨.num a, rfl⟩
    | .seq a, _ => exact ⟨.seq a, rfl⟩
    | .blank a, _ => exact ⟨.blank a, rfl⟩
    | .rv d, h =>
      obtain ⟨_, h1⟩ := C79_exec n ps p h
      have hd := h1 h0
      refine ⟨.die (d.pairs.map fun x => (x.1, (x.2 : ℚ) / mass d.pairs)) none, hd.nonempty, hd.len, hd.sorted, hd.pos, hd.coprime, fun v => ?_⟩
      rw [prob_eq_mean, Pr, Ex]
      change wsum d.pairs _ / mass d.pairs = _
      generalize mass d.pairs = m
      generalize d.pairs = l
      induction l with
      | nil => simp [wsum, Naive.mean]
      | cons x l ih =>
        rw [wsum_cons, List.map_cons, Enum.mean_cons, ← ih]
        ring
  obtain ⟨v, hv⟩ := key
  exact ⟨v, hv, fun named W w' hn hW => C81_object hv named hn hW w'⟩

example : Shows (.rv ⟨[1, 2, 3], [1, 2, 1], none⟩) (.die [(1, 1 / 4), (3, 1 / 4), (2, 1 / 2)] none) := by
  refine ⟨by decide, rfl, by decide, by decide, fun k h => by simpa using h 1 (by decide), fun v => ?_⟩
  by_cases h1 : 1 = v
  · subst h1
    decide +kernel
  · by_cases h2 : 2 = v
    · subst h2
      decide +kernel
    · by_cases h3 : 3 = v
      · subst h3
        decide +kernel
      · simp [Pr, Ex, wsum, Naive.prob, h1, h2, h3]

example : (outputFull (some (.rv ⟨[1, 2, 3], [1, 2, 1], none⟩)) (some "x".toList) true (some 12) 0 {}).1 =
    .ok "x 2.0 ± 0.71\n1: 25.00  ███\n2: 50.00  ██████\n3: 25.00  ███\n--------------------".toList := by decide +kernel

end PythonDice
