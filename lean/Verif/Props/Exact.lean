import Verif.Proofs.ExactRun
import Verif.Proofs.ExactDec
import Verif.Props.Drawn

/-!
# C85: what can be computed without rounding is computed without rounding
-/

namespace PythonDice

open Spec Compiler Lexer
open Spec.Py (ReadsProgram)
open Spec.Naive (PrintedTable Shows ShowsText ShowsOutput ExactProgram ExactRolls ExactVal)

/-- **C85** (everything that a program uses: src/randvar.py, src/seq.py, src/roller.py, src/decorators.py, src/funclib.py, src/blackrv.py): a program
that enumeration gives outputs for, and in which all laws that come up have common denominators of at most 10^31 (for `n` dice: the `n`-th power
of the denominator of one of them), runs to its end, in whatever state it begins, if functions may call each other deep enough: no warning is
logged, nothing is raised, and it outputs exactly what enumeration gives.  The condition is about the enumeration alone (see `Spec/Exact.lean`). -/
theorem C85_exact (R : Rules) {c : Naive.Config} {b : Block} {vs : List (Naive.Val × Option Naive.Text)}
    (hv : Naive.outputs R c b = some vs) (hE : ExactProgram R c b) : ∃ N, ∀ n, N ≤ n → ∀ w, Reachable w → w.settings.maxFuncDepth = c.depth →
      w.settings.maxFuncDepth - w.settings.currDepth = c.left → w.settings.explodeDepth.toNat = c.explode →
      w.settings.positionOrder = (if c.low then .lowestFirst else .highestFirst) → w.warns = 0 →
      (run R n b w).2.warns = 0 ∧ ∃ outs, (run R n b w).1 = .ok outs ∧ List.Forall₂ ShowsOutput outs vs := by
  obtain ⟨N, hN⟩ := Enum.exact_run hv hE
  refine ⟨N, fun n hn w hw hd hk he hp h0 => ?_⟩
  obtain ⟨h1, outs, h2, h3⟩ := hN n hn w hw ⟨hd, hk, hp, he⟩ h0
  exact ⟨h1, outs, h2, h3.imp fun _ _ h => h.shows⟩

/-- C85. However deep functions may call each other: such a program does not log a warning and ends as it should, or that was
not deep enough. -/
theorem C85_any_depth (R : Rules) (n : ℕ) {c : Naive.Config} {b : Block} {vs : List (Naive.Val × Option Naive.Text)}
    (hv : Naive.outputs R c b = some vs) (hE : ExactProgram R c b) {w : World} (hw : Reachable w) (hd : w.settings.maxFuncDepth = c.depth)
    (hk : w.settings.maxFuncDepth - w.settings.currDepth = c.left) (he : w.settings.explodeDepth.toNat = c.explode)
    (hp : w.settings.positionOrder = (if c.low then .lowestFirst else .highestFirst)) (h0 : w.warns = 0) :
    (run R n b w).1 = .error .fuel ∨ (run R n b w).2.warns = 0 ∧ ∃ outs, (run R n b w).1 = .ok outs ∧ List.Forall₂ ShowsOutput outs vs := by
  obtain ⟨N, hN⟩ := C85_exact R hv hE
  by_cases hr : (run R n b w).1 = .error .fuel
  · exact .inl hr
  · refine .inr ?_
    have e := run_extends R (le_max_left n N) b w hr
    rw [← e]
    exact hN _ (le_max_right n N) w hw hd hk he hp h0

/-- C85 of source texts: compiled, read by Python, run, and printed.  Missing: what is missing of C63 (functions in functions, strings in
expressions). -/
theorem C85_text_partial (fl : Flags) {s t : List Char} {b : Block} (h : compile fl Char.isDigit s = .ok t)
    (hs : SourceOf (tokens Char.isDigit s) b) (hlit : LiteralsIn PlainChar (tokens Char.isDigit s)) (hc : cleanB (passFlags fl b) b = true)
    (hr : noResultB b = true) (hf : freeB (passFlags fl b).style true b = true) {p : Py.Block} (hp : ReadsProgram t p)
    {vs : List (Naive.Val × Option Naive.Text)} (hv : Naive.outputs (passFlags fl b).style.rules ⟨2, false, 10, 10⟩ b = some vs)
    (hE : ExactProgram (passFlags fl b).style.rules ⟨2, false, 10, 10⟩ b) :
    ∃ N, ∀ n, N ≤ n → (Exec.unsafeExec n p {}).2.warns = 0 ∧ ∃ outs, (Exec.unsafeExec n p {}).1 = .ok outs ∧ List.Forall₂ ShowsOutput outs vs ∧
      List.Forall₂ (fun o v => ∀ (named : Option (List Char)) (W : ℤ) (w' : World), (∀ n, named = some n → '\n' ∉ n) → W < RV.floatOverflow →
        ∃ text, outputFull (some o.1) named true (some W) 0 w' = (.ok text, w') ∧ PrintedTable W named v.1 (splitLines text)) outs vs := by
  obtain ⟨N, hN⟩ := C85_exact _ hv hE
  refine ⟨N, fun n hn => ?_⟩
  obtain ⟨d, hd⟩ := C63_run_partial fl h hs hlit hc hr hf hp n {}
  rw [hd]
  obtain ⟨h1, outs, h2, h3⟩ := hN n hn {} Reachable.init rfl rfl rfl rfl rfl
  exact ⟨h1, outs, h2, h3, h3.imp fun o v hs named W w' hn hW => C81_object (shows_fst hs) named hn hW w'⟩

/-- The condition can be decided; these programs (functions with dice for numbers, `highest`, `explode`, comparisons; changes of all settings,
recursion, `@`) meet it. -/
example : ExactProgram ⟨true, false, true⟩ ⟨2, false, 10, 10⟩ lawTree ∧ ExactProgram ⟨true, false, true⟩ ⟨2, false, 10, 10⟩ settingTree := by
  decide +kernel

/-- What the theorem says of one of them. -/
example : ∃ N, ∀ n, N ≤ n → (run ⟨true, false, true⟩ n lawTree {}).2.warns = 0 ∧ ∃ outs, (run ⟨true, false, true⟩ n lawTree {}).1 = .ok outs := by
  have hv : (Naive.outputs ⟨true, false, true⟩ ⟨2, false, 10, 10⟩ lawTree).isSome = true := by decide +kernel
  obtain ⟨vs, hv⟩ := Option.isSome_iff_exists.1 hv
  obtain ⟨N, hN⟩ := C85_exact ⟨true, false, true⟩ hv (by decide +kernel)
  exact ⟨N, fun n hn => (hN n hn {} Reachable.init rfl rfl rfl rfl rfl).imp id fun ⟨outs, h, _⟩ => ⟨outs, h⟩⟩

/-- The bound is met by 39 dice with six sides, and not by 40. -/
example : ExactRolls 39 (Naive.uniform [1, 2, 3, 4, 5, 6]) ∧ ¬ ExactRolls 40 (Naive.uniform [1, 2, 3, 4, 5, 6]) := by decide +kernel

/-- `X: d10 > 9` and five times `X: X & X`, and `output X`: one chance in 10^32. -/
def rareTree : Block :=
  let again (b : Block) : Block := .cons (.assign "X".toList (.bin .and_ (.var "X".toList) (.var "X".toList))) b
  .cons (.assign "X".toList (.bin .gt (.dm (.num "10".toList)) (.num "9".toList)))
    (again (again (again (again (again (.cons (.output (.var "X".toList)) .nil))))))

/-- Beyond the bound probabilities are rounded: this program logs a warning, and what has one chance in 10^32 is impossible. -/
theorem C85_bound_needed : (run ⟨true, false, true⟩ 11 rareTree {}).2.warns = 1 ∧
    (run ⟨true, false, true⟩ 11 rareTree {}).1 = .ok [(.rv ⟨[0, 1], [99999999999999999999, 0], none⟩, none)] := by
  refine ⟨?_, ?_⟩ <;> decide +kernel

end PythonDice
