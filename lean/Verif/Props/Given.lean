import Verif.Proofs.Given
import Verif.Props.Insert

/-!
# Variables that are given to a program (C90)
-/

namespace PythonDice

open Spec Compiler Lexer
open Spec.Py (ReadsProgram)

/-- The variables of a program as `global_vars`. -/
def asGlobals (vars : Vars) : Exec.Env := vars.map fun p => (p.1, .obj p.2)

/-- **C90** (src/parser/parse_and_exec.py:131-140), partial: without NON_LOCAL_SCOPE the entries of `global_vars` are the values of the variables at the
beginning of the program: Python, executing the generated text, gives the outputs of the program with these values, or fails with its error, and
leaves the state of the library as the program would.
Missing: entries with other names than those of variables, and what is missing of C63. -/
theorem C90_given_partial (fl : Flags) (hn : fl.nonLocal = false) {s t : List Char} {b : Block} (h : compile fl Char.isDigit s = .ok t)
    (hs : SourceOf (tokens Char.isDigit s) b) (hlit : LiteralsIn PlainChar (tokens Char.isDigit s)) (hc : cleanB (passFlags fl b) b = true)
    (hr : noResultB b = true) (hf : freeB (passFlags fl b).style true b = true) {p : Py.Block} (hp : ReadsProgram t p) {vars : Vars}
    (hv : ∀ v ∈ vars, VarName v.1 ∧ v.1 ∉ takenVars) (n : ℕ) (w : World) :
    ∃ d, Exec.unsafeExecWith (asGlobals vars) n p w =
      ((runGiven (passFlags fl b).style.rules vars n b w).1, (runGiven (passFlags fl b).style.rules vars n b w).2.withDicts d) := by
  rw [(C62_reads_partial fl h hs hlit hc hr p).1 hp]
  have hd : (passFlags fl b).style.dict = false := by
    unfold passFlags
    split <;> exact hn
  exact exec_of_sim (sim_given _ hd vars hv n b
    (blockOK_of_formed (dig := Char.isDigit) (lit := PlainChar) b hs.2 ⟨by rw [hs.1]; exact fun _ ht => form_of_tokens ht, by rw [hs.1]; exact hlit⟩)
    hf w.dicts)

/-- C90. Without `global_vars` it is `unsafe_exec` as before. -/
theorem C90_none (n : ℕ) (p : Py.Block) (w : World) : Exec.unsafeExecWith [] n p w = Exec.unsafeExec n p w := rfl

/-- C90. Numbers that are given do what assignments at the beginning of the program do. -/
theorem C90_assigned (R : Rules) (n : ℕ) (l : List (List Char × List Char)) (b : Block) (w : World) :
    runGiven R (l.map fun p => (p.1, .num (decimal p.2))) n b w = run R n (preceded l b) w := by
  rw [run_preceded]

/-- C90. Only the values of the variables that the program reads matter. -/
theorem C90_reads (R : Rules) (n : ℕ) {b : Block} {vars vars' : Vars} (h : ∀ x ∈ readsB b ++ needsB b, vars'.lookup x = vars.lookup x) (w : World) :
    runGiven R vars' n b w = runGiven R vars n b w :=
  runGiven_reads R n h w

/-- C90. The same of texts, partial: a text, compiled and executed with numbers in `global_vars`, does what the text with assignments of these numbers before
it does.  Missing: what is missing of C63, and functions with protected names. -/
theorem C90_text_partial (fl : Flags) (hn : fl.nonLocal = false) {s s' : List Char} {b : Block} {p p' : Py.Block} {l : List (List Char × List Char)}
    (c : Covered fl s b p) (c' : Covered fl s' (preceded l b) p') (hv : ∀ v ∈ l, VarName v.1 ∧ v.1 ∉ takenVars) (n : ℕ) (w : World) :
    (Exec.unsafeExecWith (asGlobals (l.map fun v => (v.1, .num (decimal v.2)))) n p w).1 = (Exec.unsafeExec n p' w).1 := by
  obtain ⟨t, h1, h2⟩ := c.reads
  have e := passFlags_plain fl (source_names c.source) c.plain
  obtain ⟨d, h3⟩ := C90_given_partial fl hn h1 c.source c.literals (by rw [e]; exact c.clean) c.results (by rw [e]; exact c.free) h2
    (vars := l.map fun v => (v.1, .num (decimal v.2))) (by
      intro v hv'
      obtain ⟨u, hu, rfl⟩ := List.mem_map.1 hv'
      exact hv u hu) n w
  rw [h3, e, C90_assigned, c'.exec]

/-- C90, partial: with NON_LOCAL_SCOPE the entries of `global_vars` that have names of variables are never looked at, whatever they are.
Missing: what is missing of C63. -/
theorem C90_ignored_partial (fl : Flags) (hn : fl.nonLocal = true) {s t : List Char} {b : Block} (h : compile fl Char.isDigit s = .ok t)
    (hs : SourceOf (tokens Char.isDigit s) b) (hlit : LiteralsIn PlainChar (tokens Char.isDigit s)) (hc : cleanB (passFlags fl b) b = true)
    (hr : noResultB b = true) (hf : freeB (passFlags fl b).style true b = true) {p : Py.Block} (hp : ReadsProgram t p) {g : Exec.Env}
    (hv : ∀ v ∈ g, VarName v.1 ∧ v.1 ∉ takenVars) (n : ℕ) (w : World) :
    ∃ d, Exec.unsafeExecWith g n p w =
      ((run (passFlags fl b).style.rules n b w).1, (run (passFlags fl b).style.rules n b w).2.withDicts d) := by
  rw [(C62_reads_partial fl h hs hlit hc hr p).1 hp]
  have hd : (passFlags fl b).style.dict = true := by
    unfold passFlags
    split <;> exact hn
  exact exec_of_sim (sim_ignored _ hd g hv n b
    (blockOK_of_formed (dig := Char.isDigit) (lit := PlainChar) b hs.2 ⟨by rw [hs.1]; exact fun _ ht => form_of_tokens ht, by rw [hs.1]; exact hlit⟩)
    hf w.dicts)

/-! ## Cases -/

/-- `function: add A:n { result: A + X } output [add 2] d Y` -/
def givenText : List Char := "function: add A:n { result: A + X } output [add 2] d Y".toList

/-- Its tree. -/
def givenTree : Block :=
  .cons (.function [.word "add".toList, .typed "A".toList "n".toList] (.cons (.result (.bin .add (.var "A".toList) (.var "X".toList))) .nil))
  (.cons (.output (.ndm (.call (.word "add".toList (.arg (.num "2".toList) .nil))) (.var "Y".toList))) .nil)

/-- The text with two assignments before it. -/
def givenText' : List Char := "Y: 2 X: 1 function: add A:n { result: A + X } output [add 2] d Y".toList

theorem givenTree_written : WrittenB givenTree ∧ WrittenB (preceded [("X".toList, "1".toList), ("Y".toList, "2".toList)] givenTree) := by
  have h1 : ∀ d ∈ [DefPart.word "add".toList, .typed "A".toList "n".toList], TypeOK d := by
    intro d hd
    simp only [List.mem_cons, List.not_mem_nil, or_false] at hd
    rcases hd with rfl | rfl
    · trivial
    · exact .inr (by decide +kernel)
  constructor <;>
    simp [preceded, givenTree, WrittenB, WrittenS, WrittenR, Written, WrittenE, WrittenC, Spec.FirstOK, SeparateNext, level, opLevel, h1]

theorem given_covered {fl : Flags} {s : List Char} {b : Block} {t : List Char} (ht : compile fl Char.isDigit s = .ok t) (hw : WrittenB b)
    (hb : blockToks b = tokens Char.isDigit s) (hl : ∀ t ∈ tokens Char.isDigit s, t.kind ≠ .instringAny ∧ t.kind ≠ .instringNonvar)
    (hc : cleanB fl b = true) (hr : noResultB b = true) (hf : freeB fl.style true b = true) (hp : ¬ collides fl b) (hfl : fl.libConflict = false) :
    ∃ p, Covered fl s b p := by
  have hs : SourceOf (tokens Char.isDigit s) b := ⟨hb, hw⟩
  have hlit : LiteralsIn PlainChar (tokens Char.isDigit s) := fun t ht k => by
    rcases k with k | k
    · exact absurd k (hl t ht).1
    · exact absurd k (hl t ht).2
  have hp' : ¬ DefinesProtected b := fun h => hp ((collides_iff fl b (source_names hs) hfl).2 h)
  have e := passFlags_plain fl (source_names hs) hp'
  exact ⟨_, ⟨_, ht, (C62_reads_partial fl ht hs hlit (by rw [e]; exact hc) hr _).2 rfl⟩, hs, hlit, hc, hr, hf, hp'⟩

theorem givenText_covered : ∃ p, Covered {} givenText givenTree p :=
  given_covered (t := "@anydice_casting()\ndef add_X(A: T_N):\n  return A + X\n\noutput(roll(add_X(2), Y))\n".toList)
    (by rw [compile, Yacc.tables_eq]; decide +kernel) givenTree_written.1 (by decide +kernel) (by decide +kernel) (by decide +kernel) (by decide +kernel)
    (by decide +kernel) (by unfold collides; decide +kernel) rfl

theorem givenText'_covered : ∃ p, Covered {} givenText' (preceded [("X".toList, "1".toList), ("Y".toList, "2".toList)] givenTree) p :=
  given_covered (t := "Y = 2\nX = 1\n@anydice_casting()\ndef add_X(A: T_N):\n  return A + X\n\noutput(roll(add_X(2), Y))\n".toList)
    (by rw [compile, Yacc.tables_eq]; decide +kernel) givenTree_written.2 (by decide +kernel) (by decide +kernel) (by decide +kernel) (by decide +kernel)
    (by decide +kernel) (by unfold collides; decide +kernel) rfl

example : ∃ p p', Covered {} givenText givenTree p ∧
    Covered {} givenText' (preceded [("X".toList, "1".toList), ("Y".toList, "2".toList)] givenTree) p' ∧ ∀ w,
      (Exec.unsafeExecWith [("X".toList, .obj (.num 1)), ("Y".toList, .obj (.num 2))] 11 p w).1 = (Exec.unsafeExec 11 p' w).1 ∧
      (Exec.unsafeExec 11 p' {}).1 = .ok [(.rv ⟨[3, 4, 5, 6], [1, 3, 3, 1], some (3, [1, 2], [1, 1])⟩, none)] := by
  obtain ⟨p, c⟩ := givenText_covered
  obtain ⟨p', c'⟩ := givenText'_covered
  refine ⟨p, p', c, c', fun w => ⟨?_, ?_⟩⟩
  · have hv : ∀ v ∈ [("X".toList, "1".toList), ("Y".toList, "2".toList)], VarName v.1 ∧ v.1 ∉ takenVars := by
      intro v hv
      have : v.1 ≠ [] ∧ (∀ c ∈ v.1, UpLetter c) ∧ v.1 ∉ takenVars := by
        revert v
        decide +kernel
      exact ⟨⟨this.1, this.2.1⟩, this.2.2⟩
    exact C90_text_partial {} rfl c c' hv 11 w
  · rw [c'.exec]
    decide +kernel

/-- What is given can be a die: the program is `output X d Y`. -/
example : (runGiven ⟨false, false, true⟩ [("X".toList, .rv ⟨[1, 2], [1, 1], none⟩), ("Y".toList, .num 2), ("Z".toList, .num 7)] 11
    (.cons (.output (.ndm (.var "X".toList) (.var "Y".toList))) .nil) {}).1 =
    .ok [(.rv ⟨[1, 2, 3, 4], [2, 3, 2, 1], some (1, [1, 2], [1, 1])⟩, none)] := by
  decide +kernel

/-- With NON_LOCAL_SCOPE the program does not see what it is given: `output X` raises KeyError. -/
theorem C90_nonlocal_counterexample :
    compile { nonLocal := true } Char.isDigit "output X".toList = .ok "vars = {}\n\noutput(vars['X'])\n".toList ∧
    compile {} Char.isDigit "output X".toList = .ok "output(X)\n".toList ∧
    (∀ v, (Exec.unsafeExecWith [("X".toList, .obj v)] 11 (meanP ⟨true, false, false⟩ (.cons (.output (.var "X".toList)) .nil)) {}).1 = .error .key) ∧
    ∀ v, (Exec.unsafeExecWith [("X".toList, .obj v)] 11 (meanP ⟨false, false, false⟩ (.cons (.output (.var "X".toList)) .nil)) {}).1 =
      .ok [(v, none)] := by
  refine ⟨?_, ?_, fun v => ?_, fun v => ?_⟩
  · rw [compile, Yacc.tables_eq]
    decide +kernel
  · rw [compile, Yacc.tables_eq]
    decide +kernel
  · rfl
  · rfl

/-- An entry of `global_vars` with a name of the library hides it: with `roll` given, `output d6` raises TypeError. -/
theorem C90_hidden_counterexample (v : Obj) :
    (Exec.unsafeExecWith [("roll".toList, .obj v)] 11 (meanP ⟨false, false, false⟩ (.cons (.output (.dm (.num "6".toList))) .nil)) {}).1 = .error .type ∧
    (Exec.unsafeExec 11 (meanP ⟨false, false, false⟩ (.cons (.output (.dm (.num "6".toList))) .nil)) {}).1 =
      .ok [(.rv ⟨[1, 2, 3, 4, 5, 6], [1, 1, 1, 1, 1, 1], none⟩, none)] := by
  constructor
  · rfl
  · decide +kernel

end PythonDice
