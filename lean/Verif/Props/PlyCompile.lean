import Verif.Proofs.PlyCompile
import Verif.Props.PlyParse

/-!
# C103: `compile_anydice` on top of PLY

The model of `compile_anydice` that all statements about compiled programs are about (`Compiler.compile`) is a short description.  What the code does
is longer: PLY builds regular expressions and tables, the lexer goes over the text, and then once more, whenever the parser asks it for a token; tokens
carry their positions and lines, which end up in the messages.
-/

namespace PythonDice

open Compiler (compile Flags CompileErr)
open PlyCompile (compileAnydice)

/-- A lexer that has gone over a text without reports is in its first state. -/
theorem initial_of_reports {dig : Char → Bool} {s : List Char} (hr : Lexer.reports dig s = []) : (Lexer.run dig .initial s).2 = .initial := by
  have key : ∀ (ps : List Lexer.Piece) (m : Lexer.Mode) (pos line : ℕ), Lexer.reportsFrom s m pos line ps = [] → m = .initial := by
    intro ps
    induction ps with
    | nil =>
      intro m pos line h
      cases m with
      | initial => rfl
      | instring => exact absurd h (by simp [Lexer.reportsFrom])
    | cons p ps ih =>
      intro m pos line h
      rw [Lexer.reportsFrom] at h
      exact ih m _ _ (List.append_eq_nil_iff.1 h).2
  exact key _ _ _ _ hr

/-- **C103** (src/parser/parse_and_exec.py:76-86): with PLY's lexer and parser, `compile_anydice` gives for every text and all flags the generated
text, or the exception with the message, of the model; it gives nothing else, and it ends. -/
theorem C103_compile (fl : Flags) (dig : Char → Bool) (s : List Char) (r : Except CompileErr (List Char)) :
    (∃ n, compileAnydice n fl dig s = some r) ↔ compile fl dig s = r := by
  have hnew := PlyLex.doLex_eq (dig := dig) s .initial .new rfl
  rw [compile, Compiler.compileWith]
  unfold compileAnydice
  rw [PlyLex.build_eq]
  dsimp only
  by_cases hb : Compiler.blank s = true
  · simp only [if_pos hb, Option.some.injEq, exists_const]
  simp only [if_neg hb]
  have hill : (PlyLex.doLex dig PlyLex.tabs s .new).2.illegal = Lexer.reports dig s := by rw [hnew]; rfl
  rw [hill]
  by_cases hr : Lexer.reports dig s = []
  swap
  · rw [if_pos hr]
    simp only [if_pos hr, Option.some.injEq, exists_const]
  simp only [hr, ne_eq, not_true_eq_false, if_false]
  have hstate : (PlyLex.doLex dig PlyLex.tabs s .new).2.state = PlyLex.modeName .initial := by
    rw [hnew]
    dsimp only
    rw [initial_of_reports hr]
  have hline : (PlyLex.doLex dig PlyLex.tabs s .new).2.lineno = Compiler.lineAfter 1 (Lexer.run dig .initial s).1 := by rw [hnew]; rfl
  have hrun := fun n => PlyCompile.run_sim plyTables n
    (PlyCompile.start_sim (dig := dig) (data := s) (PlyLex.doLex dig PlyLex.tabs s .new).2 hstate)
  rw [hline] at hrun
  have hfin : ∀ n p, PlyParse.run plyTables n (PlyParse.start (Lexer.tokens dig s)) = some p →
      ((PlyCompile.run dig PlyLex.tabs s plyTables n (PlyCompile.start (PlyLex.doLex dig PlyLex.tabs s .new).2)).map (PlyCompile.finish fl)) =
        some (Compiler.compileTree Yacc.tables fl dig s) := by
    intro n p hp
    have hparse := (C101_parse dig s p).1 ⟨n, hp⟩
    have hlen := (hrun n).2 p hp
    rw [(hrun n).1, hp, Compiler.compileTree, hparse]
    obtain ⟨res, bad⟩ := p
    dsimp only at hlen
    simp only [Option.map_some, Option.some.injEq]
    match res, bad with
    | .error e, bad => rfl
    | .ok none, bad => rfl
    | .ok (some v), [] => cases v <;> rfl
    | .ok (some v), b :: bs =>
      rw [PlyCompile.reportsOf] at hlen
      have hy : Compiler.yaccReports dig s (b :: bs) ≠ [] := by
        intro h
        rw [Compiler.yaccReports] at h
        rw [h] at hlen
        simp at hlen
      have key : ∀ ys, ys ≠ [] → PlyCompile.finish fl (.ok (some v), ys) = .error (.yacc ys) := by
        intro ys h
        cases ys with
        | nil => exact absurd rfl h
        | cons y ys => cases v <;> rfl
      refine (key _ hy).trans ?_
      cases v <;> rfl
  constructor
  · rintro ⟨n, hn⟩
    cases hp : PlyParse.run plyTables n (PlyParse.start (Lexer.tokens dig s)) with
    | none =>
      rw [(hrun n).1, hp] at hn
      cases hn
    | some p => exact Option.some.inj ((hfin n p hp).symm.trans hn)
  · intro h
    obtain ⟨n, p, hp, -⟩ := C101_ends dig s
    exact ⟨n, (hfin n p hp).trans (congrArg some h)⟩

/-- It ends on every text. -/
theorem C103_ends (fl : Flags) (dig : Char → Bool) (s : List Char) : ∃ n r, compileAnydice n fl dig s = some r :=
  have ⟨n, hn⟩ := (C103_compile fl dig s _).2 rfl
  ⟨n, _, hn⟩

/-- Longer runs do not change what it gives. -/
theorem C103_unique (fl : Flags) (dig : Char → Bool) (s : List Char) (n m : ℕ) (r r' : Except CompileErr (List Char))
    (h : compileAnydice n fl dig s = some r) (h' : compileAnydice m fl dig s = some r') : r = r' :=
  ((C103_compile fl dig s r).1 ⟨n, h⟩).symm.trans ((C103_compile fl dig s r').1 ⟨m, h'⟩)

/-- A text with an error on its second line: the parser asks for tokens in the second pass over the text, in which the lines go on where the first
pass has ended, so that the message says 3. -/
example : (PlyCompile.run Char.isDigit PlyLex.tabs "output 1\n) output 2".toList Yacc.tableData 30
      (PlyCompile.start (PlyLex.doLex Char.isDigit PlyLex.tabs "output 1\n) output 2".toList .new).2)).map (·.2) =
    some [⟨[')'], 9, 3, 1⟩] := by decide +kernel

/-- Without an error; twelve turns are enough. -/
example : ((PlyCompile.run Char.isDigit PlyLex.tabs "output d6".toList Yacc.tableData 12
      (PlyCompile.start (PlyLex.doLex Char.isDigit PlyLex.tabs "output d6".toList .new).2)).map (PlyCompile.finish {})) =
    some (compile {} Char.isDigit "output d6".toList) := by
  rw [compile, Yacc.tables_eq]
  decide +kernel

/-- The text is given by `C103_compile` too. -/
example : ∃ n, compileAnydice n {} Char.isDigit "output d6".toList = some (.ok "output(roll(6))\n".toList) := by
  rw [C103_compile, compile, Yacc.tables_eq]
  decide +kernel

end PythonDice
