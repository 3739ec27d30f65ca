import Verif.Proofs.Renumber
import Verif.Props.Compile

/-!
# C101: the loop of the parser

`LRParser.parse` (ply/yacc.py:255-581) keeps two stacks, a lookahead and a stack of lookaheads, skips the lookahead in states with one reduction, and
recovers from errors by popping one state in each turn.  With the tables that PLY builds it gives what the parser of the model gives.
-/

namespace PythonDice

open Lexer (tokens Token)

/-- The tables of PLY. -/
abbrev plyTables : Yacc.Tables := Yacc.plyBuild Yacc.precedence Yacc.rules 200

/-- **C101** (src/parser/ply/yacc.py:255-581): on the tokens of every text the loop ends with the tree, the exception and the reports of errors of
the parser of the model, and with nothing else. -/
theorem C101_parse (dig : Char → Bool) (s : List Char) (p : Yacc.Parsed) :
    (∃ n, PlyParse.run plyTables n (PlyParse.start (tokens dig s)) = some p) ↔ Yacc.parse Yacc.tables (tokens dig s) = some p := by
  rw [← PlyParse.run_iff (tokens_ok dig s) p]
  have h : ∀ n, PlyParse.run plyTables n (PlyParse.start (tokens dig s)) = PlyParse.run Yacc.tables n (PlyParse.start (tokens dig s)) := by
    intro n
    rw [← PlyParse.run_renumber PlyParse.ply_renumbered n, PlyParse.start_renumber PlyParse.ply_renumbered.zero]
  simp only [h]

/-- It ends on every text: with the tree of a program, with nothing, or with an IndexError. -/
theorem C101_ends (dig : Char → Bool) (s : List Char) : ∃ n p, PlyParse.run plyTables n (PlyParse.start (tokens dig s)) = some p ∧
    (∀ v, p.result = .ok (some v) → ∃ b, v = .block b) ∧ ∀ e, p.result = .error e → e = .indexError := by
  obtain ⟨p, hp, h⟩ := C59_parser_ends dig s
  obtain ⟨n, hn⟩ := (C101_parse dig s p).2 hp
  exact ⟨n, p, hn, h⟩

/-- It gives a tree without reporting an error exactly for the texts of the language (`SourceOf`), and it gives the tree of the text. -/
theorem C101_language (dig : Char → Bool) (s : List Char) (b : Compiler.Block) :
    (∃ n, PlyParse.run plyTables n (PlyParse.start (tokens dig s)) = some ⟨.ok (some (.block b)), []⟩) ↔ Spec.SourceOf (tokens dig s) b := by
  rw [C101_parse, Yacc.tables_eq]
  exact parse_ok Yacc.isTable (tokens_ok dig s) b

/-- The numbers of the states do not matter: with any tables that differ in them only, the loop gives the same after the same number of turns. -/
theorem C101_numbers (f : ℕ → ℕ) (T U : Yacc.Tables) (h0 : f 0 = 0)
    (ha : ∀ s, U.action.getD (f s) [] = (T.action.getD s []).map fun e => (e.1, e.2.renumber f))
    (hg : ∀ s x, Yacc.goto U (f s) x = (Yacc.goto T s x).map f) (n : ℕ) (ts : List Token) :
    PlyParse.run U n (PlyParse.start ts) = PlyParse.run T n (PlyParse.start ts) := by
  have h := PlyParse.run_renumber ⟨h0, ha, hg⟩ n (PlyParse.start ts)
  rwa [PlyParse.start_renumber h0] at h

/-- The reports of the loop, and whether there is a tree. -/
def outcome (p : Option Yacc.Parsed) : Option (Bool × List (List (List Char))) :=
  p.map fun p => ((match p.result with | .ok (some _) => true | _ => false), p.illegal.map fun l => l.map (·.value))

/-- An error with its recovery: everything up to the parenthesis is dropped, the parser goes on after it. -/
example : outcome (PlyParse.run Yacc.tableData 15 (PlyParse.start (tokens Char.isDigit "output 1 ) output 2".toList))) =
    some (true, [[[')'], "output".toList, ['2']]]) := by decide +kernel

/-- An error at the end: there is no tree. -/
example : outcome (PlyParse.run Yacc.tableData 40 (PlyParse.start (tokens Char.isDigit "A: 1 + \n output ) B \n".toList))) =
    some (false, [["output".toList, [')'], ['B']]]) := by decide +kernel

/-- The numbers of PLY are other numbers than those of the model. -/
example : Yacc.number 0 = 0 ∧ ∃ s < 183, Yacc.number s ≠ s := by decide +kernel

end PythonDice
