import Verif.Proofs.Foreign
import Verif.Props.Program

/-!
# C98: a program can use nothing of Python but the runtime
-/

namespace PythonDice

open Spec Compiler
open Spec.Words (wordsOf)
open Lexer (tokens)
open Foreign (TameChar)

theorem tame_literals {dig : Char → Bool} {s : List Char} (h : LiteralsIn (fun c => c ≠ '\\' ∧ c ≠ '\r') (tokens dig s)) :
    LiteralsIn TameChar (tokens dig s) := by
  intro t ht hk c hc
  have h1 := h t ht hk c hc
  have h2 := form_of_tokens ht
  have h3 : c ≠ '\n' ∧ c ≠ '"' := by
    rcases hk with hk | hk
    · rw [hk] at h2
      exact ⟨(h2.2 c hc).1, (h2.2 c hc).2.1⟩
    · rw [hk] at h2
      obtain ⟨b, e, hb⟩ := h2
      rw [e] at hc
      rcases List.mem_cons.1 hc with rfl | hc
      · exact ⟨by decide, by decide⟩
      · exact ⟨(hb c hc).1, (hb c hc).2.1⟩
  exact ⟨h3.1, h1.2, h3.2, h1.1⟩

theorem pyName_parts (fl : Flags) (s : Sig) : pyName fl.libConflict s = mangle fl (sigParts s) := by
  unfold pyName mangle sigParts
  rw [join_eq_intercalate]
  cases fl.libConflict <;> rfl

/-- **C98** (src/parser/python_resolver.py:47-295, src/parser/parse_and_exec.py:76-86, 131-138), partial: outside of its literals, the Python text that a program is
compiled to contains only the words of the code generator, functions of the runtime, functions that the program defines or that belong to the library,
variables, which are in capital letters, and words that the program gives as types.  Missing: programs with a backslash or a carriage return in a literal
(`C98_backslash_counterexample`), and that types are words like the others (`C98_type_counterexample`). -/
theorem C98_words_partial (fl : Flags) (hx : fl.existCheck = true) {s t : List Char} (h : compile fl Char.isDigit s = .ok t)
    (hlit : LiteralsIn (fun c => c ≠ '\\' ∧ c ≠ '\r') (tokens Char.isDigit s)) :
    ∃ b, SourceOf (tokens Char.isDigit s) b ∧ ∀ w ∈ wordsOf t, Harmless fl.nonLocal b w ∨
      (TypeWord b w ∧ w ≠ "n".toList ∧ w ≠ "s".toList ∧ w ≠ "d".toList) := by
  obtain ⟨_, _, b, hs, hres⟩ := (C59_compile fl Char.isDigit s t).1 h
  refine ⟨b, hs, ?_⟩
  obtain ⟨r, hr, rfl⟩ := resolve_pass hres
  obtain ⟨⟨ls, hls, rfl⟩, hdef, _⟩ := resolveOnce_ok hr
  have hok : BlockOK Char.isDigit TameChar b := blockOK_of_formed b hs.2
    ⟨by rw [hs.1]; exact fun _ ht => form_of_tokens ht, by rw [hs.1]; exact tame_literals hlit⟩
  have hx' : (passFlags fl b).existCheck = true := by
    unfold passFlags
    split <;> exact hx
  have hn : (passFlags fl b).nonLocal = fl.nonLocal := passFlags_nonLocal fl b
  let A : List Char → Prop := fun w => Harmless fl.nonLocal b w ∨ (TypeWord b w ∧ w ≠ "n".toList ∧ w ≠ "s".toList ∧ w ≠ "d".toList)
  have F : Foreign.Fine (passFlags fl b) A := by
    refine ⟨fun w hw => .inl (.base hw), fun x hx => .inl (.var hx), fun i => .inl (.dummy i), fun hl => ?_⟩
    rw [hn] at hl
    exact ⟨.inl (.copy hl (by simp)), .inl (.copy hl (by simp)), .inl (.copy hl (by simp))⟩
  have hd : ∀ f ∈ b.defs (passFlags fl b), A f := by
    intro f hf
    obtain ⟨sg, h1, rfl⟩ := (mem_defs _ b f).1 hf
    rw [← pyName_parts]
    exact .inl (.function _ (.inl h1))
  have hc : ∀ f ∈ b.calls (passFlags fl b), A f := by
    intro f hf
    obtain ⟨sg, h1, rfl⟩ := (mem_calls _ b f).1 hf
    rw [← pyName_parts]
    rcases calls_defined (source_names hs) (hdef hx') sg h1 with h2 | h2
    · exact .inl (.function _ (.inl h2))
    · exact .inl (.function _ (.inr h2.1))
  have ht : ∀ d body, StmtIn (.function d body) b → Foreign.TypesOK A d := by
    intro d body hi x t hm
    by_cases h1 : t = "n".toList
    · exact .inl h1
    · by_cases h2 : t = "s".toList
      · exact .inr (.inl h2)
      · by_cases h3 : t = "d".toList
        · exact .inr (.inr (.inl h3))
        · exact .inr (.inr (.inr (.inr ⟨⟨d, body, x, hi, hm⟩, h1, h2, h3⟩)))
  exact Foreign.words_program F (Foreign.frag_block F b hok hs.2 hc hd ht ls hls)

/-- C98, partial: with variables of Python, no attribute of anything is used. -/
theorem C98_attributes_partial (fl : Flags) (hx : fl.existCheck = true) (hl : fl.nonLocal = false) {s t : List Char} (h : compile fl Char.isDigit s = .ok t)
    (hlit : LiteralsIn (fun c => c ≠ '\\' ∧ c ≠ '\r') (tokens Char.isDigit s)) : ".".toList ∉ wordsOf t := by
  intro hm
  obtain ⟨b, hs, hw⟩ := C98_words_partial fl hx h hlit
  have hb := block_ok hs
  have hp : ∀ pre s, SigOK s → ".".toList ≠ pyName pre s := by
    intro pre s hs e
    have h1 : ∀ w ∈ (if pre then [['f']] else []) ++ s.map (fun w => w.getD ['X']), w ≠ [] ∧ ∀ c ∈ w, Py.nameStart c = true := by
      intro w hw
      rcases List.mem_append.1 hw with hw | hw
      · split at hw
        · rw [List.mem_singleton.1 hw]; exact ⟨by decide, by decide⟩
        · cases hw
      · obtain ⟨o, ho, rfl⟩ := List.mem_map.1 hw
        cases o with
        | none => exact ⟨show ['X'] ≠ [] by decide, show ∀ c ∈ ['X'], Py.nameStart c = true by decide⟩
        | some v => exact ⟨(hs v ho).1, start_word (hs v ho)⟩
    have h2 := (join_start h1).1 '.' (by
      rw [join_eq_intercalate]
      show '.' ∈ pyName pre s
      rw [← e]
      decide)
    exact absurd h2 (by decide)
  rcases hw _ hm with h1 | ⟨⟨d, body, x, h1, h2⟩, _⟩
  · generalize hg : ".".toList = w at h1
    cases h1 with
    | base h => rw [← hg] at h; exact absurd h (by decide)
    | var h => rw [← hg] at h; exact absurd (h.2 '.' (by decide)) (by decide)
    | @function sg pre h =>
      refine hp pre sg ?_ hg
      rcases h with h | h
      · exact (source_names hs).2 sg h
      · exact librarySigs_ok sg h
    | dummy i => cases hg
    | copy h => rw [hl] at h; cases h
  · have := ((stmtIn_ok h1 hb).1 _ h2).2.2 '.' (by decide)
    exact absurd this (by decide)

/-- The program `output {"\",", print(1)]))#"}`. -/
def injection : List Char := "output {\"\\\",\", print(1)]))#\"}".toList

/-- Its tree: a sequence of two literals. -/
def injectionTree : Block :=
  .cons (.output (.seq (.expr (.str [.text "\\".toList]) (.expr (.str [.text ", print(1)]))#".toList]) .nil)))) .nil

/-- C98 is false: the backslash at the end of the first literal makes its closing quote a character, so that Python takes the content of the second literal for
code: `output(get_seq([f"\", f", print(1)]))` followed by a comment.  This program calls the function `print` of Python, which is not defined by
the program and has nothing to do with the runtime; any other expression can stand in its place. -/
theorem C98_backslash_counterexample :
    compile {} Char.isDigit injection = .ok "output(get_seq([f\"\\\", f\", print(1)]))#\"]))\n".toList ∧
      wordsOf "output(get_seq([f\"\\\", f\", print(1)]))#\"]))\n".toList = ["output".toList, "get_seq".toList, "print".toList] ∧
        SourceOf (tokens Char.isDigit injection) injectionTree ∧ ¬ Harmless false injectionTree "print".toList := by
  refine ⟨by rw [compile, Yacc.tables_eq]; decide +kernel, by decide +kernel, ⟨by decide +kernel, ?_⟩, ?_⟩
  · simp [injectionTree, WrittenB, WrittenS, Written, WrittenE]
  · intro h
    generalize hg : "print".toList = w at h
    cases h with
    | base h => rw [← hg] at h; exact absurd h (by decide)
    | var h => rw [← hg] at h; exact absurd (h.2 'p' (by decide)) (by decide)
    | @function sg pre h =>
      rcases h with ⟨d, body, h, _⟩ | h
      · unfold injectionTree at h
        cases h with
        | tail h => cases h
      · have : ∀ pre : Bool, ∀ s ∈ librarySigs, "print".toList ≠ pyName pre s := by decide
        exact this pre sg h hg
    | dummy i => cases hg
    | copy h => cases h

/-- C98 is false: the type of a parameter can be any word, here the function `print` of Python. -/
theorem C98_type_counterexample :
    compile {} Char.isDigit "function: f X:print {result: X} output 1".toList =
        .ok "@anydice_casting()\ndef f_X(X: print):\n  return X\n\noutput(1)\n".toList ∧
      "print".toList ∈ wordsOf "@anydice_casting()\ndef f_X(X: print):\n  return X\n\noutput(1)\n".toList := by
  refine ⟨by rw [compile, Yacc.tables_eq]; decide +kernel, by decide +kernel⟩

/-- Without the existence check, a call reaches any function of Python whose name consists of words. -/
theorem C98_check_needed :
    compile { existCheck := false } Char.isDigit "output [exit]".toList = .ok "output(exit())\n".toList := by
  rw [compile, Yacc.tables_eq]
  decide +kernel

/-- The text that the theorems are applied to below. -/
def harmlessText : List Char := "function: add A:n B:d {result: A+B} X: 3 output [add 2 1d6] named \"X=[X]\"".toList

example : LiteralsIn (fun c => c ≠ '\\' ∧ c ≠ '\r') (tokens Char.isDigit harmlessText) := by
  unfold LiteralsIn
  decide +kernel

example : compile {} Char.isDigit harmlessText =
    .ok "@anydice_casting()\ndef add_X_X(A: T_N, B: T_D):\n  return A + B\n\nX = 3\noutput(add_X_X(2, roll(1, 6)), named=f\"X={X}\")\n".toList := by
  rw [compile, Yacc.tables_eq]
  decide +kernel

example : wordsOf "@anydice_casting()\ndef add_X_X(A: T_N, B: T_D):\n  return A + B\n\nX = 3\noutput(add_X_X(2, roll(1, 6)), named=f\"X={X}\")\n".toList =
    ["anydice_casting", "def", "add_X_X", "A", "T_N", "B", "T_D", "return", "A", "B", "X", "output", "add_X_X", "roll", "named", "X"].map String.toList := by
  decide +kernel

end PythonDice
