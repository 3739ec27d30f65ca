import Verif.Props.Run
import Verif.Proofs.RenameText

/-!
# C78: the names of the variables and functions of a program do not matter
-/

namespace PythonDice

open Spec Compiler Lexer
open Spec.Py (ReadsProgram BlankLine)

/-- **C78** (src/parser/python_resolver.py): a program whose variables and functions are renamed, different names staying different and the words
of the functions of the library being kept, does the same: the outputs, or the error, and the whole state of the library are the same.  This holds
of every program, with whatever settings it sets, in every state. -/
theorem C78_run {ρ : Renaming} (hρ : ρ.Apart) (hk : ρ.Keeps librarySigs) (R : Rules) (n : ℕ) (b : Block) (w : World) :
    run R n (ρ.block b) w = run R n b w := by rw [ren_run hρ hk]

/-- **C78**: the text of the renamed program is accepted if, and only if, that of the program is. -/
theorem C78_accepts {ρ : Renaming} (hρ : ρ.Apart) (hk : ρ.Keeps librarySigs) (hp : ρ.Keeps protectedSigs) (fl : Flags) (dig : Char → Bool)
    {s s' : List Char} {b : Block} (hs : SourceOf (tokens dig s) b) (hs' : SourceOf (tokens dig s') (ρ.block b))
    (hb : ¬ BlankLine s) (hb' : ¬ BlankLine s') (hr : reports dig s = []) (hr' : reports dig s' = []) :
    (∃ t, compile fl dig s' = .ok t) ↔ ∃ t, compile fl dig s = .ok t := by
  have key : ∀ {u : List Char} {c : Block}, SourceOf (tokens dig u) c → ¬ BlankLine u → reports dig u = [] →
      ((∃ t, compile fl dig u = .ok t) ↔ (∀ d body, StmtIn (.function d body) c → ¬ RepeatsUntyped d) ∧ Outputs c ∧
        (fl.existCheck = true → ∀ q, Calls c q → Defines c q ∨ q ∈ librarySigs ∧ fl.libConflict = false ∧ ¬ DefinesProtected c)) := by
    intro u c h h1 h2
    rw [C59_accepts]
    constructor
    · rintro ⟨_, _, c', h3, h4⟩
      rw [C57_unambiguous h.2 h3.2 (h.1.trans h3.1.symm)]
      exact h4
    · exact fun h4 => ⟨h1, h2, c, h, h4⟩
  rw [key hs hb hr, key hs' hb' hr', ren_outputs, ren_protected hρ hp]
  refine and_congr ?_ (and_congr Iff.rfl (imp_congr Iff.rfl ?_))
  · constructor
    · intro h d body hd hx
      have := ren_stmtIn (ρ := ρ) hd
      rw [Renaming.stmt] at this
      exact h _ _ this ((ren_repeats hρ d).2 hx)
    · intro h d body hd hx
      obtain ⟨st, h1, h2⟩ := stmtIn_ren b hd
      obtain ⟨d', body', rfl, rfl, rfl⟩ := function_ren h2
      exact h _ _ h1 ((ren_repeats hρ d').1 hx)
  · have hdef : ∀ q, Defines (ρ.block b) (ρ.sig q) ↔ Defines b q := by
      intro q
      rw [ren_defines]
      exact ⟨fun ⟨_, h, e⟩ => sig_injective hρ e ▸ h, fun h => ⟨q, h, rfl⟩⟩
    constructor
    · intro h q hq
      have := h _ (ren_calls.2 ⟨q, hq, rfl⟩)
      rwa [hdef, ren_sig_mem hρ hk] at this
    · intro h q hq
      obtain ⟨r, hr, rfl⟩ := ren_calls.1 hq
      rw [hdef, ren_sig_mem hρ hk]
      exact h r hr

/-- Renaming does not decide whether functions have the prefix. -/
theorem ren_passFlags {ρ : Renaming} (hρ : ρ.Apart) (hp : ρ.Keeps protectedSigs) (fl : Flags) {b : Block} (hb : NamesOK b)
    (hb' : NamesOK (ρ.block b)) : passFlags fl (ρ.block b) = passFlags fl b := by
  unfold passFlags
  by_cases hl : fl.libConflict = true
  · rw [if_neg (not_collides_prefixed fl hl _), if_neg (not_collides_prefixed fl hl _)]
  · have hl : fl.libConflict = false := by simpa using hl
    have hi : collides fl (ρ.block b) ↔ collides fl b := by rw [collides_iff fl _ hb' hl, collides_iff fl _ hb hl, ren_protected hρ hp]
    by_cases h : collides fl b
    · rw [if_pos (hi.2 h), if_pos h]
    · rw [if_neg (mt hi.1 h), if_neg h]

mutual

theorem ren_noResultS (ρ : Renaming) (s : Stmt) : noResultS (ρ.stmt s) = noResultS s := by
  match s with
  | .output _ | .outputNamed _ _ | .set _ _ | .function _ _ | .result _ | .assign _ _ => simp [Renaming.stmt, noResultS]
  | .cond c b r => simp [Renaming.stmt, noResultS, ren_noResultB ρ b, ren_noResultE ρ r]
  | .loop x e b => simp [Renaming.stmt, noResultS, ren_noResultB ρ b]

theorem ren_noResultB (ρ : Renaming) (b : Block) : noResultB (ρ.block b) = noResultB b := by
  match b with
  | .nil => simp [Renaming.block, noResultB]
  | .cons s b => simp [Renaming.block, noResultB, ren_noResultS ρ s, ren_noResultB ρ b]

theorem ren_noResultE (ρ : Renaming) (r : Else) : noResultE (ρ.alt r) = noResultE r := by
  match r with
  | .done => simp [Renaming.alt, noResultE]
  | .else_ b => simp [Renaming.alt, noResultE, ren_noResultB ρ b]
  | .elif c b r => simp [Renaming.alt, noResultE, ren_noResultB ρ b, ren_noResultE ρ r]

end

/-- **C78**, partial: the generated texts of both programs, read by Python and run, give the same outputs, or fail with the same error.
Missing: what is missing of C63, in either program; the new names must not mean something in Python. -/
theorem C78_exec_partial {ρ : Renaming} (hρ : ρ.Apart) (hk : ρ.Keeps librarySigs) (hp : ρ.Keeps protectedSigs) (fl : Flags)
    {s s' t t' : List Char} {b : Block} (h : compile fl Char.isDigit s = .ok t) (h' : compile fl Char.isDigit s' = .ok t')
    (hs : SourceOf (tokens Char.isDigit s) b) (hs' : SourceOf (tokens Char.isDigit s') (ρ.block b))
    (hlit : LiteralsIn PlainChar (tokens Char.isDigit s)) (hlit' : LiteralsIn PlainChar (tokens Char.isDigit s'))
    (hc : cleanB (passFlags fl b) b = true) (hc' : cleanB (passFlags fl b) (ρ.block b) = true)
    (hr : noResultB b = true)
    (hf : freeB (passFlags fl b).style true b = true) (hf' : freeB (passFlags fl b).style true (ρ.block b) = true)
    {p p' : Py.Block} (hq : ReadsProgram t p) (hq' : ReadsProgram t' p') (n : ℕ) (w : World) :
    (Exec.unsafeExec n p' w).1 = (Exec.unsafeExec n p w).1 ∧ ∃ d, (Exec.unsafeExec n p' w).2 = (Exec.unsafeExec n p w).2.withDicts d := by
  have e := ren_passFlags hρ hp fl (source_names hs) (source_names hs')
  obtain ⟨d, hd⟩ := C63_run_partial fl h hs hlit hc hr hf hq n w
  obtain ⟨d', hd'⟩ := C63_run_partial fl h' hs' hlit' (e.symm ▸ hc') ((ren_noResultB ρ b).trans hr) (e.symm ▸ hf') hq' n w
  rw [e, C78_run hρ hk] at hd'
  rw [hd, hd']
  exact ⟨rfl, d', rfl⟩

/-- Exchanging names keeps different names different. -/
theorem swap_apart (x y v w : List Char) : (Renaming.swap x y v w).Apart := by
  have h : ∀ a b : List Char, Function.Injective (Renaming.exchange a b) := by
    intro a b
    refine Function.Involutive.injective fun c => ?_
    unfold Renaming.exchange
    by_cases h1 : c = a
    · subst h1
      by_cases h2 : b = c <;> simp [h2]
    · by_cases h2 : c = b
      · subst h2; simp [h1]
      · simp [h1, h2]
  exact ⟨h x y, h v w⟩

/-- Words that are kept, decided. -/
theorem keeps_of {ρ : Renaming} {l : List Sig} (h : (l.all fun s => s.all fun o => o.all fun w => ρ.word w == w) = true) : ρ.Keeps l := by
  intro s hs w hw
  have := List.all_eq_true.1 (List.all_eq_true.1 h s hs) (some w) hw
  simpa using this

/-- `X` called `Y`, and the function `twice` called `double`. -/
def renProg : Renaming := .swap "X".toList "Y".toList "twice".toList "double".toList

theorem renProg_keeps : renProg.Keeps librarySigs ∧ renProg.Keeps protectedSigs := ⟨keeps_of (by decide +kernel), keeps_of (by decide +kernel)⟩

example : renProg.block progTree ≠ progTree := by
  intro h
  have := congrArg blockToks h
  revert this
  decide +kernel

example (R : Rules) (n : ℕ) (w : World) : run R n (renProg.block progTree) w = run R n progTree w :=
  C78_run (swap_apart _ _ _ _) renProg_keeps.1 R n _ w

/-- The text of the renamed program. -/
def renText : List Char :=
  "function: double A:n B { result: A*2 + B } Y: 3 loop I over {1..Y, 5} { if I > 2 { output 2d6 + I named \"a[I]b\" } else { } } output [double 4 Y]".toList

theorem renText_source : SourceOf (tokens Char.isDigit renText) (renProg.block progTree) := by
  refine ⟨by decide +kernel, ?_⟩
  have e : renProg.block progTree = .cons (.function [.word "double".toList, .typed "A".toList "n".toList, .param "B".toList]
    (.cons (.result (.bin .add (.bin .mul (.var "A".toList) (.num "2".toList)) (.var "B".toList))) .nil))
    (.cons (.assign "Y".toList (.num "3".toList))
    (.cons (.loop "I".toList (.seq (.range (.num "1".toList) (.var "Y".toList) (.expr (.num "5".toList) .nil)))
      (.cons (.cond (.bin .gt (.var "I".toList) (.num "2".toList))
        (.cons (.outputNamed (.bin .add (.ndm (.num "2".toList) (.num "6".toList)) (.var "I".toList))
          [.text "a".toList, .var "I".toList, .text "b".toList]) .nil)
        (.else_ .nil)) .nil))
    (.cons (.output (.call (.word "double".toList (.arg (.num "4".toList) (.arg (.var "Y".toList) .nil))))) .nil))) := by rfl
  have h1 : ∀ d ∈ [DefPart.word "double".toList, .typed "A".toList "n".toList, .param "B".toList], TypeOK d := by
    intro d hd
    simp only [List.mem_cons, List.not_mem_nil, or_false] at hd
    rcases hd with rfl | rfl | rfl
    · trivial
    · exact .inr (by decide +kernel)
    · trivial
  have h2 : Separate (.num "4".toList) (firstKind (.var "Y".toList)) := by unfold Separate; decide +kernel
  rw [e]
  simp [WrittenB, WrittenS, WrittenR, Written, WrittenE, WrittenC, Spec.FirstOK, SeparateNext, level, opLevel, h1]
  simpa using h2

theorem renText_plain : LiteralsIn PlainChar (tokens Char.isDigit renText) := by
  have : ∀ t ∈ tokens Char.isDigit renText, ∀ c ∈ t.value, c ≠ '\n' ∧ c ≠ '\r' ∧ c ≠ '\x00' ∧ (t.kind = .instringAny → c ≠ '"') ∧
      (t.kind = .instringNonvar → c ≠ '"') ∧ c ≠ '\\' := by decide +kernel
  intro t ht k c hc
  obtain ⟨h1, h2, h3, h4, h5, h6⟩ := this t ht c hc
  exact ⟨h1, h2, h3, k.elim h4 h5, h6⟩

example (fl : Flags) : (∃ t, compile fl Char.isDigit renText = .ok t) ↔ ∃ t, compile fl Char.isDigit progText = .ok t :=
  C78_accepts (swap_apart _ _ _ _) renProg_keeps.1 renProg_keeps.2 fl _ progTree_source renText_source
    (by decide +kernel) (by decide +kernel) (by decide +kernel) (by decide +kernel)

example {t t' : List Char} (h : compile {} Char.isDigit progText = .ok t) (h' : compile {} Char.isDigit renText = .ok t')
    {p p' : Py.Block} (hp : ReadsProgram t p) (hp' : ReadsProgram t' p') (n : ℕ) (w : World) :
    (Exec.unsafeExec n p' w).1 = (Exec.unsafeExec n p w).1 :=
  (C78_exec_partial (swap_apart _ _ _ _) renProg_keeps.1 renProg_keeps.2 {} h h' progTree_source renText_source progText_plain renText_plain
    (by decide +kernel) (by decide +kernel) (by decide +kernel) (by decide +kernel) (by decide +kernel) hp hp' n w).1

/-- `X: 3  function: f A:n { result: A }  output [f {4,5}]` -/
def annotated : Block :=
  .cons (.assign "X".toList (.num "3".toList))
  (.cons (.function [.word "f".toList, .typed "A".toList "n".toList] (.cons (.result (.var "A".toList)) .nil))
  (.cons (.output (.call (.word "f".toList (.arg (.seq (.expr (.num "4".toList) (.expr (.num "5".toList) .nil))) .nil)))) .nil))

/-- `X` called `T_N`. -/
def renType : Renaming := .swap "X".toList "T_N".toList [] []

/-- Without NON_LOCAL_SCOPE a variable called `T_N` hides the type that the generated text names: the parameter is not converted. -/
theorem C78_type_counterexample : renType.Apart ∧ renType.Keeps librarySigs ∧ renType.Keeps protectedSigs ∧
    compile {} Char.isDigit "X: 3 function: f A:n { result: A } output [f {4,5}]".toList =
      .ok "X = 3\n@anydice_casting()\ndef f_X(A: T_N):\n  return A\n\noutput(f_X(get_seq([4, 5])))\n".toList ∧
    compile {} Char.isDigit "T_N: 3 function: f A:n { result: A } output [f {4,5}]".toList =
      .ok "T_N = 3\n@anydice_casting()\ndef f_X(A: T_N):\n  return A\n\noutput(f_X(get_seq([4, 5])))\n".toList ∧
    (Exec.unsafeExec 11 (meanP ⟨false, false, false⟩ annotated) {}).1 = .ok [(.num 9, none)] ∧
    (Exec.unsafeExec 11 (meanP ⟨false, false, false⟩ (renType.block annotated)) {}).1 = .ok [(.seq [4, 5], none)] := by
  refine ⟨swap_apart _ _ _ _, keeps_of (by decide +kernel), keeps_of (by decide +kernel), ?_, ?_, by decide +kernel, by decide +kernel⟩ <;>
    (rw [compile, Yacc.tables_eq]; decide +kernel)

/-- The protected names must be kept: a program with a function called `roll` cannot call the library. -/
theorem C78_protected_counterexample : (Renaming.swap [] [] "foo".toList "roll".toList).Apart ∧
    (Renaming.swap [] [] "foo".toList "roll".toList).Keeps librarySigs ∧
    compile {} Char.isDigit "function: foo { result: 1 } output [absolute [foo]]".toList =
      .ok "@anydice_casting()\ndef foo():\n  return 1\n\noutput(absolute_X(foo()))\n".toList ∧
    compile {} Char.isDigit "function: roll { result: 1 } output [absolute [roll]]".toList = .error (.resolver .unknownFunction) := by
  refine ⟨swap_apart _ _ _ _, keeps_of (by decide +kernel), ?_, ?_⟩ <;> (rw [compile, Yacc.tables_eq]; decide +kernel)

/-- Both names must stay different: `A: 1  B: 2  output A`, with `B` called `A`. -/
example : run ⟨true, false, true⟩ 11 ((⟨fun _ => "A".toList, id⟩ : Renaming).block
    (.cons (.assign "A".toList (.num "1".toList)) (.cons (.assign "B".toList (.num "2".toList)) (.cons (.output (.var "A".toList)) .nil)))) {} ≠
    run ⟨true, false, true⟩ 11
      (.cons (.assign "A".toList (.num "1".toList)) (.cons (.assign "B".toList (.num "2".toList)) (.cons (.output (.var "A".toList)) .nil))) {} := by
  intro h
  have := congrArg (fun r => r.1) h
  revert this
  decide +kernel

end PythonDice
