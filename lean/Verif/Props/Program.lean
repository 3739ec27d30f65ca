import Verif.Proofs.Program
import Verif.Props.Compile

/-!
# C62: Python reads the generated text as the program
-/

namespace PythonDice

open Compiler Spec Lexer
open Spec.Py (ReadsProgram readProgram readBlock isName noElse)

/-- A part of a definition can be read: its type is a name in Python. -/
def cleanPart : DefPart → Bool
  | .typed _ t => isName (annotate t)
  | _ => true

mutual

/-- The conditions of `clean` for all expressions of a statement; the names of functions and types are names in Python. -/
def cleanS (fl : Flags) : Stmt → Bool
  | .output e => allSub (clean fl) e
  | .outputNamed e _ => allSub (clean fl) e
  | .set _ v => allSub (clean fl) v
  | .function d body => isName (pyName fl.libConflict (defSig d)) && d.all cleanPart && cleanB fl body
  | .result e => allSub (clean fl) e
  | .cond c b r => allSub (clean fl) c && cleanB fl b && cleanE fl r
  | .loop _ e b => allSub (clean fl) e && cleanB fl b
  | .assign _ e => allSub (clean fl) e

/-- The same of a block. -/
def cleanB (fl : Flags) : Block → Bool
  | .nil => true
  | .cons s b => cleanS fl s && cleanB fl b

/-- The same of alternatives. -/
def cleanE (fl : Flags) : Else → Bool
  | .done => true
  | .else_ b => cleanB fl b
  | .elif c b r => allSub (clean fl) c && cleanB fl b && cleanE fl r

end

theorem cleanPart_sound {d : List DefPart} (h : d.all cleanPart = true) : ∀ x t, DefPart.typed x t ∈ d → NameOK (annotate t) :=
  fun _ _ hm => nameOK_word (List.all_eq_true.1 h _ hm)

mutual

theorem readS_of (fl : Flags) (s : Stmt) (h1 : StmtOK Char.isDigit PlainChar s) (h2 : WrittenS s)
    (h3 : ∀ d body, StmtIn (.function d body) (.cons s .nil) → RepeatsTyped (params d)) (h4 : cleanS fl s = true) : ReadS fl s := by
  match s with
  | .output e =>
    rw [ReadS]
    exact readable fl e (grammatical_of_written e (exprOf_written (.output e) h2)) (exprOf_ok (.output e) h1) (by rw [cleanS] at h4; exact h4)
  | .outputNamed e m =>
    rw [ReadS]
    rw [StmtOK] at h1
    exact ⟨readable fl e (grammatical_of_written e (exprOf_written (.outputNamed e m) h2)) h1.1 (by rw [cleanS] at h4; exact h4), h1.2⟩
  | .set m v =>
    rw [ReadS]
    rw [StmtOK] at h1
    exact ⟨readable fl v (grammatical_of_written v (exprOf_written (.set m v) h2)) h1.2 (by rw [cleanS] at h4; exact h4), h1.1⟩
  | .function d body =>
    rw [ReadS]
    rw [StmtOK] at h1
    rw [cleanS, Bool.and_eq_true, Bool.and_eq_true] at h4
    refine ⟨nameOK_word h4.1.1, ⟨h1.1, h3 d body (.head _ _), cleanPart_sound h4.1.2⟩, ?_⟩
    exact readB_of fl body h1.2 (by rw [WrittenS] at h2; exact h2.2.2) (fun d' b' hm => h3 d' b' (.function hm)) h4.2
  | .result e =>
    rw [ReadS]
    exact readable fl e (grammatical_of_written e (exprOf_written (.result e) h2)) (exprOf_ok (.result e) h1) (by rw [cleanS] at h4; exact h4)
  | .cond c b r =>
    rw [ReadS]
    rw [StmtOK] at h1
    rw [cleanS, Bool.and_eq_true, Bool.and_eq_true] at h4
    have h2' := h2
    rw [WrittenS] at h2
    exact ⟨readable fl c (grammatical_of_written c (exprOf_written (.cond c b r) h2')) h1.1 h4.1.1,
      readB_of fl b h1.2.1 h2.2.1 (fun d' b' hm => h3 d' b' (.cond hm)) h4.1.2,
      readE_of fl r h1.2.2 h2.2.2 (fun d' b' hm => h3 d' b' (.condRest hm)) h4.2⟩
  | .loop x e b =>
    rw [ReadS]
    rw [StmtOK] at h1
    rw [cleanS, Bool.and_eq_true] at h4
    have h2' := h2
    rw [WrittenS] at h2
    exact ⟨h1.1, readable fl e (grammatical_of_written e (exprOf_written (.loop x e b) h2')) h1.2.1 h4.1,
      readB_of fl b h1.2.2 h2.2 (fun d' b' hm => h3 d' b' (.loop hm)) h4.2⟩
  | .assign x e =>
    rw [ReadS]
    rw [StmtOK] at h1
    exact ⟨h1.1, readable fl e (grammatical_of_written e (exprOf_written (.assign x e) h2)) h1.2 (by rw [cleanS] at h4; exact h4)⟩

theorem readB_of (fl : Flags) (b : Block) (h1 : BlockOK Char.isDigit PlainChar b) (h2 : WrittenB b)
    (h3 : ∀ d body, StmtIn (.function d body) b → RepeatsTyped (params d)) (h4 : cleanB fl b = true) : ReadB fl b := by
  match b with
  | .nil => trivial
  | .cons s b =>
    rw [ReadB]
    rw [BlockOK] at h1
    rw [WrittenB] at h2
    rw [cleanB, Bool.and_eq_true] at h4
    refine ⟨readS_of fl s h1.1 h2.1 (fun d body hm => h3 d body ?_) h4.1, readB_of fl b h1.2 h2.2 (fun d body hm => h3 d body (.tail hm)) h4.2⟩
    cases hm with
    | head => exact .head _ _
    | tail h => cases h
    | function h => exact .function h
    | loop h => exact .loop h
    | cond h => exact .cond h
    | condRest h => exact .condRest h

theorem readE_of (fl : Flags) (r : Else) (h1 : ElseOK Char.isDigit PlainChar r) (h2 : WrittenR r)
    (h3 : ∀ d body, StmtInElse (.function d body) r → RepeatsTyped (params d)) (h4 : cleanE fl r = true) : ReadE fl r := by
  match r with
  | .done => trivial
  | .else_ b =>
    rw [ReadE]
    rw [ElseOK] at h1
    rw [WrittenR] at h2
    rw [cleanE] at h4
    exact readB_of fl b h1 h2 (fun d body hm => h3 d body (.else_ hm)) h4
  | .elif c b r =>
    rw [ReadE]
    rw [ElseOK] at h1
    rw [WrittenR] at h2
    rw [cleanE, Bool.and_eq_true, Bool.and_eq_true] at h4
    exact ⟨readable fl c (grammatical_of_written c h2.1) h1.1 h4.1.1, readB_of fl b h1.2.1 h2.2.1 (fun d body hm => h3 d body (.elif hm)) h4.1.2,
      readE_of fl r h1.2.2 h2.2.2 (fun d body hm => h3 d body (.rest hm)) h4.2⟩

end

/-- With enough steps only one program is read. -/
theorem readsProgram_iff {t : List Char} {p : Py.Block} (h : ReadsProgram t p) (q : Py.Block) : ReadsProgram t q ↔ q = p := by
  constructor
  · rintro ⟨M, hM⟩
    obtain ⟨N, hN⟩ := h
    have h1 := hM (N + M) (by omega)
    rw [hN (N + M) (by omega)] at h1
    exact (Option.some.inj h1).symm
  · rintro rfl
    exact h

/-- The tree of a text. -/
theorem compile_tree {fl : Flags} {dig : Char → Bool} {s t : List Char} {b : Block} (h : compile fl dig s = .ok t)
    (hs : SourceOf (tokens dig s) b) : resolve fl b = .ok t := by
  obtain ⟨_, _, c, hc, hr⟩ := (C59_compile fl dig s t).1 h
  rw [C57_unambiguous hs.2 hc.2 (hs.1.trans hc.1.symm)]
  exact hr

/-- **C62** (src/parser/python_resolver.py:47-295, src/parser/parse_and_exec.py:76-86), partial: the text that a program is compiled to is read by
Python as this program: the same statements in the same order, with the same blocks under them, every expression as it was meant, every
definition with its parameters and their types, and with variables in a dictionary that functions copy if the flag NON_LOCAL_SCOPE is set.
Missing: literals with characters that mean something else in an f-string, operands that Python groups in another way (C35), names of functions
and types that are keywords of Python, and `result:` outside of functions. -/
theorem C62_reads_partial (fl : Flags) {s t : List Char} {b : Block} (h : compile fl Char.isDigit s = .ok t)
    (hs : SourceOf (tokens Char.isDigit s) b) (hlit : LiteralsIn PlainChar (tokens Char.isDigit s)) (hc : cleanB (passFlags fl b) b = true)
    (hr : noResultB b = true) (p : Py.Block) : ReadsProgram t p ↔ p = meanP (passFlags fl b).style b := by
  refine readsProgram_iff ?_ p
  have hres := compile_tree h hs
  have hform : ∀ lit : Char → Prop, LiteralsIn lit (tokens Char.isDigit s) → BlockOK Char.isDigit lit b := fun lit hl =>
    blockOK_of_formed b hs.2 ⟨by rw [hs.1]; exact fun _ ht => form_of_tokens ht, by rw [hs.1]; exact hl⟩
  have hline : LiteralsIn LineChar (tokens Char.isDigit s) := fun t ht k c hc => ⟨(hlit t ht k c hc).1, (hlit t ht k c hc).2.1⟩
  have hfile := C40_blocks_partial asciiDigits_isDigit fl b (hform _ hline) t hres
  have hemit : ∃ ls, b.emit (passFlags fl b) = .ok ls := by
    obtain ⟨r, hr, _⟩ := resolve_pass hres
    obtain ⟨⟨ls, hls, _⟩, _⟩ := resolveOnce_ok hr
    exact ⟨ls, hls⟩
  have hread := readB_of (passFlags fl b) b (hform _ hlit) hs.2 ((C41_programs _ b (source_params hs)).1 hemit) hc
  obtain ⟨N, hN⟩ := ev_program _ b hread hr
  refine ⟨N, fun n hn => ?_⟩
  have := hN n hn
  simp only at this
  rw [passFlags_nonLocal] at this
  rw [readProgram, hfile, Option.bind_some, this]
  rfl

/-- A program with most kinds of statements, its tree and how Python reads the text it is compiled to. -/
def progText : List Char :=
  "function: twice A:n B { result: A*2 + B } X: 3 loop I over {1..X, 5} { if I > 2 { output 2d6 + I named \"a[I]b\" } else { } } output [twice 4 X]".toList

/-- Its tree. -/
def progTree : Block :=
  .cons (.function [.word "twice".toList, .typed "A".toList "n".toList, .param "B".toList]
    (.cons (.result (.bin .add (.bin .mul (.var "A".toList) (.num "2".toList)) (.var "B".toList))) .nil))
  (.cons (.assign "X".toList (.num "3".toList))
  (.cons (.loop "I".toList (.seq (.range (.num "1".toList) (.var "X".toList) (.expr (.num "5".toList) .nil)))
    (.cons (.cond (.bin .gt (.var "I".toList) (.num "2".toList))
      (.cons (.outputNamed (.bin .add (.ndm (.num "2".toList) (.num "6".toList)) (.var "I".toList))
        [.text "a".toList, .var "I".toList, .text "b".toList]) .nil)
      (.else_ .nil)) .nil))
  (.cons (.output (.call (.word "twice".toList (.arg (.num "4".toList) (.arg (.var "X".toList) .nil))))) .nil)))

theorem progTree_source : SourceOf (tokens Char.isDigit progText) progTree := by
  refine ⟨by decide +kernel, ?_⟩
  have h1 : ∀ d ∈ [DefPart.word "twice".toList, .typed "A".toList "n".toList, .param "B".toList], TypeOK d := by
    intro d hd
    simp only [List.mem_cons, List.not_mem_nil, or_false] at hd
    rcases hd with rfl | rfl | rfl
    · trivial
    · exact .inr (by decide +kernel)
    · trivial
  have h2 : Separate (.num "4".toList) (firstKind (.var "X".toList)) := by unfold Separate; decide +kernel
  simp [progTree, WrittenB, WrittenS, WrittenR, Written, WrittenE, WrittenC, Spec.FirstOK, SeparateNext, level, opLevel, h1]
  simpa using h2

theorem progText_plain : LiteralsIn PlainChar (tokens Char.isDigit progText) := by
  have : ∀ t ∈ tokens Char.isDigit progText, ∀ c ∈ t.value, c ≠ '\n' ∧ c ≠ '\r' ∧ c ≠ '\x00' ∧ (t.kind = .instringAny → c ≠ '"') ∧
      (t.kind = .instringNonvar → c ≠ '"') ∧ c ≠ '\\' := by decide +kernel
  intro t ht k c hc
  obtain ⟨h1, h2, h3, h4, h5, h6⟩ := this t ht c hc
  exact ⟨h1, h2, h3, k.elim h4 h5, h6⟩

/-- The text it is compiled to, with variables in a dictionary. -/
theorem progText_compiles : compile { nonLocal := true } Char.isDigit progText =
    .ok ("vars = {}\n\n@anydice_casting()\ndef twice_X_X(A: T_N, B, vars):\n  vars = vars.copy(); vars[\"A\"] = A; vars[\"B\"] = B\n" ++
      "  return vars['A'] * 2 + vars['B']\n\nvars['X'] = 3\nfor I in get_seq([myrange(1, vars['X']), 5]):\n  vars['I'] = I\n" ++
      "  if vars['I'] > 2:\n    output(roll(2, 6) + vars['I'], named=f\"a{vars['I']}b\")\n  else:\n    pass\n  \n" ++
      "output(twice_X_X(4, vars['X'], vars))\n").toList := by
  rw [compile, Yacc.tables_eq]
  decide +kernel

example {t : List Char} (h : compile { nonLocal := true } Char.isDigit progText = .ok t) :
    ReadsProgram t (meanP ⟨true, false, false⟩ progTree) :=
  (C62_reads_partial _ h progTree_source progText_plain (by decide +kernel) (by decide +kernel) _).2 (by decide +kernel)

example : meanS ⟨true, false, false⟩ (.function [.word "twice".toList, .typed "A".toList "n".toList, .param "B".toList]
    (.cons (.result (.bin .add (.bin .mul (.var "A".toList) (.num "2".toList)) (.var "B".toList))) .nil)) =
    .def_ true "twice_X_X".toList [("A".toList, some "T_N".toList), ("B".toList, none), ("vars".toList, none)]
      (.cons (.copyDict "vars".toList)
      (.cons (.setItem "vars".toList "A".toList (.name "A".toList))
      (.cons (.setItem "vars".toList "B".toList (.name "B".toList))
      (.cons (.ret (.bin "+".toList (.bin "*".toList (.index (.name "vars".toList) (.str "A".toList)) (.int "2".toList))
        (.index (.name "vars".toList) (.str "B".toList)))) .nil)))) := by
  decide +kernel

/-- `result:` outside of functions is accepted and becomes a syntax error of Python. -/
theorem C62_result_counterexample : compile {} Char.isDigit "output 1 result: 5".toList = .ok "output(1)\nreturn 5\n".toList ∧
    ∀ p, ¬ ReadsProgram "output(1)\nreturn 5\n".toList p := by
  constructor
  · rw [compile, Yacc.tables_eq]
    decide +kernel
  · rintro p ⟨N, hN⟩
    have h := hN N (le_refl N)
    have e : Py.readFile "output(1)\nreturn 5\n".toList = some (leaf "output(1)".toList (leaf "return 5".toList .nil)) := rfl
    have e2 : readBlock N false (leaf "return 5".toList .nil) = none := rfl
    rw [readProgram, e, Option.bind_some, leaf, readBlock, e2] at h
    cases h

/-- Words that are keywords of Python are accepted as names of functions, and become syntax errors. -/
theorem C62_keyword_counterexample :
    compile {} Char.isDigit "output 1 function: class { result: 5 }".toList =
      .ok "output(1)\n@anydice_casting()\ndef class():\n  return 5\n".toList ∧
    ∀ p, ¬ ReadsProgram "output(1)\n@anydice_casting()\ndef class():\n  return 5\n".toList p := by
  constructor
  · rw [compile, Yacc.tables_eq]
    decide +kernel
  · rintro p ⟨N, hN⟩
    have h := hN N (le_refl N)
    have e : Py.readFile "output(1)\n@anydice_casting()\ndef class():\n  return 5\n".toList =
      some (leaf "output(1)".toList (leaf "@anydice_casting()".toList (.cons (.node "def class():".toList (leaf "return 5".toList .nil)) .nil))) := rfl
    have e2 : readBlock N false (.cons (.node "def class():".toList (leaf "return 5".toList .nil)) .nil) = none := rfl
    have e3 : readBlock N false (leaf "@anydice_casting()".toList (.cons (.node "def class():".toList (leaf "return 5".toList .nil)) .nil)) = none := by
      rw [leaf, readBlock, e2]
      rfl
    have e4 : ∀ f, readBlock N false f = none → readBlock N false (leaf "output(1)".toList f) = none := by
      intro f hf
      rw [leaf, readBlock, hf]
      rfl
    rw [readProgram, e, Option.bind_some, e4 _ e3] at h
    cases h

end PythonDice
