import Verif.Proofs.Sequel
import Verif.Props.Replay

/-!
# One program after another
-/

namespace PythonDice

open Spec Compiler Lexer
open Spec.Py (ReadsProgram)

/-- **C84** (src/parser/parse_and_exec.py:125-135, src/utils/python_resolver.py:137-139): two programs, one written after the other, where the second
uses no variable and no function of the first.  If the first succeeds, the outputs are those of the first and then those of the second, as if it had been
run alone in the state that the first one leaves; if the second fails, the whole fails with the same exception; and the state afterwards is that after
the second, but for the outputs. -/
theorem C84_then (R : Rules) (n : ℕ) {b c : Block} (hr : noResultB b = true) (hi : Independent b c) {w : World} {o : List (Obj × Option PyText)}
    (h : (run R n b w).1 = .ok o) :
    (run R n (follow b c) w).1 = (run R n c (run R n b w).2).1.map (o ++ ·) ∧
      { (run R n (follow b c) w).2 with outs := [] } = { (run R n c (run R n b w).2).2 with outs := [] } := by
  rw [follow_run hr hi h]
  exact ⟨rfl, rfl⟩

/-- C84. If the first program fails, so does the whole, in the same way; the second is not begun. -/
theorem C84_fails (R : Rules) (n : ℕ) {b c : Block} {w : World} {e : Err} (h : (run R n b w).1 = .error e) : run R n (follow b c) w = run R n b w :=
  follow_fails h

/-- C84. If the first program sets nothing besides, the outputs of the second are what it gives alone. -/
theorem C84_alone (R : Rules) (n : ℕ) {b c : Block} (hr : noResultB b = true) (hi : Independent b c) (hb : SetsNothing b) (hc : LeavesZeros c)
    {z : Bool} {w : World} (hw : History z w) {o : List (Obj × Option PyText)} (h : (run R n b w).1 = .ok o) :
    (run R n (follow b c) w).1 = (run R n c w).1.map (o ++ ·) := by
  rw [(C84_then R n hr hi h).1]
  have := C76_after_success R n hc (ps := [b]) (fun p hp => by rw [List.mem_singleton.1 hp]; exact hb) hw ⟨⟨o, h⟩, trivial⟩
  exact congrArg (Except.map (o ++ ·)) this

/-- C84. Programs that need nothing of each other and set nothing can be exchanged: so are their outputs. -/
theorem C84_exchange (R : Rules) (n : ℕ) {b c : Block} (hrb : noResultB b = true) (hrc : noResultB c = true) (hbc : Independent b c)
    (hcb : Independent c b) (hb : SetsNothing b) (hc : SetsNothing c) {z : Bool} {w : World} (hw : History z w)
    {o p : List (Obj × Option PyText)} (ho : (run R n b w).1 = .ok o) (hp : (run R n c w).1 = .ok p) :
    (run R n (follow b c) w).1 = .ok (o ++ p) ∧ (run R n (follow c b) w).1 = .ok (p ++ o) := by
  rw [C84_alone R n hrb hbc hb hc.leaves hw ho, C84_alone R n hrc hcb hc hb.leaves hw hp, ho, hp]
  exact ⟨rfl, rfl⟩

/-! ## Texts -/

theorem blockToks_follow (b c : Block) : blockToks (follow b c) = blockToks b ++ blockToks c := by
  match b with
  | .nil => rfl
  | .cons s b => rw [follow, blockToks, blockToks, blockToks_follow b c, List.append_assoc]

theorem writtenB_follow (b c : Block) (hb : WrittenB b) (hc : WrittenB c) : WrittenB (follow b c) := by
  match b with
  | .nil => exact hc
  | .cons s b =>
    rw [WrittenB] at hb
    rw [follow, WrittenB]
    exact ⟨hb.1, writtenB_follow b c hb.2 hc⟩

theorem obs_lines {s t : List Char} (hs : reports Char.isDigit s = []) :
    obs Char.isDigit .initial (s ++ '\n' :: t) =
      ((obs Char.isDigit .initial s).1 ++ (obs Char.isDigit .initial t).1, (obs Char.isDigit .initial t).2) := by
  obtain ⟨h1, h2⟩ := obs_of_reports hs
  rw [obs_append asciiDigits_isDigit (by unfold Lexer.Boundary; simp) t .initial s h1 h2, obs_newline asciiDigits_isDigit]

/-- C84. The text of the one, a new line and the text of the other are the text of the one after the other. -/
theorem C84_source {s t : List Char} {b c : Block} (hs : reports Char.isDigit s = []) (ht : reports Char.isDigit t = [])
    (hb : SourceOf (tokens Char.isDigit s) b) (hc : SourceOf (tokens Char.isDigit t) c) :
    reports Char.isDigit (s ++ '\n' :: t) = [] ∧ SourceOf (tokens Char.isDigit (s ++ '\n' :: t)) (follow b c) := by
  have h := obs_lines (t := t) hs
  obtain ⟨h1, h2⟩ := obs_of_reports ht
  have e : tokens Char.isDigit (s ++ '\n' :: t) = tokens Char.isDigit s ++ tokens Char.isDigit t := congrArg Prod.fst h
  refine ⟨reports_nil ?_, ?_, writtenB_follow b c hb.2 hc.2⟩
  · rw [h]
    exact Prod.ext h1 h2
  · rw [blockToks_follow, hb.1, hc.1, e]

theorem stmtIn_left {st : Stmt} : ∀ {b : Block} (c : Block), StmtIn st b → StmtIn st (follow b c)
  | _, c, .head _ b => .head st (follow b c)
  | _, c, .tail h => .tail (stmtIn_left c h)
  | _, _, .function h => .function h
  | _, _, .loop h => .loop h
  | _, _, .cond h => .cond h
  | _, _, .condRest h => .condRest h

theorem stmtIn_right {st : Stmt} {c : Block} (h : StmtIn st c) : ∀ b : Block, StmtIn st (follow b c)
  | .nil => h
  | .cons _ b => .tail (stmtIn_right h b)

theorem stmtIn_follow {st : Stmt} {c : Block} : ∀ {b : Block}, StmtIn st (follow b c) → StmtIn st b ∨ StmtIn st c
  | .nil, h => .inr h
  | .cons s b, h => by
    rw [follow] at h
    cases h with
    | head => exact .inl (.head _ _)
    | tail h => exact (stmtIn_follow h).imp .tail id
    | function h => exact .inl (.function h)
    | loop h => exact .inl (.loop h)
    | cond h => exact .inl (.cond h)
    | condRest h => exact .inl (.condRest h)

theorem defines_follow {b c : Block} {q : Sig} : Defines (follow b c) q ↔ Defines b q ∨ Defines c q := by
  constructor
  · rintro ⟨d, body, h, e⟩
    exact (stmtIn_follow h).imp (fun h => ⟨d, body, h, e⟩) fun h => ⟨d, body, h, e⟩
  · rintro (⟨d, body, h, e⟩ | ⟨d, body, h, e⟩)
    · exact ⟨d, body, stmtIn_left c h, e⟩
    · exact ⟨d, body, stmtIn_right h b, e⟩

theorem protected_follow {b c : Block} : DefinesProtected (follow b c) ↔ DefinesProtected b ∨ DefinesProtected c := by
  unfold DefinesProtected
  simp only [defines_follow]
  constructor
  · rintro ⟨s, hs, h | h⟩
    · exact .inl ⟨s, hs, h⟩
    · exact .inr ⟨s, hs, h⟩
  · rintro (⟨s, hs, h⟩ | ⟨s, hs, h⟩)
    · exact ⟨s, hs, .inl h⟩
    · exact ⟨s, hs, .inr h⟩

theorem calls_follow {b c : Block} {q : Sig} (h : Calls (follow b c) q) : Calls b q ∨ Calls c q := by
  obtain ⟨st, e, cs, h1, h2⟩ := h
  exact (stmtIn_follow h1).imp (fun h => ⟨st, e, cs, h, h2⟩) fun h => ⟨st, e, cs, h, h2⟩

theorem source_unique {ts : List Token} {b c : Block} (hb : SourceOf ts b) (hc : SourceOf ts c) : b = c :=
  C57_unambiguous hb.2 hc.2 (hb.1.trans hc.1.symm)

/-- C84, partial: two texts that the compiler accepts are accepted one after the other.  Missing: programs that define a function with a protected name
(`C84_accepts_counterexample`). -/
theorem C84_accepts_partial (fl : Flags) {s t x y : List Char} {b c : Block} (hs : compile fl Char.isDigit s = .ok x)
    (ht : compile fl Char.isDigit t = .ok y) (hb : SourceOf (tokens Char.isDigit s) b) (hc : SourceOf (tokens Char.isDigit t) c)
    (hp : ¬ DefinesProtected b) (hq : ¬ DefinesProtected c) : ∃ u, compile fl Char.isDigit (s ++ '\n' :: t) = .ok u := by
  obtain ⟨h1, h2, b', h3, h4, h5, h6⟩ := (C59_accepts fl _ s).1 ⟨x, hs⟩
  obtain ⟨g1, g2, c', g3, g4, g5, g6⟩ := (C59_accepts fl _ t).1 ⟨y, ht⟩
  obtain rfl := source_unique h3 hb
  obtain rfl := source_unique g3 hc
  obtain ⟨k1, k2⟩ := C84_source h2 g2 hb hc
  refine (C59_accepts fl _ _).2 ⟨fun h => h1 fun c hc => h c (List.mem_append_left _ hc), k1, _, k2, fun d body h => ?_, ?_, fun he q hq' => ?_⟩
  · exact (stmtIn_follow h).elim (h4 d body) (g4 d body)
  · exact h5.imp (fun ⟨e, h⟩ => ⟨e, stmtIn_left _ h⟩) fun ⟨e, n, h⟩ => ⟨e, n, stmtIn_left _ h⟩
  · rw [defines_follow, protected_follow]
    rcases calls_follow hq' with h | h
    · rcases h6 he q h with h | ⟨m1, m2, _⟩
      · exact .inl (.inl h)
      · exact .inr ⟨m1, m2, fun h => h.elim hp hq⟩
    · rcases g6 he q h with h | ⟨m1, m2, _⟩
      · exact .inl (.inr h)
      · exact .inr ⟨m1, m2, fun h => h.elim hp hq⟩

theorem noResultB_follow (b c : Block) : noResultB (follow b c) = (noResultB b && noResultB c) := by
  match b with
  | .nil => rfl
  | .cons s b => rw [follow, noResultB, noResultB, noResultB_follow b c, Bool.and_assoc]

theorem cleanB_follow (fl : Flags) (b c : Block) : cleanB fl (follow b c) = (cleanB fl b && cleanB fl c) := by
  match b with
  | .nil => rfl
  | .cons s b => rw [follow, cleanB, cleanB, cleanB_follow fl b c, Bool.and_assoc]

theorem freeB_follow (st : Style) (b c : Block) : freeB st true (follow b c) = (freeB st true b && freeB st true c) := by
  match b with
  | .nil => rfl
  | .cons s b => rw [follow, freeB, freeB, freeB_follow st b c, Bool.and_assoc]

theorem passFlags_plain (fl : Flags) {b : Block} (hn : NamesOK b) (h : ¬ DefinesProtected b) : passFlags fl b = fl := by
  unfold passFlags
  by_cases hl : fl.libConflict = true
  · rw [if_neg (not_collides_prefixed fl hl _)]
  · rw [if_neg]
    rw [collides_iff fl b hn (by simpa using hl)]
    exact h

/-- C84, partial: the texts that the compiler makes of two programs and of the one after the other.  What the last one outputs when Python executes it
is what the first outputs and then what the second outputs.  Missing: programs that set something, or define a function with a protected name, and what
is missing of C63. -/
theorem C84_text_partial (fl : Flags) {s t x y u : List Char} {b c : Block} (hs : compile fl Char.isDigit s = .ok x)
    (ht : compile fl Char.isDigit t = .ok y) (hu : compile fl Char.isDigit (s ++ '\n' :: t) = .ok u) (hb : SourceOf (tokens Char.isDigit s) b)
    (hc : SourceOf (tokens Char.isDigit t) c) (hbl : LiteralsIn PlainChar (tokens Char.isDigit s))
    (hcl : LiteralsIn PlainChar (tokens Char.isDigit t)) (hbc : cleanB fl b = true) (hcc : cleanB fl c = true)
    (hbr : noResultB b = true) (hcr : noResultB c = true) (hbf : freeB fl.style true b = true) (hcf : freeB fl.style true c = true)
    (hbp : ¬ DefinesProtected b) (hcp : ¬ DefinesProtected c) (hi : Independent b c) (hbs : SetsNothing b) (hcs : LeavesZeros c)
    {p q r : Py.Block} (hp : ReadsProgram x p) (hq : ReadsProgram y q) (hr : ReadsProgram u r) (n : ℕ) {z : Bool} {w : World} (hw : History z w)
    {o : List (Obj × Option PyText)} (ho : (Exec.unsafeExec n p w).1 = .ok o) :
    (Exec.unsafeExec n r w).1 = (Exec.unsafeExec n q w).1.map (o ++ ·) := by
  have r1 := ((C59_compile fl _ s x).1 hs).2.1
  have r2 := ((C59_compile fl _ t y).1 ht).2.1
  obtain ⟨_, k2⟩ := C84_source r1 r2 hb hc
  have e1 := passFlags_plain fl (source_names hb) hbp
  have e2 := passFlags_plain fl (source_names hc) hcp
  have e3 := passFlags_plain fl (source_names k2) (fun h => (protected_follow.1 h).elim hbp hcp)
  have el : tokens Char.isDigit (s ++ '\n' :: t) = tokens Char.isDigit s ++ tokens Char.isDigit t := congrArg Prod.fst (obs_lines r1)
  obtain ⟨d1, h1⟩ := C63_run_partial fl hs hb hbl (by rw [e1]; exact hbc) hbr (by rw [e1]; exact hbf) hp n w
  obtain ⟨d2, h2⟩ := C63_run_partial fl ht hc hcl (by rw [e2]; exact hcc) hcr (by rw [e2]; exact hcf) hq n w
  obtain ⟨d3, h3⟩ := C63_run_partial fl hu k2 (by rw [el]; exact fun t ht => (List.mem_append.1 ht).elim (hbl t) (hcl t))
    (by rw [e3, cleanB_follow, hbc, hcc]; rfl) (by rw [noResultB_follow, hbr, hcr]; rfl) (by rw [e3, freeB_follow, hbf, hcf]; rfl) hr n w
  rw [h1, e1] at ho
  rw [h2, h3, e2, e3]
  exact C84_alone _ n hbr hi hbs hcs hw ho

/-! ## Cases -/

/-- `X: 2 function: twice A:n { result: A * 2 } output [twice X]` -/
def sequelFirst : Block :=
  .cons (.assign "X".toList (.num "2".toList))
  (.cons (.function [.word "twice".toList, .typed "A".toList "n".toList] (.cons (.result (.bin .mul (.var "A".toList) (.num "2".toList))) .nil))
  (.cons (.output (.call (.word "twice".toList (.arg (.var "X".toList) .nil)))) .nil))

/-- `X: 1d2 loop I over {1..2} { output X + I } output [absolute X]` -/
def sequelSecond : Block :=
  .cons (.assign "X".toList (.ndm (.num "1".toList) (.num "2".toList)))
  (.cons (.loop "I".toList (.seq (.range (.num "1".toList) (.num "2".toList) .nil)) (.cons (.output (.bin .add (.var "X".toList) (.var "I".toList))) .nil))
  (.cons (.output (.call (.word "absolute".toList (.arg (.var "X".toList) .nil)))) .nil))

/-- Both may use the variable `X`, since each gives it a value first. -/
example : Independent sequelFirst sequelSecond ∧ Independent sequelSecond sequelFirst ∧ noResultB sequelFirst = true ∧ noResultB sequelSecond = true ∧
    SetsNothing sequelFirst ∧ SetsNothing sequelSecond ∧ History false {} := by
  refine ⟨?_, ?_, ?_, ?_, ?_, ?_, History.init {} rfl⟩ <;> decide +kernel

example : (run ⟨false, true, true⟩ 11 (follow sequelFirst sequelSecond) {}).1 =
    .ok [(.num 4, none), (.rv ⟨[2, 3], [1, 1], none⟩, none), (.rv ⟨[3, 4], [1, 1], none⟩, none), (.rv ⟨[1, 2], [1, 1], none⟩, none)] := by
  decide +kernel

/-- The texts, the second after the first, and what they are compiled to. -/
example : compile {} Char.isDigit ("X: 2 function: twice A:n { result: A * 2 } output [twice X]".toList ++ '\n' :: "X: d2 output X".toList) =
    .ok ("X = 2\n@anydice_casting()\ndef twice_X(A: T_N):\n  return A * 2\n\noutput(twice_X(X))\nX = roll(2)\noutput(X)\n").toList := by
  rw [compile, Yacc.tables_eq]
  decide +kernel

/-- `X: 1 output X`, `output X`: the second alone fails, after the first it does not. -/
theorem C84_variable_counterexample :
    let b : Block := .cons (.assign "X".toList (.num "1".toList)) (.cons (.output (.var "X".toList)) .nil)
    let c : Block := .cons (.output (.var "X".toList)) .nil
    (run ⟨false, true, true⟩ 11 (follow b c) {}).1 = .ok [(.num 1, none), (.num 1, none)] ∧
      (run ⟨false, true, true⟩ 11 c (run ⟨false, true, true⟩ 11 b {}).2).1 = .error .name ∧ ¬ Independent b c := by
  refine ⟨?_, ?_, ?_⟩ <;> decide +kernel

/-- `function: absolute A { result: 7 } output 1`, `output [absolute 3]`: after the first the second calls its function instead of that of the
library. -/
theorem C84_function_counterexample :
    let b : Block := .cons (.function [.word "absolute".toList, .param "A".toList] (.cons (.result (.num "7".toList)) .nil))
      (.cons (.output (.num "1".toList)) .nil)
    let c : Block := .cons (.output (.call (.word "absolute".toList (.arg (.num "3".toList) .nil)))) .nil
    (run ⟨false, true, true⟩ 11 (follow b c) {}).1 = .ok [(.num 1, none), (.num 7, none)] ∧
      (run ⟨false, true, true⟩ 11 c (run ⟨false, true, true⟩ 11 b {}).2).1 = .ok [(.num 3, none)] ∧ ¬ Independent b c := by
  refine ⟨?_, ?_, ?_⟩ <;> decide +kernel

/-- `X: 1 output X`, `function: f { result: X } output [f]`: the function of the second reads the variable of the first. -/
theorem C84_free_counterexample :
    let b : Block := .cons (.assign "X".toList (.num "1".toList)) (.cons (.output (.var "X".toList)) .nil)
    let c : Block := .cons (.function [.word "f".toList] (.cons (.result (.var "X".toList)) .nil))
      (.cons (.output (.call (.word "f".toList .nil))) .nil)
    (run ⟨false, true, true⟩ 11 (follow b c) {}).1 = .ok [(.num 1, none), (.num 1, none)] ∧
      (run ⟨false, true, true⟩ 11 c (run ⟨false, true, true⟩ 11 b {}).2).1 = .error .name ∧ ¬ Independent b c := by
  refine ⟨?_, ?_, ?_⟩ <;> decide +kernel

/-- A function called `roll` in the first program makes the compiler reject calls of the library in the second. -/
theorem C84_accepts_counterexample :
    (∃ x, compile {} Char.isDigit "function: roll { result: 3 } output [roll]".toList = .ok x) ∧
    (∃ y, compile {} Char.isDigit "output [absolute 3]".toList = .ok y) ∧
    ¬ ∃ u, compile {} Char.isDigit ("function: roll { result: 3 } output [roll]".toList ++ '\n' :: "output [absolute 3]".toList) = .ok u := by
  have ok : ∀ {r : Except CompileErr (List Char)}, r.toOption.isSome = true → ∃ x, r = .ok x := by
    intro r h
    cases r with
    | error => cases h
    | ok x => exact ⟨x, rfl⟩
  refine ⟨ok ?_, ok ?_, ?_⟩
  · rw [compile, Yacc.tables_eq]
    decide +kernel
  · rw [compile, Yacc.tables_eq]
    decide +kernel
  · rintro ⟨u, hu⟩
    have : (compile {} Char.isDigit ("function: roll { result: 3 } output [roll]".toList ++ '\n' :: "output [absolute 3]".toList)).toOption.isSome = false := by
      rw [compile, Yacc.tables_eq]
      decide +kernel
    rw [hu] at this
    cases this

end PythonDice
