import Verif.Proofs.Inline
import Verif.Props.Given

/-!
# A call stands for the body of the function (C93)
-/

namespace PythonDice

open Spec Compiler Lexer
open Spec.Py (ReadsProgram)

/-- **C93** (src/decorators.py:10-158, src/parser/parse_and_exec.py:131-140): a call of a function `{ result: e }` stands for the expression, in which each parameter
is replaced by its argument in parentheses, all at once. The call can be the expression of an output, of a definition, of a condition or of a loop: with the
expression in its place the program fails or not, in the same way, and outputs the same. The arguments must have values, without output, of the types of the
parameters; the expression may call functions of the library; functions must not be too deep. -/
theorem C93_inline (R : Rules) (n : ℕ) {a₁ a₂ c : Block} {d : List DefPart} {e : Expr} {cs : CallParts} (h : Hole)
    (hra : noResultB (follow a₁ (.cons (.function d (.cons (.result e) .nil)) a₂)) = true)
    (hsa : SetsNothing (follow a₁ (.cons (.function d (.cons (.result e) .nil)) a₂))) (hsig : callSig cs = defSig d) (hd : defSig d ∉ definesB a₂)
    (hlib : ∀ q ∈ callsE e, q ∉ definesB (follow a₁ (.cons (.function d (.cons (.result e) .nil)) a₂)))
    (hc : LeavesZeros (.cons (h.fill (.call cs)) c)) {z : Bool} {w : World} (hw : History z w) (hdep : w.settings.currDepth < w.settings.maxFuncDepth)
    (hargs : TakesArgs R (n + 1) (follow a₁ (.cons (.function d (.cons (.result e) .nil)) a₂)) w d cs) :
    (run R (n + 1) (follow (follow a₁ (.cons (.function d (.cons (.result e) .nil)) a₂)) (.cons (h.fill (inlined d e cs)) c)) w).1 =
      (run R (n + 1) (follow (follow a₁ (.cons (.function d (.cons (.result e) .nil)) a₂)) (.cons (h.fill (.call cs)) c)) w).1 :=
  inline_run hra hsa hsig hd hlib hc hw.memoPure hdep hargs

/-- C93, partial: the same of texts, compiled and executed by Python: `s` is the text with the call, `s'` the text with the expression.  Missing: what is missing of
C63, and functions with protected names. -/
theorem C93_text_partial (fl : Flags) {s s' : List Char} {a₁ a₂ c : Block} {d : List DefPart} {e : Expr} {cs : CallParts} (h : Hole) {p p' : Py.Block}
    (ct : Covered fl s (follow (follow a₁ (.cons (.function d (.cons (.result e) .nil)) a₂)) (.cons (h.fill (.call cs)) c)) p)
    (ct' : Covered fl s' (follow (follow a₁ (.cons (.function d (.cons (.result e) .nil)) a₂)) (.cons (h.fill (inlined d e cs)) c)) p')
    (hra : noResultB (follow a₁ (.cons (.function d (.cons (.result e) .nil)) a₂)) = true)
    (hsa : SetsNothing (follow a₁ (.cons (.function d (.cons (.result e) .nil)) a₂))) (hsig : callSig cs = defSig d) (hd : defSig d ∉ definesB a₂)
    (hlib : ∀ q ∈ callsE e, q ∉ definesB (follow a₁ (.cons (.function d (.cons (.result e) .nil)) a₂)))
    (hc : LeavesZeros (.cons (h.fill (.call cs)) c)) (n : ℕ) {z : Bool} {w : World} (hw : History z w)
    (hdep : w.settings.currDepth < w.settings.maxFuncDepth)
    (hargs : TakesArgs fl.style.rules (n + 1) (follow a₁ (.cons (.function d (.cons (.result e) .nil)) a₂)) w d cs) :
    (Exec.unsafeExec (n + 1) p' w).1 = (Exec.unsafeExec (n + 1) p w).1 := by
  rw [ct.exec, ct'.exec]
  exact C93_inline _ n h hra hsa hsig hd hlib hc hw hdep hargs

/-! ## Cases -/

/-- `B: 3` -/
def inlineStart : Block := .cons (.assign "B".toList (.num "3".toList)) .nil

/-- `add A to B` -/
def inlineName : List DefPart := [.word "add".toList, .param "A".toList, .word "to".toList, .typed "B".toList "d".toList]

/-- `[absolute A - B] * B` -/
def inlineBody : Expr :=
  .bin .mul (.call (.word "absolute".toList (.arg (.bin .sub (.var "A".toList) (.var "B".toList)) .nil))) (.var "B".toList)

/-- `add B to 1 d 2` -/
def inlineCall : CallParts :=
  .word "add".toList (.arg (.var "B".toList) (.word "to".toList (.arg (.ndm (.num "1".toList) (.num "2".toList)) .nil)))

/-- `B: 3 function: add A to B:d { result: [absolute A - B] * B }` -/
def inlineHead : Block := follow inlineStart (.cons (.function inlineName (.cons (.result inlineBody) .nil)) .nil)

/-- The parameters are replaced all at once: the `B` of the argument is the variable, not the parameter. -/
example : inlined inlineName inlineBody inlineCall =
    .bin .mul (.call (.word "absolute".toList (.arg (.bin .sub (.group (.var "B".toList)) (.group (.ndm (.num "1".toList) (.num "2".toList)))) .nil)))
      (.group (.ndm (.num "1".toList) (.num "2".toList))) := by
  rfl

theorem inline_takes : TakesArgs ⟨true, true, true⟩ 11 inlineHead {} inlineName inlineCall := by
  refine ⟨[], by decide +kernel, fun p hp => ?_⟩
  have e : (paramsOf inlineName).zip (argsOf inlineCall) =
      [(("A".toList, none), .var "B".toList), (("B".toList, some .D), .ndm (.num "1".toList) (.num "2".toList))] := by rfl
  rw [e, List.mem_cons, List.mem_singleton] at hp
  rcases hp with rfl | rfl
  · exact ⟨.num 3, rfl, by decide +kernel⟩
  · exact ⟨.rv ⟨[1, 2], [1, 1], none⟩, rfl, by decide +kernel⟩

example : noResultB inlineHead = true ∧ SetsNothing inlineHead ∧ callSig inlineCall = defSig inlineName ∧ defSig inlineName ∉ definesB .nil ∧
    (∀ q ∈ callsE inlineBody, q ∉ definesB inlineHead) ∧ LeavesZeros (.cons (Hole.output.fill (.call inlineCall)) .nil) ∧ History false {} ∧
    (({} : World).settings.currDepth < ({} : World).settings.maxFuncDepth) := by
  refine ⟨?_, ?_, ?_, ?_, ?_, ?_, History.init {} rfl, ?_⟩ <;> decide +kernel

example : (run ⟨true, true, true⟩ 11 (follow inlineHead (.cons (Hole.output.fill (.call inlineCall)) .nil)) {}).1 =
    .ok [(.rv ⟨[1, 2, 4], [1, 2, 1], none⟩, none)] ∧
    (run ⟨true, true, true⟩ 11 (follow inlineHead (.cons (Hole.output.fill (inlined inlineName inlineBody inlineCall)) .nil)) {}).1 =
      .ok [(.rv ⟨[1, 2, 4], [1, 2, 1], none⟩, none)] := by
  refine ⟨?_, ?_⟩ <;> decide +kernel

/-- `twice A` -/
def inlineTwice : List DefPart := [.word "twice".toList, .param "A".toList]

/-- `A + A` -/
def inlineSum : Expr := .bin .add (.var "A".toList) (.var "A".toList)

/-- `twice 2 d 2` -/
def inlineTwiceCall : CallParts := .word "twice".toList (.arg (.ndm (.num "2".toList) (.num "2".toList)) .nil)

/-- `function: twice A { result: A + A } output [twice 2 d 2]`, and with an expression in the place of the call -/
def inlineText (e : Expr) : Block :=
  follow (follow .nil (.cons (.function inlineTwice (.cons (.result inlineSum) .nil)) .nil)) (.cons (Hole.output.fill e) .nil)

theorem inlineText_written : WrittenB (inlineText (.call inlineTwiceCall)) ∧ WrittenB (inlineText (inlined inlineTwice inlineSum inlineTwiceCall)) := by
  refine ⟨?_, ?_⟩
  · simp [inlineText, inlineTwice, inlineSum, inlineTwiceCall, follow, Hole.fill, WrittenB, WrittenS, Written, WrittenC, Spec.FirstOK, SeparateNext, level, opLevel,
      TypeOK]
  · have e : inlined inlineTwice inlineSum inlineTwiceCall =
        .bin .add (.group (.ndm (.num "2".toList) (.num "2".toList))) (.group (.ndm (.num "2".toList) (.num "2".toList))) := by rfl
    rw [e]
    simp [inlineText, inlineTwice, inlineSum, follow, Hole.fill, WrittenB, WrittenS, Written, Spec.FirstOK, SeparateNext, level, opLevel, TypeOK]

/-- The texts `function: twice A { result: A + A } output [twice 2 d 2]` and `function: twice A { result: A + A } output (2 d 2) + (2 d 2)`. -/
theorem inline_covered : ∃ p p',
    Covered {} "function: twice A { result: A + A } output [twice 2 d 2]".toList (inlineText (.call inlineTwiceCall)) p ∧
    Covered {} "function: twice A { result: A + A } output (2 d 2) + (2 d 2)".toList (inlineText (inlined inlineTwice inlineSum inlineTwiceCall)) p' := by
  have h2 : ∃ p, Covered {} "function: twice A { result: A + A } output [twice 2 d 2]".toList (inlineText (.call inlineTwiceCall)) p :=
    given_covered (t := "@anydice_casting()\ndef twice_X(A):\n  return A + A\n\noutput(twice_X(roll(2, 2)))\n".toList)
      (by rw [compile, Yacc.tables_eq]; decide +kernel) inlineText_written.1 (by decide +kernel) (by decide +kernel) (by decide +kernel) (by decide +kernel)
      (by decide +kernel) (by unfold collides; decide +kernel) rfl
  have h3 : ∃ p, Covered {} "function: twice A { result: A + A } output (2 d 2) + (2 d 2)".toList
      (inlineText (inlined inlineTwice inlineSum inlineTwiceCall)) p :=
    given_covered (t := "@anydice_casting()\ndef twice_X(A):\n  return A + A\n\noutput((roll(2, 2)) + (roll(2, 2)))\n".toList)
      (by rw [compile, Yacc.tables_eq]; decide +kernel) inlineText_written.2 (by decide +kernel) (by decide +kernel) (by decide +kernel) (by decide +kernel)
      (by decide +kernel) (by unfold collides; decide +kernel) rfl
  obtain ⟨p, h2⟩ := h2
  obtain ⟨p', h3⟩ := h3
  exact ⟨p, p', h2, h3⟩

example : ∃ p p', Covered {} "function: twice A { result: A + A } output [twice 2 d 2]".toList (inlineText (.call inlineTwiceCall)) p ∧
    (Exec.unsafeExec 11 p' {}).1 = (Exec.unsafeExec 11 p {}).1 := by
  obtain ⟨p, p', h, h'⟩ := inline_covered
  refine ⟨p, p', h, C93_text_partial {} .output h h' (by decide +kernel) (by decide +kernel) (by decide +kernel) (by decide +kernel) (by decide +kernel)
    (by decide +kernel) 10 (History.init (z := false) {} rfl) (by decide +kernel) ⟨[], by decide +kernel, fun p hp => ?_⟩⟩
  have e : (paramsOf inlineTwice).zip (argsOf inlineTwiceCall) = [(("A".toList, none), .ndm (.num "2".toList) (.num "2".toList))] := by rfl
  rw [e, List.mem_singleton] at hp
  subst hp
  exact ⟨.rv ⟨[2, 3, 4], [1, 2, 1], some (2, [1, 2], [1, 1])⟩, rfl, by decide +kernel⟩

/-- The arguments must have the types of the parameters: with `function: sq A:n { result: A * A }` the call `[sq d2]` squares one roll, 1 or 4, and `(d2) * (d2)`
multiplies two. And if functions are already as deep as they may be, a call gives the blank die. -/
theorem C93_needed : let d : List DefPart := [.word "sq".toList, .typed "A".toList "n".toList]
    let e : Expr := .bin .mul (.var "A".toList) (.var "A".toList)
    let f : Block := .cons (.function d (.cons (.result e) .nil)) .nil
    let cs : CallParts := .word "sq".toList (.arg (.dm (.num "2".toList)) .nil)
    let three : CallParts := .word "sq".toList (.arg (.num "3".toList) .nil)
    (run ⟨false, true, true⟩ 11 (follow f (.cons (.output (.call cs)) .nil)) {}).1 = .ok [(.rv ⟨[1, 4], [1, 1], none⟩, none)] ∧
    (run ⟨false, true, true⟩ 11 (follow f (.cons (.output (inlined d e cs)) .nil)) {}).1 = .ok [(.rv ⟨[1, 2, 4], [1, 2, 1], none⟩, none)] ∧
    (run ⟨false, true, true⟩ 11 (follow f (.cons (.output (.call three)) .nil)) { settings := { currDepth := 10 } }).1 = .ok [(.blank false, none)] ∧
    (run ⟨false, true, true⟩ 11 (follow f (.cons (.output (inlined d e three)) .nil)) { settings := { currDepth := 10 } }).1 = .ok [(.num 9, none)] := by
  refine ⟨?_, ?_, ?_, ?_⟩ <;> decide +kernel

end PythonDice
