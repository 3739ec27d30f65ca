import Verif.Proofs.Simplify
import Verif.Props.Given

/-!
# Loops and conditions mean what they abbreviate (C94)
-/

namespace PythonDice

open Spec Compiler Lexer
open Spec.Py (ReadsProgram)

/-- **C94** (src/parser/python_resolver.py:119-134, 191-227, src/roller.py:130-135): parts of a program, anywhere in it, also in functions, can be written
otherwise: a loop over numbers as its body for each of them, `else if` as a condition in `else`, a condition with known value as the block that is done, numbers
for calculations with numbers, expressions without parentheses around them.  In any number of such steps, in both directions, the program does the same: its
outputs, or its error, and the state of the library after it. -/
theorem C94_rewritten (R : Rules) (n : ℕ) {b b' : Block} (h : Rewritten b b') (w : World) : run R n b' w = run R n b w := by rw [rewritten_run h]

/-- C94, partial: the same of texts, compiled and executed by Python.  Missing: what is missing of C63, and functions with protected names. -/
theorem C94_text_partial (fl : Flags) {s s' : List Char} {b b' : Block} {p p' : Py.Block} (ct : Covered fl s b p) (ct' : Covered fl s' b' p')
    (h : Rewritten b b') (n : ℕ) (w : World) : (Exec.unsafeExec n p' w).1 = (Exec.unsafeExec n p w).1 := by
  rw [ct.exec, ct'.exec, C94_rewritten _ _ h]

/-! ## Cases -/

mutual

theorem RewriteX.refl (e : Expr) : RewriteX e e := by
  match e with
  | .num n => exact .num n
  | .dec a b => exact .dec a b
  | .var x => exact .var x
  | .str ps => exact .str ps
  | .group e => exact .group (RewriteX.refl e)
  | .bin op a b => exact .bin op (RewriteX.refl a) (RewriteX.refl b)
  | .ndm a b => exact .ndm (RewriteX.refl a) (RewriteX.refl b)
  | .dm a => exact .dm (RewriteX.refl a)
  | .unary op a => exact .unary op (RewriteX.refl a)
  | .hash a => exact .hash (RewriteX.refl a)
  | .seq es => exact .seq (RewriteL.refl es)
  | .call cs => exact .call (RewriteC.refl cs)

theorem RewriteL.refl (es : Elems) : RewriteL es es := by
  match es with
  | .nil => exact .nil
  | .expr e es => exact .expr (RewriteX.refl e) (RewriteL.refl es)
  | .range a b es => exact .range (RewriteX.refl a) (RewriteX.refl b) (RewriteL.refl es)

theorem RewriteC.refl (cs : CallParts) : RewriteC cs cs := by
  match cs with
  | .nil => exact .nil
  | .word w cs => exact .word w (RewriteC.refl cs)
  | .arg e cs => exact .arg (RewriteX.refl e) (RewriteC.refl cs)

end

mutual

theorem RewriteS.refl (s : Stmt) : RewriteS s s := by
  match s with
  | .output e => exact .output (RewriteX.refl e)
  | .outputNamed e t => exact .outputNamed t (RewriteX.refl e)
  | .set n (.str ps) => exact .setText n ps
  | .set n (.num _) | .set n (.dec _ _) | .set n (.var _) | .set n (.group _) | .set n (.bin _ _ _) | .set n (.ndm _ _) | .set n (.dm _) | .set n (.unary _ _)
  | .set n (.hash _) | .set n (.seq _) | .set n (.call _) => exact .set n (by intro _ h; cases h) (by intro _ h; cases h) (RewriteX.refl _)
  | .function d b => exact .function d (RewriteB.refl b)
  | .result e => exact .result (RewriteX.refl e)
  | .cond c b r => exact .cond (RewriteX.refl c) (RewriteB.refl b) (RewriteE.refl r)
  | .loop x e b => exact .loop x (RewriteX.refl e) (RewriteB.refl b)
  | .assign x e => exact .assign x (RewriteX.refl e)

theorem RewriteB.refl (b : Block) : RewriteB b b := by
  match b with
  | .nil => exact .nil
  | .cons s b => exact .cons (RewriteS.refl s) (RewriteB.refl b)

theorem RewriteE.refl (r : Else) : RewriteE r r := by
  match r with
  | .done => exact .done
  | .else_ b => exact .else_ (RewriteB.refl b)
  | .elif c b r => exact .elif (RewriteX.refl c) (RewriteB.refl b) (RewriteE.refl r)

end

/-- `X: X + I * A` -/
def addStep : Block :=
  .cons (.assign "X".toList (.bin .add (.var "X".toList) (.bin .mul (.var "I".toList) (.var "A".toList)))) .nil

/-- `result: X` -/
def giveX : Block := .cons (.result (.var "X".toList)) .nil

/-- `function: add A:n { X: 0 loop I over {1..2, 4} { X: X + I * A } result: X }  if 2 - 2 { output 1 } else if 3 { output [add d2] }` -/
def loopProg : Block :=
  .cons (.function [.word "add".toList, .typed "A".toList "n".toList] (.cons (.assign "X".toList (.num "0".toList))
    (.cons (.loop "I".toList (.seq (.range (.num "1".toList) (.num "2".toList) (.expr (.num "4".toList) .nil))) addStep) giveX)))
  (.cons (.cond (.bin .sub (.num "2".toList) (.num "2".toList)) (.cons (.output (.num "1".toList)) .nil)
    (.elif (.num "3".toList) (.cons (.output (.call (.word "add".toList (.arg (.dm (.num "2".toList)) .nil)))) .nil) .done)) .nil)

/-- `function: add A:n { X: 0 I: 1 X: X + I * A I: 2 X: X + I * A I: 4 X: X + I * A result: X }  output [add d2]` -/
def flatProg : Block :=
  .cons (.function [.word "add".toList, .typed "A".toList "n".toList] (.cons (.assign "X".toList (.num "0".toList))
    (.cons (.assign "I".toList (.num "1".toList)) (follow addStep
      (.cons (.assign "I".toList (.num "2".toList)) (follow addStep (.cons (.assign "I".toList (.num "4".toList)) (follow addStep giveX))))))))
  (.cons (.output (.call (.word "add".toList (.arg (.dm (.num "2".toList)) .nil)))) .nil)

theorem loopProg_flat : Rewritten loopProg flatProg := by
  refine .trans _ _ _ (.rel _ _ (.cons (.function _ (.cons (RewriteS.refl _)
    (.unroll "I".toList (ns := [1, 2, 4]) (cs := [.num "1".toList, .num "2".toList, .num "4".toList]) (by decide +kernel) (by decide +kernel)
      (List.cons_ne_nil _ _) (RewriteB.refl addStep) (RewriteB.refl giveX))))
    (.passed (by decide +kernel) (by decide +kernel) (RewriteE.refl _) .nil))) ?_
  exact .rel _ _ (.cons (RewriteS.refl _) (.taken (n := 3) (by decide +kernel) (by decide +kernel) (by decide +kernel) (RewriteB.refl _) .nil))

example : (run ⟨false, true, true⟩ 11 loopProg {}).1 = .ok [(.rv ⟨[7, 14], [1, 1], none⟩, none)] ∧
    (run ⟨false, true, true⟩ 11 flatProg {}).1 = .ok [(.rv ⟨[7, 14], [1, 1], none⟩, none)] := by
  refine ⟨?_, ?_⟩ <;> decide +kernel

/-- `loop I over {1..2} { output I + (3) }` -/
def loopText : Block :=
  .cons (.loop "I".toList (.seq (.range (.num "1".toList) (.num "2".toList) .nil))
    (.cons (.output (.bin .add (.var "I".toList) (.group (.num "3".toList)))) .nil)) .nil

/-- `I: 1 output I + 3 I: 2 output I + 3` -/
def flatText : Block :=
  .cons (.assign "I".toList (.num "1".toList)) (.cons (.output (.bin .add (.var "I".toList) (.num "3".toList)))
    (.cons (.assign "I".toList (.num "2".toList)) (.cons (.output (.bin .add (.var "I".toList) (.num "3".toList))) .nil)))

theorem loopText_flat : Rewritten loopText flatText :=
  .rel _ _ (.unroll "I".toList (ns := [1, 2]) (cs := [.num "1".toList, .num "2".toList]) (by decide +kernel) (by decide +kernel) (List.cons_ne_nil _ _)
    (.cons (.output (.bin _ (.var _) (.bare (.num _)))) .nil) .nil)

theorem loopText_covered : ∃ p p', Covered {} "loop I over {1..2} { output I + (3) }".toList loopText p ∧
    Covered {} "I: 1 output I + 3 I: 2 output I + 3".toList flatText p' := by
  have h1 : ∃ p, Covered {} "loop I over {1..2} { output I + (3) }".toList loopText p :=
    given_covered (t := "for I in get_seq([myrange(1, 2)]):\n  output(I + (3))\n".toList)
      (by rw [compile, Yacc.tables_eq]; decide +kernel) (by simp [loopText, WrittenB, WrittenS, Written, WrittenE, level, opLevel])
      (by decide +kernel) (by decide +kernel) (by decide +kernel) (by decide +kernel) (by decide +kernel) (by unfold collides; decide +kernel) rfl
  have h2 : ∃ p, Covered {} "I: 1 output I + 3 I: 2 output I + 3".toList flatText p :=
    given_covered (t := "I = 1\noutput(I + 3)\nI = 2\noutput(I + 3)\n".toList)
      (by rw [compile, Yacc.tables_eq]; decide +kernel) (by simp [flatText, WrittenB, WrittenS, Written, level, opLevel])
      (by decide +kernel) (by decide +kernel) (by decide +kernel) (by decide +kernel) (by decide +kernel) (by unfold collides; decide +kernel) rfl
  obtain ⟨p, h1⟩ := h1
  obtain ⟨p', h2⟩ := h2
  exact ⟨p, p', h1, h2⟩

example : ∃ p p', Covered {} "loop I over {1..2} { output I + (3) }".toList loopText p ∧
    Covered {} "I: 1 output I + 3 I: 2 output I + 3".toList flatText p' ∧ ∀ n w, (Exec.unsafeExec n p' w).1 = (Exec.unsafeExec n p w).1 := by
  obtain ⟨p, p', h, h'⟩ := loopText_covered
  exact ⟨p, p', h, h', fun n w => C94_text_partial {} h h' loopText_flat n w⟩

/-- `X: 5 function: f { … result: X } output [f]` -/
def readsX (b : Block) : Block :=
  .cons (.assign "X".toList (.num "5".toList))
  (.cons (.function [.word "f".toList] (follow b giveX)) (.cons (.output (.call (.word "f".toList .nil))) .nil))

/-- What is never done cannot always be left out: without NON_LOCAL_SCOPE a function in which a variable is given a value, even if that is never done, does not see
the variable of the program.  With NON_LOCAL_SCOPE it does. -/
theorem C94_needed :
    let never : Block := .cons (.cond (.num "0".toList) (.cons (.assign "X".toList (.num "1".toList)) .nil) .done) .nil
    let empty : Block := .cons (.loop "X".toList (.seq .nil) .nil) .nil
    (run ⟨false, false, true⟩ 11 (readsX .nil) {}).1 = .ok [(.num 5, none)] ∧
    (run ⟨false, false, true⟩ 11 (readsX never) {}).1 = .error .name ∧ (run ⟨false, false, true⟩ 11 (readsX empty) {}).1 = .error .name ∧
    (run ⟨true, false, true⟩ 11 (readsX never) {}).1 = .ok [(.num 5, none)] ∧ (run ⟨true, false, true⟩ 11 (readsX empty) {}).1 = .ok [(.num 5, none)] := by
  refine ⟨?_, ?_, ?_, ?_, ?_⟩ <;> decide +kernel

end PythonDice
