import Verif.Proofs.Replace
import Verif.Props.Given

/-!
# A variable stands for the expression it was given (C91)
-/

namespace PythonDice

open Spec Compiler Lexer
open Spec.Py (ReadsProgram)

mutual

theorem setsOnlyS_replace (ok : List StrPart → Bool) (x : List Char) (e : Expr) (s : Stmt) : setsOnlyS ok (replaceS x e s) = setsOnlyS ok s := by
  match s with
  | .output _ | .outputNamed _ _ | .set _ _ | .function _ _ | .result _ | .assign _ _ => simp only [replaceS, setsOnlyS]
  | .cond c b r => rw [replaceS, setsOnlyS, setsOnlyS, setsOnlyB_replace ok x e b, setsOnlyAlt_replace ok x e r]
  | .loop y a b => rw [replaceS, setsOnlyS, setsOnlyS, setsOnlyB_replace ok x e b]

theorem setsOnlyB_replace (ok : List StrPart → Bool) (x : List Char) (e : Expr) (b : Block) : setsOnlyB ok (replaceB x e b) = setsOnlyB ok b := by
  match b with
  | .nil => rw [replaceB]
  | .cons s b => rw [replaceB, setsOnlyB, setsOnlyB, setsOnlyS_replace ok x e s, setsOnlyB_replace ok x e b]

theorem setsOnlyAlt_replace (ok : List StrPart → Bool) (x : List Char) (e : Expr) (r : Else) : setsOnlyE ok (replaceAlt x e r) = setsOnlyE ok r := by
  match r with
  | .done => rw [replaceAlt]
  | .else_ b => rw [replaceAlt, setsOnlyE, setsOnlyE, setsOnlyB_replace ok x e b]
  | .elif c b r => rw [replaceAlt, setsOnlyE, setsOnlyE, setsOnlyB_replace ok x e b, setsOnlyAlt_replace ok x e r]

end

theorem setsOnlyB_follow (ok : List StrPart → Bool) (b c : Block) : setsOnlyB ok (follow b c) = (setsOnlyB ok b && setsOnlyB ok c) := by
  match b with
  | .nil => rw [follow, setsOnlyB, Bool.true_and]
  | .cons s b => rw [follow, setsOnlyB, setsOnlyB, setsOnlyB_follow ok b c, Bool.and_assoc]

/-- **C91** (src/parser/parse_and_exec.py:131-140, src/roller.py:79-101, src/randvar.py:18-60): after `x: e` the variable stands for the expression. In a part of the
program that sets nothing and gives no value to the variable, and in which the value of the expression does not change, the variable can be replaced by the
expression in parentheses, wherever it occurs outside of strings and functions: the program fails or not, in the same way, and outputs the same. The
expression must not call functions that output something. -/
theorem C91_replace (R : Rules) (n : ℕ) {a b c : Block} {x : List Char} {e : Expr} (hra : noResultB a = true) (hrb : noResultB b = true)
    (hq : QuietFunctions a) (ha : LeavesZeros a) (hb : SetsNothing b) (hc : LeavesZeros c) (hx : x ∉ assignsB b)
    (hu : Unneeded a (.cons (.assign x e) b) (.cons (.output e) .nil)) {z : Bool} {w : World} (hw : History z w)
    (hs : ∀ o o', (run R n a w).1 = .ok o → (run R n (follow a (.cons (.assign x e) .nil)) w).1 = .ok o' → o' = o) :
    (run R n (follow a (.cons (.assign x e) (follow (replaceB x e b) c))) w).1 = (run R n (follow a (.cons (.assign x e) (follow b c))) w).1 :=
  (replace_run hra hrb hq ha hb hc hx hu hw.memoPure hs).symm

/-- C91. If nothing uses the variable then, and the expression has a value, its definition can be left out. -/
theorem C91_inline (R : Rules) (n : ℕ) {a b c : Block} {x : List Char} {e : Expr} (hra : noResultB a = true) (hrb : noResultB b = true)
    (hq : QuietFunctions a) (ha : LeavesZeros a) (hb : SetsNothing b) (hc : LeavesZeros c) (hx : x ∉ assignsB b)
    (hu : Unneeded a (.cons (.assign x e) b) (.cons (.output e) .nil))
    (hf : ∀ p ∈ functionsB a, (x ∈ readsB p.2 → x ∈ (paramsOf p.1).map Prod.fst) ∧ x ∉ needsB p.2)
    (hr : x ∉ readsB (follow (replaceB x e b) c) ++ needsB (follow (replaceB x e b) c)) {z : Bool} {w : World} (hw : History z w)
    {o : List (Obj × Option PyText)} (h1 : (run R n a w).1 = .ok o) (h2 : (run R n (follow a (.cons (.assign x e) .nil)) w).1 = .ok o) :
    (run R n (follow a (follow (replaceB x e b) c)) w).1 = (run R n (follow a (.cons (.assign x e) (follow b c))) w).1 := by
  have hc' : LeavesZeros (follow (replaceB x e b) c) := by
    have := hb.leaves
    unfold LeavesZeros at this hc ⊢
    rw [setsOnlyB_follow, setsOnlyB_replace, this, hc]
    rfl
  rw [← C91_replace R n hra hrb hq ha hb hc hx hu hw fun o₁ o₂ g1 g2 => by rw [h1] at g1; rw [h2] at g2; cases g1; cases g2; rfl]
  exact (C88_assign R n x e hra hq ha hc' hf hr hw h1 h2).symm

/-- C91. In particular, `x: e output f` at the end of a program outputs what `output f` does, with the expression in the place of the variable. -/
theorem C91_output (R : Rules) (n : ℕ) {a : Block} {x : List Char} {e f : Expr} (hra : noResultB a = true) (hq : QuietFunctions a) (ha : LeavesZeros a)
    (hu : Unneeded a (.cons (.assign x e) .nil) (.cons (.output e) .nil)) (hr : x ∉ readsE (replaceE x e f)) {z : Bool} {w : World} (hw : History z w)
    {o : List (Obj × Option PyText)} (h1 : (run R n a w).1 = .ok o) (h2 : (run R n (follow a (.cons (.assign x e) .nil)) w).1 = .ok o) :
    (run R n (follow a (.cons (.output (replaceE x e f)) .nil)) w).1 =
      (run R n (follow a (.cons (.assign x e) (.cons (.output f) .nil))) w).1 := by
  have hass : ∀ b, assignsB (.cons (.assign x e) b) = x :: assignsB b := fun b => by simp [assignsB, assignsS]
  have e1 : assignsB (.cons (.output f) .nil) = [] := by simp [assignsB, assignsS]
  have e2 : definesB (.cons (.output f) .nil) = [] := by simp [definesB, definesS]
  have hu' : Unneeded a (.cons (.assign x e) (.cons (.output f) .nil)) (.cons (.output e) .nil) := by
    have g1 : assignsB (.cons (.assign x e) (.cons (.output f) .nil)) = assignsB (.cons (.assign x e) .nil) := by
      rw [hass, hass, e1, assignsB]
    have g2 : definesB (.cons (.assign x e) (.cons (.output f) .nil)) = definesB (.cons (.assign x e) .nil) := by
      simp [definesB, definesS]
    unfold Unneeded Spares Independent at hu ⊢
    rw [g1, g2]
    exact hu
  refine C91_inline R n (b := .cons (.output f) .nil) (c := .nil) hra (by rfl) hq ha (by rfl) (by rfl) (by rw [e1]; exact fun h => by cases h) hu' ?_ ?_
    hw h1 h2
  · intro p hp
    obtain ⟨g1, g2, _⟩ := hu.1 p hp
    rw [hass, assignsB] at g1 g2
    exact ⟨fun h => (g1 x h).resolve_left fun h => h (List.mem_singleton.2 rfl), fun h => g2 x h (List.mem_singleton.2 rfl)⟩
  · have g : follow (replaceB x e (.cons (.output f) .nil)) .nil = .cons (.output (replaceE x e f)) .nil := by
      rw [replaceB, replaceS, replaceB, follow, follow]
    rw [g]
    simpa [readsB, readsS, needsB, needsS, givesS] using hr

/-- C91, partial: the same of texts, compiled and executed by Python: `s` is the text, `s'` the text in which the variable is replaced.  Missing: what is missing
of C63, and functions with protected names. -/
theorem C91_text_partial (fl : Flags) {s s' : List Char} {a b c : Block} {x : List Char} {e : Expr} {p p' : Py.Block}
    (cs : Covered fl s (follow a (.cons (.assign x e) (follow b c))) p)
    (cs' : Covered fl s' (follow a (.cons (.assign x e) (follow (replaceB x e b) c))) p') (hra : noResultB a = true) (hrb : noResultB b = true)
    (hq : QuietFunctions a) (ha : LeavesZeros a) (hb : SetsNothing b) (hc : LeavesZeros c) (hx : x ∉ assignsB b)
    (hu : Unneeded a (.cons (.assign x e) b) (.cons (.output e) .nil)) (n : ℕ) {z : Bool} {w : World} (hw : History z w)
    (hs : ∀ o o', (run fl.style.rules n a w).1 = .ok o → (run fl.style.rules n (follow a (.cons (.assign x e) .nil)) w).1 = .ok o' → o' = o) :
    (Exec.unsafeExec n p' w).1 = (Exec.unsafeExec n p w).1 := by
  rw [cs.exec, cs'.exec]
  exact C91_replace _ n hra hrb hq ha hb hc hx hu hw hs

/-! ## Cases -/

/-- `N: 2 function: twice A { result: A + A }` -/
def replaceHead : Block :=
  .cons (.assign "N".toList (.num "2".toList))
  (.cons (.function [.word "twice".toList, .param "A".toList] (.cons (.result (.bin .add (.var "A".toList) (.var "A".toList))) .nil)) .nil)

/-- `[twice N d 2]` -/
def replaceBy : Expr := .call (.word "twice".toList (.arg (.ndm (.var "N".toList) (.num "2".toList)) .nil))

/-- `loop I over {1..2} { Z: X + I output Z } ` -/
def replacePart : Block :=
  .cons (.loop "I".toList (.seq (.range (.num "1".toList) (.num "2".toList) .nil))
    (.cons (.assign "Z".toList (.bin .add (.var "X".toList) (.var "I".toList))) (.cons (.output (.var "Z".toList)) .nil))) .nil

/-- `output X * X` -/
def replaceTail : Block := .cons (.output (.bin .mul (.var "X".toList) (.var "X".toList))) .nil

example : noResultB replaceHead = true ∧ noResultB replacePart = true ∧ QuietFunctions replaceHead ∧ LeavesZeros replaceHead ∧ SetsNothing replacePart ∧
    LeavesZeros replaceTail ∧ "X".toList ∉ assignsB replacePart ∧
    Unneeded replaceHead (.cons (.assign "X".toList replaceBy) replacePart) (.cons (.output replaceBy) .nil) ∧ History false {} ∧
    (run ⟨true, true, true⟩ 11 replaceHead {}).1 = .ok [] ∧ (run ⟨true, true, true⟩ 11 (follow replaceHead (.cons (.assign "X".toList replaceBy) .nil)) {}).1 =
      .ok [] := by
  refine ⟨?_, ?_, ?_, ?_, ?_, ?_, ?_, ?_, History.init {} rfl, ?_, ?_⟩ <;> decide +kernel

example : replaceB "X".toList replaceBy replacePart =
    .cons (.loop "I".toList (.seq (.range (.num "1".toList) (.num "2".toList) .nil))
      (.cons (.assign "Z".toList (.bin .add (.group replaceBy) (.var "I".toList))) (.cons (.output (.var "Z".toList)) .nil))) .nil := by
  rfl

example : (run ⟨true, true, true⟩ 11 (follow replaceHead (.cons (.assign "X".toList replaceBy) (follow (replaceB "X".toList replaceBy replacePart) replaceTail))) {}).1 =
    .ok [(.rv ⟨[5, 6, 7, 8, 9], [1, 4, 6, 4, 1], none⟩, none), (.rv ⟨[6, 7, 8, 9, 10], [1, 4, 6, 4, 1], none⟩, none),
      (.rv ⟨[16, 20, 24, 25, 28, 30, 32, 35, 36, 40, 42, 48, 49, 56, 64], [1, 8, 12, 16, 8, 48, 2, 32, 36, 8, 48, 12, 16, 8, 1], none⟩, none)] := by
  decide +kernel

/-- `2 d 2` -/
def replacePool : Expr := .ndm (.num "2".toList) (.num "2".toList)

/-- `output D * D` -/
def replaceSquare : Block := .cons (.output (.bin .mul (.var "D".toList) (.var "D".toList))) .nil

theorem replaceSquare_written : WrittenB (.cons (.assign "D".toList replacePool) replaceSquare) ∧
    WrittenB (.cons (.assign "D".toList replacePool) (replaceB "D".toList replacePool replaceSquare)) := by
  refine ⟨?_, ?_⟩ <;>
    simp [replacePool, replaceSquare, replaceB, replaceS, replaceE, WrittenB, WrittenS, Written, Spec.FirstOK, SeparateNext, level, opLevel]

/-- The texts `D: 2 d 2 output D * D` and `D: 2 d 2 output (2 d 2) * (2 d 2)`. -/
theorem replace_covered : ∃ p p',
    Covered {} "D: 2 d 2 output D * D".toList (follow .nil (.cons (.assign "D".toList replacePool) (follow replaceSquare .nil))) p ∧
    Covered {} "D: 2 d 2 output (2 d 2) * (2 d 2)".toList
      (follow .nil (.cons (.assign "D".toList replacePool) (follow (replaceB "D".toList replacePool replaceSquare) .nil))) p' := by
  have h2 : ∃ p, Covered {} "D: 2 d 2 output D * D".toList (.cons (.assign "D".toList replacePool) replaceSquare) p :=
    given_covered (t := "D = roll(2, 2)\noutput(D * D)\n".toList) (by rw [compile, Yacc.tables_eq]; decide +kernel) replaceSquare_written.1 (by decide +kernel)
      (by decide +kernel) (by decide +kernel) (by decide +kernel) (by decide +kernel) (by unfold collides; decide +kernel) rfl
  have h3 : ∃ p, Covered {} "D: 2 d 2 output (2 d 2) * (2 d 2)".toList
      (.cons (.assign "D".toList replacePool) (replaceB "D".toList replacePool replaceSquare)) p :=
    given_covered (t := "D = roll(2, 2)\noutput((roll(2, 2)) * (roll(2, 2)))\n".toList) (by rw [compile, Yacc.tables_eq]; decide +kernel)
      replaceSquare_written.2 (by decide +kernel) (by decide +kernel) (by decide +kernel) (by decide +kernel) (by decide +kernel)
      (by unfold collides; decide +kernel) rfl
  obtain ⟨p, h2⟩ := h2
  obtain ⟨p', h3⟩ := h3
  exact ⟨p, p', h2, h3⟩

example : ∃ p p', Covered {} "D: 2 d 2 output D * D".toList (follow .nil (.cons (.assign "D".toList replacePool) (follow replaceSquare .nil))) p ∧
    (Exec.unsafeExec 11 p' {}).1 = (Exec.unsafeExec 11 p {}).1 := by
  obtain ⟨p, p', h, h'⟩ := replace_covered
  refine ⟨p, p', h, C91_text_partial {} h h' (by decide +kernel) (by decide +kernel) (by decide +kernel) (by decide +kernel) (by decide +kernel)
    (by decide +kernel) (by decide +kernel) (by decide +kernel) 11 (History.init (z := false) {} rfl) fun o o' h1 h2 => ?_⟩
  have e1 : (Spec.run (Flags.style {}).rules 11 .nil {}).1 = .ok [] := by decide +kernel
  have e2 : (Spec.run (Flags.style {}).rules 11 (follow .nil (.cons (.assign "D".toList replacePool) .nil)) {}).1 = .ok [] := by decide +kernel
  rw [e1] at h1
  rw [e2] at h2
  cases h1
  cases h2
  rfl

/-- What the expression needs must stay the same: `Y: 1 X: Y Y: 2 output X` outputs 1, with `output (Y)` instead of `output X` it is 2. And the expression must not
output anything: with `function: loud A { output A result: A }` the program `X: [loud 1] output X` outputs twice, with `output ([loud 1])` three times. -/
theorem C91_needed : let one : Block := .cons (.assign "Y".toList (.num "1".toList)) .nil
    let change : Block := .cons (.assign "Y".toList (.num "2".toList)) (.cons (.output (.var "X".toList)) .nil)
    let loud : Block := .cons (.function [.word "loud".toList, .param "A".toList] (.cons (.output (.var "A".toList)) (.cons (.result (.var "A".toList)) .nil))) .nil
    let call : Expr := .call (.word "loud".toList (.arg (.num "1".toList) .nil))
    let show_ : Block := .cons (.output (.var "X".toList)) .nil
    (run ⟨false, true, true⟩ 11 (follow one (.cons (.assign "X".toList (.var "Y".toList)) change)) {}).1 = .ok [(.num 1, none)] ∧
    (run ⟨false, true, true⟩ 11 (follow one (.cons (.assign "X".toList (.var "Y".toList)) (replaceB "X".toList (.var "Y".toList) change))) {}).1 =
      .ok [(.num 2, none)] ∧
    (run ⟨false, true, true⟩ 11 (follow loud (.cons (.assign "X".toList call) show_)) {}).1 = .ok [(.num 1, none), (.num 1, none)] ∧
    (run ⟨false, true, true⟩ 11 (follow loud (.cons (.assign "X".toList call) (replaceB "X".toList call show_))) {}).1 =
      .ok [(.num 1, none), (.num 1, none), (.num 1, none)] := by
  refine ⟨?_, ?_, ?_, ?_⟩ <;> decide +kernel

end PythonDice
