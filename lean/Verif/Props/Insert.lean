import Verif.Proofs.Insert
import Verif.Props.Sequel

/-!
# Parts of a program that do not need each other (C88, C89)
-/

namespace PythonDice

open Spec Compiler Lexer
open Spec.Py (ReadsProgram)

/-! ## Parts that nothing needs -/

/-- C88. If a program succeeds, so does its beginning, and its outputs are the first ones of the program. -/
theorem C88_beginning (R : Rules) (n : ℕ) {a m : Block} (ha : noResultB a = true) (hm : noResultB m = true) {w : World} {o : List (Obj × Option PyText)}
    (h : (run R n (follow a m) w).1 = .ok o) : ∃ p q, (run R n a w).1 = .ok p ∧ o = p ++ q := by
  obtain ⟨s, v, t, h1, h2, h3⟩ := run_prefix ha hm h
  refine ⟨v.outs, (runB R (runCall R n) m s v.bare).2.outs, by rw [run_result_outs h1]; rfl, ?_⟩
  have hf : FnsOnward s.fns := (onward_B (onward_call (R := R) n) a (begin_ R) (libraryFns_onward R)).2 w.bare (s, none) (by rw [h1])
  rw [← h3, onward_bare (onward_B (R := R) (onward_call (R := R) n) m s hf).1 v]
  rfl

/-- **C88** (src/parser/parse_and_exec.py:125-135, src/roller.py:79-101, src/decorators.py:142-160): a part in the middle of a program, which sets nothing, whose
variables and functions nobody else uses, and which succeeds, can be left out: what comes after it fails or not, in the same way, and outputs the same. -/
theorem C88_unneeded (R : Rules) (n : ℕ) {a m c : Block} (hra : noResultB a = true) (hrm : noResultB m = true) (hq : QuietFunctions a)
    (ha : LeavesZeros a) (hm : SetsNothing m) (hc : LeavesZeros c) (hu : Unneeded a m c) {z : Bool} {w : World} (hw : History z w)
    {o p : List (Obj × Option PyText)} (h1 : (run R n a w).1 = .ok o) (h2 : (run R n (follow a m) w).1 = .ok (o ++ p)) :
    ∃ r : Except Err (List (Obj × Option PyText)), (run R n (follow a c) w).1 = r.map (o ++ ·) ∧
      (run R n (follow a (follow m c)) w).1 = r.map (o ++ p ++ ·) :=
  insert_run hra hrm hq ha hm hc hu hw.memoPure h1 h2

/-- C88. An `output` in the middle of a program, if it succeeds, has no influence on the rest: it adds its value to the outputs there, after what the
functions that it calls output. -/
theorem C88_output (R : Rules) (n : ℕ) {a c : Block} (e : Expr) (hra : noResultB a = true) (hq : QuietFunctions a) (ha : LeavesZeros a)
    (hc : LeavesZeros c) {z : Bool} {w : World} (hw : History z w) {o : List (Obj × Option PyText)}
    (h : (run R n (follow a (.cons (.output e) .nil)) w).1 = .ok o) :
    ∃ o₁ p v, ∃ r : Except Err (List (Obj × Option PyText)), (run R n a w).1 = .ok o₁ ∧ o = o₁ ++ p ++ [(v, none)] ∧
      (run R n (follow a c) w).1 = r.map (o₁ ++ ·) ∧ (run R n (follow a (.cons (.output e) c)) w).1 = r.map (o ++ ·) := by
  obtain ⟨o₁, q, h1, rfl⟩ := C88_beginning R n hra (by rfl) h
  have hu : Unneeded a (.cons (.output e) .nil) c := ⟨fun p _ => ⟨fun _ _ => .inl (by simp [assignsB, assignsS]), fun _ _ => by simp [assignsB, assignsS],
    fun _ _ => by simp [definesB, definesS]⟩, fun _ _ => by simp [assignsB, assignsS], fun _ _ => by simp [definesB, definesS]⟩
  obtain ⟨r, h2, h3⟩ := C88_unneeded R n hra (by rfl) hq ha (m := .cons (.output e) .nil) (by rfl) hc hu hw h1 h
  have hlast : ∃ p v, q = p ++ [(v, none)] := by
    obtain ⟨s, v, t, e1, e2, e3⟩ := run_prefix hra (by rfl) h
    have hf : FnsOnward s.fns := (onward_B (onward_call (R := R) n) a (begin_ R) (libraryFns_onward R)).2 w.bare (s, none) (by rw [e1])
    have ho : v.outs = o₁ := by
      rw [run_result_outs e1] at h1
      cases h1
      rfl
    have hb : runB R (runCall R n) (.cons (.output e) .nil) s = runE R (runCall R n) s.fns s.fr e >>= fun o => emitOutput o none >>= fun _ =>
        pure (s, none) := by
      rw [runB, runS, bind_assoc]
      refine bind_congr fun o => ?_
      rw [bind_assoc]
      refine bind_congr fun _ => ?_
      rw [pure_bind]
      rfl
    rw [hb, M.bind_apply, onward_bare (onward_E (R := R) (onward_call (R := R) n) hf s.fr e) v] at e2 e3
    rcases hx : runE R (runCall R n) s.fns s.fr e v.bare with ⟨x | x, v'⟩
    · rw [hx] at e2
      cases e2
    · rw [hx] at e3
      refine ⟨v'.outs, x, ?_⟩
      have e4 : v.outs ++ v'.outs ++ [(x, none)] = o₁ ++ q := e3
      rw [ho, List.append_assoc] at e4
      exact (List.append_cancel_left e4).symm
  obtain ⟨p, v, rfl⟩ := hlast
  refine ⟨o₁, p, v, r, h1, by rw [List.append_assoc], h2, ?_⟩
  exact h3

/-- C88. An assignment to a variable that is not used, if it succeeds and calls no function that outputs, can be left out. -/
theorem C88_assign (R : Rules) (n : ℕ) {a c : Block} (x : List Char) (e : Expr) (hra : noResultB a = true) (hq : QuietFunctions a) (ha : LeavesZeros a)
    (hc : LeavesZeros c) (hx : ∀ p ∈ functionsB a, (x ∈ readsB p.2 → x ∈ (paramsOf p.1).map Prod.fst) ∧ x ∉ needsB p.2)
    (hr : x ∉ readsB c ++ needsB c) {z : Bool} {w : World} (hw : History z w) {o : List (Obj × Option PyText)}
    (h1 : (run R n a w).1 = .ok o) (h2 : (run R n (follow a (.cons (.assign x e) .nil)) w).1 = .ok o) :
    (run R n (follow a (.cons (.assign x e) c)) w).1 = (run R n (follow a c) w).1 := by
  have hass : assignsB (.cons (.assign x e) .nil) = [x] := by simp [assignsB, assignsS]
  have hdef : definesB (.cons (.assign x e) .nil) = [] := by simp [definesB, definesS]
  have hu : Unneeded a (.cons (.assign x e) .nil) c := by
    refine ⟨fun p hp => ⟨fun y hy => ?_, fun y hy => ?_, fun _ _ => by rw [hdef]; exact fun h => by cases h⟩, fun y hy => ?_, fun _ _ => by
      rw [hdef]; exact fun h => by cases h⟩
    · rw [hass, List.mem_singleton]
      by_cases e : y = x
      · subst e
        exact .inr ((hx p hp).1 hy)
      · exact .inl e
    · rw [hass, List.mem_singleton]
      rintro rfl
      exact (hx p hp).2 hy
    · rw [hass, List.mem_singleton]
      rintro rfl
      exact hr hy
  obtain ⟨r, h3, h4⟩ := C88_unneeded R n hra (by rfl) hq ha (m := .cons (.assign x e) .nil) (by rfl) hc hu hw h1 (p := []) (by rw [List.append_nil]; exact h2)
  rw [List.append_nil] at h4
  exact h4.trans h3.symm

/-! ## Parts that can be exchanged -/

/-- **C89** (src/parser/parse_and_exec.py:125-135, src/roller.py:79-101, src/decorators.py:142-160): two parts of a program, one after the other, that set nothing,
use nothing of each other, give values to different variables and define different functions, and succeed after what is before them, can be exchanged:
their outputs change places, and what comes after them fails or not, in the same way, and outputs the same. -/
theorem C89_exchange (R : Rules) (n : ℕ) {a m m' c : Block} (hra : noResultB a = true) (hrm : noResultB m = true) (hrm' : noResultB m' = true)
    (hq : QuietFunctions a) (ha : LeavesZeros a) (hm : SetsNothing m) (hm' : SetsNothing m') (hc : LeavesZeros c) (hu : Apart a m m')
    {z : Bool} {w : World} (hw : History z w) {o p p' : List (Obj × Option PyText)} (h1 : (run R n a w).1 = .ok o)
    (h2 : (run R n (follow a m) w).1 = .ok (o ++ p)) (h3 : (run R n (follow a m') w).1 = .ok (o ++ p')) :
    ∃ r : Except Err (List (Obj × Option PyText)), (run R n (follow a (follow m (follow m' c))) w).1 = r.map (o ++ p ++ p' ++ ·) ∧
      (run R n (follow a (follow m' (follow m c))) w).1 = r.map (o ++ p' ++ p ++ ·) :=
  exchange_run hra hrm hrm' hq ha hm hm' hc hu hw.memoPure h1 h2 h3

/-- C89. Two outputs, one after the other. -/
theorem C89_outputs (R : Rules) (n : ℕ) {a c : Block} (e e' : Expr) (hra : noResultB a = true) (hq : QuietFunctions a) (ha : LeavesZeros a)
    (hc : LeavesZeros c) {z : Bool} {w : World} (hw : History z w) {o p p' : List (Obj × Option PyText)} (h1 : (run R n a w).1 = .ok o)
    (h2 : (run R n (follow a (.cons (.output e) .nil)) w).1 = .ok (o ++ p)) (h3 : (run R n (follow a (.cons (.output e') .nil)) w).1 = .ok (o ++ p')) :
    ∃ r : Except Err (List (Obj × Option PyText)),
      (run R n (follow a (.cons (.output e) (.cons (.output e') c))) w).1 = r.map (o ++ p ++ p' ++ ·) ∧
      (run R n (follow a (.cons (.output e') (.cons (.output e) c))) w).1 = r.map (o ++ p' ++ p ++ ·) := by
  have hu : ∀ (e : Expr) (c : Block), Unneeded a (.cons (.output e) .nil) c := fun e c =>
    ⟨fun p _ => ⟨fun _ _ => .inl (by simp [assignsB, assignsS]), fun _ _ => by simp [assignsB, assignsS], fun _ _ => by simp [definesB, definesS]⟩,
      fun _ _ => by simp [assignsB, assignsS], fun _ _ => by simp [definesB, definesS]⟩
  exact C89_exchange R n (m := .cons (.output e) .nil) (m' := .cons (.output e') .nil) hra (by rfl) (by rfl) hq ha (by rfl) (by rfl) hc
    ⟨hu e _, hu e' _, fun _ _ => by simp [assignsB, assignsS], fun _ _ => by simp [definesB, definesS]⟩ hw h1 h2 h3

/-- C89. The same output twice: the entries are the same. -/
theorem C89_twice (R : Rules) (n : ℕ) {a : Block} (e : Expr) (hra : noResultB a = true) (hq : QuietFunctions a) (ha : LeavesZeros a)
    {z : Bool} {w : World} (hw : History z w) {o p : List (Obj × Option PyText)} (h1 : (run R n a w).1 = .ok o)
    (h2 : (run R n (follow a (.cons (.output e) .nil)) w).1 = .ok (o ++ p)) :
    (run R n (follow a (.cons (.output e) (.cons (.output e) .nil))) w).1 = .ok (o ++ p ++ p) := by
  have hu : Unneeded a (.cons (.output e) .nil) (.cons (.output e) .nil) :=
    ⟨fun p _ => ⟨fun _ _ => .inl (by simp [assignsB, assignsS]), fun _ _ => by simp [assignsB, assignsS], fun _ _ => by simp [definesB, definesS]⟩,
      fun _ _ => by simp [assignsB, assignsS], fun _ _ => by simp [definesB, definesS]⟩
  obtain ⟨r, h3, h4⟩ := C88_unneeded R n hra (by rfl) hq ha (m := .cons (.output e) .nil) (by rfl) (by rfl) hu hw h1 h2
  rw [h2] at h3
  cases r with
  | error x => cases h3
  | ok q =>
    obtain rfl : p = q := by
      injection h3 with h3
      exact List.append_cancel_left h3
    exact h4

/-! ## Texts -/

/-- A text of a program of which C63 speaks, and what Python reads in what it is compiled to. -/
structure Covered (fl : Flags) (s : List Char) (b : Block) (p : Py.Block) : Prop where
  reads : ∃ t, compile fl Char.isDigit s = .ok t ∧ ReadsProgram t p
  source : SourceOf (tokens Char.isDigit s) b
  literals : LiteralsIn PlainChar (tokens Char.isDigit s)
  clean : cleanB fl b = true
  results : noResultB b = true
  free : freeB fl.style true b = true
  plain : ¬ DefinesProtected b

theorem Covered.exec {fl : Flags} {s : List Char} {b : Block} {p : Py.Block} (h : Covered fl s b p) (n : ℕ) (w : World) :
    (Exec.unsafeExec n p w).1 = (run fl.style.rules n b w).1 := by
  obtain ⟨t, h1, h2⟩ := h.reads
  have e := passFlags_plain fl (source_names h.source) h.plain
  obtain ⟨d, h3⟩ := C63_run_partial fl h1 h.source h.literals (by rw [e]; exact h.clean) h.results (by rw [e]; exact h.free) h2 n w
  rw [h3, e]

/-- A program of which C63 speaks, and the text it is compiled to. -/
theorem progText_covered : ∃ p, Covered { nonLocal := true } progText progTree p := by
  have hp : ¬ DefinesProtected progTree := by
    intro h
    have hn := (collides_iff { nonLocal := true } progTree (source_names progTree_source) rfl).2 h
    revert hn
    unfold collides
    decide +kernel
  have e := passFlags_plain { nonLocal := true } (source_names progTree_source) hp
  exact ⟨_, ⟨_, progText_compiles, (C62_reads_partial _ progText_compiles progTree_source progText_plain (by decide +kernel) (by decide +kernel) _).2 rfl⟩,
    progTree_source, progText_plain, by decide +kernel, by decide +kernel, by decide +kernel, hp⟩

/-- C88, partial: the same of texts, compiled and executed by Python: `ac` is the whole without and `amc` with the part.  Missing: what is missing of C63, and
functions with protected names. -/
theorem C88_text_partial (fl : Flags) {sac samc : List Char} {a m c : Block} {pac pamc : Py.Block} (cac : Covered fl sac (follow a c) pac)
    (camc : Covered fl samc (follow a (follow m c)) pamc) (hra : noResultB a = true) (hrm : noResultB m = true) (hq : QuietFunctions a) (ha : LeavesZeros a)
    (hm : SetsNothing m) (hc : LeavesZeros c) (hu : Unneeded a m c) (n : ℕ) {z : Bool} {w : World} (hw : History z w) {o p : List (Obj × Option PyText)}
    (h1 : (run fl.style.rules n a w).1 = .ok o) (h2 : (run fl.style.rules n (follow a m) w).1 = .ok (o ++ p)) :
    ∃ r : Except Err (List (Obj × Option PyText)), (Exec.unsafeExec n pac w).1 = r.map (o ++ ·) ∧ (Exec.unsafeExec n pamc w).1 = r.map (o ++ p ++ ·) := by
  rw [cac.exec, camc.exec]
  exact C88_unneeded _ n hra hrm hq ha hm hc hu hw h1 h2

/-- C89, partial: the same of texts, compiled and executed by Python.  Missing: what is missing of C63, and functions with protected names. -/
theorem C89_text_partial (fl : Flags) {s s' : List Char} {a m m' c : Block} {p p' : Py.Block} (cs : Covered fl s (follow a (follow m (follow m' c))) p)
    (cs' : Covered fl s' (follow a (follow m' (follow m c))) p') (hra : noResultB a = true) (hrm : noResultB m = true) (hrm' : noResultB m' = true)
    (hq : QuietFunctions a) (ha : LeavesZeros a) (hm : SetsNothing m) (hm' : SetsNothing m') (hc : LeavesZeros c) (hu : Apart a m m') (n : ℕ) {z : Bool}
    {w : World} (hw : History z w) {o q q' : List (Obj × Option PyText)} (h1 : (run fl.style.rules n a w).1 = .ok o)
    (h2 : (run fl.style.rules n (follow a m) w).1 = .ok (o ++ q)) (h3 : (run fl.style.rules n (follow a m') w).1 = .ok (o ++ q')) :
    ∃ r : Except Err (List (Obj × Option PyText)), (Exec.unsafeExec n p w).1 = r.map (o ++ q ++ q' ++ ·) ∧
      (Exec.unsafeExec n p' w).1 = r.map (o ++ q' ++ q ++ ·) := by
  rw [cs.exec, cs'.exec]
  exact C89_exchange _ n hra hrm hrm' hq ha hm hm' hc hu hw h1 h2 h3

/-! ## Cases -/

/-- `X: 2 function: double A:n { result: A * X }` -/
def insertHead : Block :=
  .cons (.assign "X".toList (.num "2".toList))
  (.cons (.function [.word "double".toList, .typed "A".toList "n".toList] (.cons (.result (.bin .mul (.var "A".toList) (.var "X".toList))) .nil)) .nil)

/-- `Y: 2d2 output Y + [double 3]` -/
def insertPart : Block :=
  .cons (.assign "Y".toList (.ndm (.num "2".toList) (.num "2".toList)))
  (.cons (.output (.bin .add (.var "Y".toList) (.call (.word "double".toList (.arg (.num "3".toList) .nil))))) .nil)

/-- `Z: [double 2] output Z d 2` -/
def insertTail : Block :=
  .cons (.assign "Z".toList (.call (.word "double".toList (.arg (.num "2".toList) .nil))))
  (.cons (.output (.ndm (.var "Z".toList) (.num "2".toList))) .nil)

example : noResultB insertHead = true ∧ noResultB insertPart = true ∧ noResultB insertTail = true ∧ QuietFunctions insertHead ∧ LeavesZeros insertHead ∧
    SetsNothing insertPart ∧ SetsNothing insertTail ∧ Unneeded insertHead insertPart insertTail ∧ History false {} := by
  refine ⟨?_, ?_, ?_, ?_, ?_, ?_, ?_, ?_, History.init {} rfl⟩ <;> decide +kernel

example : Apart insertHead insertPart insertTail := by
  refine ⟨?_, ?_, ?_, ?_⟩ <;> decide +kernel

example : (run ⟨false, true, true⟩ 11 insertHead {}).1 = .ok [] ∧
    (run ⟨false, true, true⟩ 11 (follow insertHead insertPart) {}).1 = .ok ([] ++ [(.rv ⟨[8, 9, 10], [1, 2, 1], none⟩, none)]) ∧
    (run ⟨false, true, true⟩ 11 (follow insertHead insertTail) {}).1 =
      .ok ([] ++ [(.rv ⟨[4, 5, 6, 7, 8], [1, 4, 6, 4, 1], some (4, [1, 2], [1, 1])⟩, none)]) := by
  refine ⟨?_, ?_, ?_⟩ <;> decide +kernel

/-- The part is left out, or exchanged with what follows: the theorems say what is output. -/
example : (run ⟨false, true, true⟩ 11 (follow insertHead (follow insertPart insertTail)) {}).1 =
      .ok [(.rv ⟨[8, 9, 10], [1, 2, 1], none⟩, none), (.rv ⟨[4, 5, 6, 7, 8], [1, 4, 6, 4, 1], some (4, [1, 2], [1, 1])⟩, none)] ∧
    (run ⟨false, true, true⟩ 11 (follow insertHead (follow insertTail insertPart)) {}).1 =
      .ok [(.rv ⟨[4, 5, 6, 7, 8], [1, 4, 6, 4, 1], some (4, [1, 2], [1, 1])⟩, none), (.rv ⟨[8, 9, 10], [1, 2, 1], none⟩, none)] := by
  refine ⟨?_, ?_⟩ <;> decide +kernel

/-- `function: f { result: X }`, `X: 1`, `X: 2`, `output [f]`: a function reads the variable when it is called, so the second assignment is needed, though
what follows does not mention it. -/
theorem C88_function_counterexample :
    let a : Block := .cons (.function [.word "f".toList] (.cons (.result (.var "X".toList)) .nil)) (.cons (.assign "X".toList (.num "1".toList)) .nil)
    let m : Block := .cons (.assign "X".toList (.num "2".toList)) .nil
    let c : Block := .cons (.output (.call (.word "f".toList .nil))) .nil
    (run ⟨false, true, true⟩ 11 (follow a c) {}).1 = .ok [(.num 1, none)] ∧ (run ⟨false, true, true⟩ 11 (follow a (follow m c)) {}).1 = .ok [(.num 2, none)] ∧
      Independent m c ∧ ¬ Spares a m := by
  refine ⟨?_, ?_, ?_, ?_⟩ <;> decide +kernel

/-- `function: f A:n { set "explode depth" to 1 result: A }`, `output [f 1]`, `output [explode d2]`: an output that calls a function that sets something
has an influence on those after it. -/
theorem C88_sets_counterexample :
    let a : Block := .cons (.function [.word "f".toList, .typed "A".toList "n".toList]
      (.cons (.set [.text "explode depth".toList] (.num "1".toList)) (.cons (.result (.var "A".toList)) .nil))) .nil
    let m : Block := .cons (.output (.call (.word "f".toList (.arg (.num "1".toList) .nil)))) .nil
    let c : Block := .cons (.output (.call (.word "explode".toList (.arg (.dm (.num "2".toList)) .nil)))) .nil
    (run ⟨false, true, true⟩ 11 (follow a c) {}).1 = .ok [(.rv ⟨[1, 3, 5, 6], [4, 2, 1, 1], none⟩, none)] ∧
      (run ⟨false, true, true⟩ 11 (follow a (follow m c)) {}).1 = .ok [(.num 1, none), (.rv ⟨[1, 3, 4], [2, 1, 1], none⟩, none)] ∧
      Unneeded a m c ∧ SetsNothing m ∧ ¬ QuietFunctions a := by
  refine ⟨?_, ?_, ?_, ?_, ?_⟩ <;> decide +kernel

/-- `X: 1`, `X: 2`, `output X`: the last assignment counts. -/
theorem C89_assign_counterexample :
    let m : Block := .cons (.assign "X".toList (.num "1".toList)) .nil
    let m' : Block := .cons (.assign "X".toList (.num "2".toList)) .nil
    let c : Block := .cons (.output (.var "X".toList)) .nil
    (run ⟨false, true, true⟩ 11 (follow m (follow m' c)) {}).1 = .ok [(.num 2, none)] ∧
      (run ⟨false, true, true⟩ 11 (follow m' (follow m c)) {}).1 = .ok [(.num 1, none)] ∧ Unneeded .nil m m' ∧ Unneeded .nil m' m := by
  refine ⟨?_, ?_, ?_, ?_⟩ <;> decide +kernel

end PythonDice
