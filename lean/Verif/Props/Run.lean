import Verif.Proofs.MoreCalls
import Verif.Props.Program
import Verif.Proofs.RunMain
import Verif.Proofs.Agree

/-!
# C63: running the generated text does what the program does; C64: functions of a program call each other at most so deep as set
-/

namespace PythonDice

open Spec Compiler Lexer
open Spec.Py (ReadsProgram)

/-! ## C63 -/

/-- **C63** (src/parser/parse_and_exec.py:76-86, 126-135 and the code that it runs), partial: a compiled text, read by Python and run with
`unsafe_exec`, gives the outputs of the program, with their names and in their order, or fails with its error, and leaves the state of the
library (settings, memo of dice, warnings) as running the program would.  Here a program is run on its tree: every function on a copy of the
variables of its caller if NON_LOCAL_SCOPE is set, otherwise on its own variables, reading those of the program.
Missing: names that mean something in Python, types of parameters other than `n`, `s` and `d`, functions in functions, strings in expressions,
`[true div A B]` if NON_LOCAL_SCOPE is set, and what is missing of C62. -/
theorem C63_run_partial (fl : Flags) {s t : List Char} {b : Block} (h : compile fl Char.isDigit s = .ok t)
    (hs : SourceOf (tokens Char.isDigit s) b) (hlit : LiteralsIn PlainChar (tokens Char.isDigit s)) (hc : cleanB (passFlags fl b) b = true)
    (hr : noResultB b = true) (hf : freeB (passFlags fl b).style true b = true) {p : Py.Block} (hp : ReadsProgram t p) (n : ℕ) (w : World) :
    ∃ d, Exec.unsafeExec n p w =
      ((run (passFlags fl b).style.rules n b w).1, (run (passFlags fl b).style.rules n b w).2.withDicts d) := by
  rw [(C62_reads_partial fl h hs hlit hc hr p).1 hp]
  exact unsafeExec_run _ n b
    (blockOK_of_formed (dig := Char.isDigit) (lit := PlainChar) b hs.2 ⟨by rw [hs.1]; exact fun _ ht => form_of_tokens ht, by rw [hs.1]; exact hlit⟩)
    hf w

/-- `output [true div 4 2]` -/
def divTree : Block :=
  .cons (.output (.call (.word "true".toList (.word "div".toList (.arg (.num "4".toList) (.arg (.num "2".toList) .nil)))))) .nil

/-- `function: f A:x { result: A } output [f 4]` -/
def typeTree : Block :=
  .cons (.function [.word "f".toList, .typed "A".toList "x".toList] (.cons (.result (.var "A".toList)) .nil))
  (.cons (.output (.call (.word "f".toList (.arg (.num "4".toList) .nil)))) .nil)

example {t : List Char} (h : compile { nonLocal := true } Char.isDigit progText = .ok t) {p : Py.Block} (hp : ReadsProgram t p) :
    (Exec.unsafeExec 11 p {}).1 = .ok [
      (.rv ⟨[5, 6, 7, 8, 9, 10, 11, 12, 13, 14, 15], [1, 2, 3, 4, 5, 6, 5, 4, 3, 2, 1], none⟩, some [.inl 'a', .inr (.num 3), .inl 'b']),
      (.rv ⟨[7, 8, 9, 10, 11, 12, 13, 14, 15, 16, 17], [1, 2, 3, 4, 5, 6, 5, 4, 3, 2, 1], none⟩, some [.inl 'a', .inr (.num 5), .inl 'b']),
      (.num 11, none)] := by
  have key : ∀ n w, (Exec.unsafeExec n p w).1 = (run ⟨true, false, true⟩ n progTree w).1 := by
    intro n w
    obtain ⟨d, hd⟩ := C63_run_partial _ h progTree_source progText_plain (by decide +kernel) (by decide +kernel) (by decide +kernel) hp n w
    have e : (passFlags { nonLocal := true } progTree).style.rules = ⟨true, false, true⟩ := by decide +kernel
    rw [hd, e]
  rw [key]
  decide +kernel

/-- The text of a call of `true div` is accepted, and with NON_LOCAL_SCOPE Python raises TypeError: `true_div` takes no variables.  The program
means the quotient, which is not an int. -/
theorem C63_true_div_counterexample :
    compile { nonLocal := true } Char.isDigit "output [true div 4 2]".toList = .ok "vars = {}\n\noutput(true_div_X_X(4, 2, vars))\n".toList ∧
    (∀ n w, (Exec.unsafeExec n (meanP ⟨true, false, false⟩ divTree) w).1 = .error .type) ∧
    ∀ n w, (run ⟨true, false, true⟩ n divTree w).1 = .error .floatResult := by
  refine ⟨?_, fun n w => rfl, fun n w => ?_⟩
  · rw [compile, Yacc.tables_eq]
    decide +kernel
  · rfl

/-- A parameter may have any word for its type, and then Python raises NameError where the function is defined. -/
theorem C63_type_counterexample :
    compile {} Char.isDigit "function: f A:x { result: A } output [f 4]".toList =
      .ok "@anydice_casting()\ndef f_X(A: x):\n  return A\n\noutput(f_X(4))\n".toList ∧
    (∀ n w, (Exec.unsafeExec n (meanP ⟨false, false, false⟩ typeTree) w).1 = .error .name) ∧
    (run ⟨false, false, true⟩ 11 typeTree {}).1 = .ok [(.num 4, none)] := by
  refine ⟨?_, fun n w => rfl, ?_⟩
  · rw [compile, Yacc.tables_eq]
    decide +kernel
  · decide +kernel

/-! ## C64 -/

/-- **C64** (src/decorators.py:142-158, src/parser/python_resolver.py:119-149), partial: the functions of a program call each other at most as
deep as the maximal depth that is set, whatever is called, and with which arguments: what functions called deeper would do does not matter; and
when the program has succeeded the current depth is what it was.
Missing: programs that set the maximal depth, or set a setting whose name contains variables. -/
theorem C64_depth_partial (R : Rules) {b : Block} (hk : keepsB b = true) (w : World) {n : ℕ} (h0 : 0 < n)
    (hn : w.settings.maxFuncDepth - w.settings.currDepth < n) (base base' : RunCall) :
    runWith R (runCallFrom R base n) b w = runWith R (runCallFrom R base' n) b w ∧
      ∀ o, (runWith R (runCallFrom R base n) b w).1 = .ok o →
        (runWith R (runCallFrom R base n) b w).2.settings.currDepth = w.settings.currDepth ∧
        (runWith R (runCallFrom R base n) b w).2.settings.maxFuncDepth = w.settings.maxFuncDepth := by
  have h := runWith_agree R base base' hn h0 hk w ⟨rfl, rfl⟩
  exact ⟨h.1.symm, fun o ho => ⟨(h.2.1 o ho).1.2, (h.2.1 o ho).1.1⟩⟩

/-- **C64**: however a program ends, the maximal depth is what it was, and the current depth is not below what it was and not above the maximal
depth (or what it was): a failure leaves it raised (C18), but not beyond. -/
theorem C64_failed_partial (R : Rules) {b : Block} (hk : keepsB b = true) (w : World) (n : ℕ) :
    (run R n b w).2.settings.maxFuncDepth = w.settings.maxFuncDepth ∧ w.settings.currDepth ≤ (run R n b w).2.settings.currDepth ∧
      (run R n b w).2.settings.currDepth ≤ max w.settings.currDepth w.settings.maxFuncDepth :=
  (run_within R n _ _ hk w ⟨rfl, rfl⟩).2.2

/-- Running a program, with functions calling each other deep enough. -/
theorem C64_run_partial (R : Rules) {b : Block} (hk : keepsB b = true) (w : World) {n m : ℕ} (h0 : 0 < n)
    (hn : w.settings.maxFuncDepth - w.settings.currDepth < n) (hm : n ≤ m) : run R m b w = run R n b w := by
  obtain ⟨k, rfl⟩ := Nat.exists_eq_add_of_le hm
  rw [run_eq, run_eq, runCall_eq, runCall_eq, runCallFrom_add]
  exact (C64_depth_partial R hk w h0 hn _ _).1

/-- **C64**: a program that does not run out of nested calls does the same if functions may call each other deeper: the result, the outputs and the
whole state are the same.  This holds of every program, whatever it sets. -/
theorem C64_more_calls (R : Rules) (b : Block) {n m : ℕ} (h : n ≤ m) (w : World) (hw : (run R n b w).1 ≠ .error .fuel) : run R m b w = run R n b w :=
  run_extends R h b w hw

/-- The same of the text that is run by Python. -/
theorem C64_text_partial (fl : Flags) {s t : List Char} {b : Block} (h : compile fl Char.isDigit s = .ok t)
    (hs : SourceOf (tokens Char.isDigit s) b) (hlit : LiteralsIn PlainChar (tokens Char.isDigit s)) (hc : cleanB (passFlags fl b) b = true)
    (hr : noResultB b = true) (hf : freeB (passFlags fl b).style true b = true) (hk : keepsB b = true) {p : Py.Block} (hp : ReadsProgram t p)
    (w : World) {n m : ℕ} (h0 : 0 < n) (hn : w.settings.maxFuncDepth - w.settings.currDepth < n) (hm : n ≤ m) :
    (Exec.unsafeExec m p w).1 = (Exec.unsafeExec n p w).1 := by
  obtain ⟨d, hd⟩ := C63_run_partial fl h hs hlit hc hr hf hp m w
  obtain ⟨e, he⟩ := C63_run_partial fl h hs hlit hc hr hf hp n w
  rw [hd, he, C64_run_partial _ hk w h0 hn hm]

/-- `function: f N { if N { result: [f N-1] + 1 } result: 0 } output [f 4] output [f 40]` -/
def countTree : Block :=
  .cons (.function [.word "f".toList, .param "N".toList]
    (.cons (.cond (.var "N".toList)
      (.cons (.result (.bin .add (.call (.word "f".toList (.arg (.bin .sub (.var "N".toList) (.num "1".toList)) .nil))) (.num "1".toList))) .nil) .done)
    (.cons (.result (.num "0".toList)) .nil)))
  (.cons (.output (.call (.word "f".toList (.arg (.num "4".toList) .nil))))
  (.cons (.output (.call (.word "f".toList (.arg (.num "40".toList) .nil)))) .nil))

/-- At the maximal depth there is a blank die, and adding to it gives the number that is added. -/
example (R : Rules) (n : ℕ) (h : 11 ≤ n) : run R n countTree {} = run R 11 countTree {} :=
  C64_run_partial R (by decide +kernel) {} (by decide) (by decide) h

example : (run ⟨true, false, true⟩ 11 countTree {}).1 = .ok [(.num 4, none), (.num 10, none)] := by decide +kernel

/-- `function: f N { if N { result: [f N-1] } result: X } output [f 4]`, which fails in the fifth call: `X` is not defined. -/
def fallTree : Block :=
  .cons (.function [.word "f".toList, .param "N".toList]
    (.cons (.cond (.var "N".toList)
      (.cons (.result (.call (.word "f".toList (.arg (.bin .sub (.var "N".toList) (.num "1".toList)) .nil)))) .nil) .done)
    (.cons (.result (.var "X".toList)) .nil)))
  (.cons (.output (.call (.word "f".toList (.arg (.num "4".toList) .nil)))) .nil)

example : keepsB fallTree = true ∧ (∃ e, (run ⟨true, false, true⟩ 11 fallTree {}).1 = .error e) ∧
    (run ⟨true, false, true⟩ 11 fallTree {}).2.settings.currDepth = 5 ∧ (run ⟨true, false, true⟩ 11 fallTree {}).2.settings.maxFuncDepth = 10 := by
  refine ⟨by decide +kernel, ⟨.key, by decide +kernel⟩, by decide +kernel, by decide +kernel⟩

/-- The name and parameter of the function below. -/
def deeperDef : List DefPart := [.word "f".toList, .param "A".toList]

/-- The body of the function below. -/
def deeperBody : Block :=
  .cons (.set [.text "maximum function depth".toList] (.bin .add (.var "A".toList) (.num "2".toList)))
    (.cons (.result (.call (.word "f".toList (.arg (.bin .add (.var "A".toList) (.num "1".toList)) .nil)))) .nil)

/-- `function: f A { set "maximum function depth" to A + 2 result: [f A + 1] } output [f 0]` -/
def deeperTree : Block :=
  .cons (.function deeperDef deeperBody)
  (.cons (.output (.call (.word "f".toList (.arg (.num "0".toList) .nil)))) .nil)

theorem setDepth {v : ℤ} (hv : 0 < v) (w : World) :
    settingsSetObj ("maximum function depth".toList.map Sum.inl ++ []) (.num v) w = (.ok (), { w with settings := { w.settings with maxFuncDepth := v } }) := by
  unfold settingsSetObj
  rw [plainText_inl']
  have h1 : settingArg "maximum function depth".toList (.num v) = some (.int v) := rfl
  rw [Option.bind_some, h1]
  show setSetting _ _ w = _
  unfold setSetting
  have h2 : checkedValue (String.ofList "maximum function depth".toList) (.int v) = .ok (.int v) := by
    have e : String.ofList "maximum function depth".toList = "maximum function depth" := by decide +kernel
    rw [e]
    unfold checkedValue
    rw [if_neg (by decide), if_neg (by decide), if_pos rfl, if_pos]
    simpa [PyAny.isPosInt] using hv
  rw [h2]
  rfl


/-- Where the function of the program is defined. -/
def deeperFns (fns : Fns) : Fns := ([some "f".toList, none], .user deeperDef deeperBody) :: fns

/-- The maximal depth is set. -/
def deeperWorld (w : World) (v : ℤ) : World := { w with settings := { w.settings with maxFuncDepth := v } }

theorem bind_fails {α β : Type} {m : M α} {f : α → M β} {w : World} {e : Err} (h : (m w).1 = .error e) : ((m >>= f) w).1 = .error e := by
  rw [M.bind_apply]
  rcases hr : m w with ⟨r, w'⟩
  rw [hr] at h
  have h' : r = .error e := h
  subst h'
  rfl

theorem deeper_body (R : Rules) (call : RunCall) (fns : Fns) (fr : Frame) (k : ℕ) (hA : fr.find "A".toList = some (.num k)) (w : World)
    {e : Err} (hc : (call fr (deeperFns fns) deeperDef deeperBody [.num (k + 1)] (deeperWorld w (k + 2))).1 = .error e) :
    (runB R call deeperBody ⟨deeperFns fns, fr⟩ w).1 = .error e := by
  have hv : runE R call (deeperFns fns) fr (.var "A".toList) = pure (.num k) := by
    rw [runE, getVar, hA]
  have h1 : runSet R call ⟨deeperFns fns, fr⟩ [.text "maximum function depth".toList] (.bin .add (.var "A".toList) (.num "2".toList)) =
      settingsSetObj ("maximum function depth".toList.map Sum.inl ++ []) (.num (k + 2)) := by
    show (textOf R fr [.text "maximum function depth".toList] >>= fun n =>
      runE R call (deeperFns fns) fr (.bin .add (.var "A".toList) (.num "2".toList)) >>= fun o => settingsSetObj n o) = _
    rw [runE, hv, pure_bind]
    rfl
  have h2 : runE R call (deeperFns fns) fr (.call (.word "f".toList (.arg (.bin .add (.var "A".toList) (.num "1".toList)) .nil))) =
      call fr (deeperFns fns) deeperDef deeperBody [.num (k + 1)] := by
    have e : getFn (deeperFns fns) (callSig (.word "f".toList (.arg (.bin .add (.var "A".toList) (.num "1".toList)) .nil))) =
      pure (.user deeperDef deeperBody) := rfl
    rw [runE, e, pure_bind, runArgs, runArgs, runE, hv, pure_bind]
    rfl
  have h3 : runB R call deeperBody ⟨deeperFns fns, fr⟩ = ((settingsSetObj ("maximum function depth".toList.map Sum.inl ++ []) (.num (k + 2)) >>=
      fun _ => pure ((⟨deeperFns fns, fr⟩ : State), none)) >>= fun r => match r.2 with
      | some v => pure (r.1, some v)
      | none => runB R call (.cons (.result (.call (.word "f".toList (.arg (.bin .add (.var "A".toList) (.num "1".toList)) .nil)))) .nil) r.1) := by
    rw [← h1]
    rfl
  rw [h3, M.bind_apply, M.bind_apply, setDepth (by omega)]
  show (runB R call _ ⟨deeperFns fns, fr⟩ (deeperWorld w (k + 2))).1 = _
  rw [runB, runS]
  refine bind_fails (bind_fails ?_)
  show (runE R call (deeperFns fns) fr _ _).1 = _
  rw [h2]
  exact hc

theorem deeper_call (R : Rules) (n : ℕ) : ∀ (fns : Fns) (fr : Frame) (k : ℕ) (w : World), w.settings.currDepth = k →
    k < w.settings.maxFuncDepth → (runCall R n fr (deeperFns fns) deeperDef deeperBody [.num k] w).1 = .error .fuel := by
  induction n with
  | zero => intros; rfl
  | succ n ih =>
    intro fns fr k w h1 h2
    have hle : ¬ w.settings.maxFuncDepth ≤ w.settings.currDepth := by omega
    have hA : (enter R fr deeperDef deeperBody [.num k]).find "A".toList = some (.num k) := by
      unfold enter
      cases R.copy <;> rfl
    rw [runCall]
    unfold fnCall depthCall
    show ((if w.settings.maxFuncDepth ≤ w.settings.currDepth then _ else _ : M Obj) w).1 = _
    rw [if_neg hle]
    refine bind_fails (m := castCall _ _) (w := { w with settings := { w.settings with currDepth := w.settings.currDepth + 1 } }) ?_
    refine bind_fails (m := runB R (runCall R n) deeperBody ⟨deeperFns fns, enter R fr deeperDef deeperBody [.num k]⟩)
      (f := fun r => pure r.2) ?_
    refine deeper_body R _ fns _ k hA _ ?_
    have := ih fns (enter R fr deeperDef deeperBody [.num k]) (k + 1)
      (deeperWorld { w with settings := { w.settings with currDepth := w.settings.currDepth + 1 } } (k + 2)) (by
        show w.settings.currDepth + 1 = _
        push_cast
        omega) (by
        show _ < (k : ℤ) + 2
        push_cast
        omega)
    have hk : (((k + 1 : ℕ)) : ℤ) = k + 1 := by push_cast; rfl
    rw [hk] at this
    exact this

/-- **C64**: a program can set the maximal depth while it runs, and then its functions may call each other without end: it never gets done,
however deep they may call each other. -/
theorem C64_set_counterexample (R : Rules) (n : ℕ) : (run R n deeperTree {}).1 = .error .fuel := by
  refine bind_fails (m := runB R (runCall R n) deeperTree ⟨if R.lib then libraryFns else [], ⟨none, [], []⟩⟩) (w := {}) ?_
  have h : (runE R (runCall R n) (deeperFns (if R.lib then libraryFns else [])) ⟨none, [], []⟩
      (.call (.word "f".toList (.arg (.num "0".toList) .nil))) {}).1 = .error .fuel :=
    deeper_call R n (if R.lib then libraryFns else []) ⟨none, [], []⟩ 0 {} rfl (by decide)
  exact bind_fails (m := runS R (runCall R n) (.output (.call (.word "f".toList (.arg (.num "0".toList) .nil))))
    ⟨deeperFns (if R.lib then libraryFns else []), ⟨none, [], []⟩⟩) (bind_fails h)

end PythonDice
