import Verif.Props.Sound

/-!
# C80: whether outcomes of weight 0 are dropped does not matter
-/

namespace PythonDice

open Spec Compiler Lexer
open Spec.Py (ReadsProgram)

/-- Programs run by `f` one after the other, whether they fail or not, after `RV_IGNORE_ZERO_PROBS` is set before each of them: what each of them returns
or raises with what it has output until then, and the state after them. -/
def toggled {α : Type} (f : α → M (List (Obj × Option PyText))) : List (Bool × α) → World → List (Except Err (List (Obj × Option PyText)) × List (Obj × Option PyText)) × World
  | [], w => ([], w)
  | (z, b) :: l, w =>
    let r := f b { w with settings := { w.settings with rvIgnoreZeroProbs := z } }
    let rest := toggled f l r.2
    ((r.1, r.2.outs) :: rest.1, rest.2)

theorem SoundWorld.setZeros {b : Bool} {w : World} (h : SoundWorld b w) (z : Bool) : SoundWorld b (w.setZeros z) := ⟨h.memo, h.outs, h.dicts⟩

theorem toggled_warns {α : Type} {f : α → M (List (Obj × Option PyText))} (hf : ∀ b, Sound true Anyhow (f b)) (l : List (Bool × α)) {w : World} (hw : SoundWorld false w) : w.warns ≤ (toggled f l w).2.warns := by
  induction l generalizing w with
  | nil => exact le_rfl
  | cons x l ih =>
    obtain ⟨z, b⟩ := x
    obtain ⟨h1, h2, _⟩ := hf b (w.setZeros z) (hw.setZeros z)
    exact h1.trans (ih (h2 false fun e => by cases e).1)

theorem toggled_same {α : Type} {f : α → M (List (Obj × Option PyText))} (hf : ∀ b, Sound true Anyhow (f b)) (l l' : List (Bool × α)) (h : l.map Prod.snd = l'.map Prod.snd) {w : World} (hw : SoundWorld true w)
    (hn : (toggled f l w).2.warns = w.warns) (z : Bool) :
    (toggled f l' (w.setZeros z)).1 = (toggled f l w).1 ∧ ∃ z', (toggled f l' (w.setZeros z)).2 = (toggled f l w).2.setZeros z' := by
  induction l generalizing l' w z with
  | nil =>
    cases l' with
    | nil => exact ⟨rfl, z, rfl⟩
    | cons x l' => cases h
  | cons x l ih =>
    cases l' with
    | nil => cases h
    | cons x' l' =>
      obtain ⟨z1, b⟩ := x
      obtain ⟨z2, b'⟩ := x'
      rw [List.map_cons, List.map_cons, List.cons.injEq] at h
      obtain ⟨rfl : b = b', h⟩ := h
      have hw0 : SoundWorld false w := ⟨(fun x hx => (hw.memo x hx).mono fun e => by cases e),
        (fun x hx => (hw.outs x hx).mono fun e => by cases e), fun d hd x hx => (hw.dicts d hd x hx).mono fun e => by cases e⟩
      obtain ⟨h1, h2, h3⟩ := hf b (w.setZeros z1) (hw0.setZeros z1)
      have h4 := toggled_warns hf l (h2 false fun e => by cases e).1
      have hn' : (toggled f l (f b (w.setZeros z1)).2).2.warns = w.warns := hn
      have h1' : w.warns ≤ (f b (w.setZeros z1)).2.warns := h1
      have hq : (f b (w.setZeros z1)).2.warns = (w.setZeros z1).warns := by
        change _ = w.warns
        omega
      obtain ⟨z3, e⟩ := h3 rfl hq (hw.setZeros z1) z2
      change f b (w.setZeros z2) = _ at e
      obtain ⟨h5, z', h6⟩ := ih l' h (h2 true fun _ => ⟨rfl, hq, hw.setZeros z1⟩).1 (hn'.trans hq.symm) z3
      change ((f b (w.setZeros z2)).1, (f b (w.setZeros z2)).2.outs) :: (toggled f l' (f b (w.setZeros z2)).2).1 =
          ((f b (w.setZeros z1)).1, (f b (w.setZeros z1)).2.outs) :: (toggled f l (f b (w.setZeros z1)).2).1 ∧
        ∃ z', (toggled f l' (f b (w.setZeros z2)).2).2 = (toggled f l (f b (w.setZeros z1)).2).2.setZeros z'
      rw [e]
      exact ⟨by rw [h5]; rfl, z', h6⟩

/-- **C80** (src/randvar.py:13-75, src/settings.py): set `RV_IGNORE_ZERO_PROBS` to whatever you like before each of any programs run one after the
other.  If no warning is logged under one choice, there is none under any other, and every program returns or raises the same, after the same
outputs. -/
theorem C80_run (R : Rules) (n : ℕ) (l l' : List (Bool × Block)) (h : l.map Prod.snd = l'.map Prod.snd) (hn : (toggled (run R n) l {}).2.warns = 0) :
    (toggled (run R n) l' {}).1 = (toggled (run R n) l {}).1 ∧ (toggled (run R n) l' {}).2.warns = 0 := by
  obtain ⟨h1, z, h2⟩ := toggled_same (sound_run R n) l l' h (fresh_sound true) hn false
  exact ⟨h1, (congrArg World.warns h2).trans hn⟩

/-- C80. The same of all Python programs, compiled from texts or not. -/
theorem C80_exec (n : ℕ) (l l' : List (Bool × Py.Block)) (h : l.map Prod.snd = l'.map Prod.snd)
    (hn : (toggled (Exec.unsafeExec n) l {}).2.warns = 0) :
    (toggled (Exec.unsafeExec n) l' {}).1 = (toggled (Exec.unsafeExec n) l {}).1 ∧ (toggled (Exec.unsafeExec n) l' {}).2.warns = 0 := by
  obtain ⟨h1, z, h2⟩ := toggled_same (sound_exec n) l l' h (fresh_sound true) hn false
  exact ⟨h1, (congrArg World.warns h2).trans hn⟩

/-- `squaring`, with 5 added in the end. -/
def squaringFive : Block :=
  .cons (.assign "A".toList (.bin .eq (.dm (.num "2".toList)) (.num "1".toList)))
  (.cons (.loop "I".toList (.seq (.range (.num "1".toList) (.num "10".toList) .nil))
    (.cons (.assign "A".toList (.bin .and_ (.var "A".toList) (.var "A".toList))) .nil))
  (.cons (.output (.bin .add (.var "A".toList) (.num "5".toList))) .nil))

/-- After a warning it does matter: the outcome 6, which has probability 2 ^ (-1024), is kept with weight 0, or dropped. -/
theorem C80_warned_counterexample :
    (toggled (run ⟨false, true, true⟩ 11) [(false, squaringFive)] {}).1.map Prod.snd = [[(.rv ⟨[5, 6], [1, 0], none⟩, none)]] ∧
    (toggled (run ⟨false, true, true⟩ 11) [(true, squaringFive)] {}).1.map Prod.snd = [[(.rv ⟨[5], [1], none⟩, none)]] ∧
    (toggled (run ⟨false, true, true⟩ 11) [(false, squaringFive)] {}).2.warns = 1 := by
  refine ⟨?_, ?_, ?_⟩ <;> decide +kernel

example : (toggled (run ⟨false, true, true⟩ 11) [(true, twoOutputs), (false, twoOutputs)] {}).2.warns = 0 ∧
    ((toggled (run ⟨false, true, true⟩ 11) [(true, twoOutputs), (false, twoOutputs)] {}).1.map fun r => (r.2.length, r.1.toOption.isSome)) =
      [(2, false), (2, false)] := by
  refine ⟨?_, ?_⟩ <;> decide +kernel

example : (toggled (Exec.unsafeExec 5) [(true, pyOutput), (false, pyOutput)] {}).2.warns = 0 ∧
    ((toggled (Exec.unsafeExec 5) [(true, pyOutput), (false, pyOutput)] {}).1.map fun r => (r.2.length, r.1.toOption.isSome)) =
      [(1, false), (1, false)] := by
  refine ⟨?_, ?_⟩ <;> decide +kernel

end PythonDice
