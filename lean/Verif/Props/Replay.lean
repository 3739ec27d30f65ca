import Verif.Proofs.Tidy
import Verif.Props.Run

/-!
# Properties of programs run one after the other (C76)
-/

namespace PythonDice

open Spec Compiler Lexer
open Spec.Py (ReadsProgram)

theorem run_pure (R : Rules) (n : ℕ) {b : Block} (hb : LeavesZeros b) {z : Bool} {w : World} (hw : MemoPure z w) : MemoPure z (run R n b w).2 :=
  (run_replays R n hb (Alike.refl _) hw hw).2.left

theorem session_pure (R : Rules) (n : ℕ) {z : Bool} : ∀ (ps : List Block) (w : World), (∀ p ∈ ps, LeavesZeros p) → MemoPure z w →
    MemoPure z (session R n ps w)
  | [], _, _, hw => hw
  | p :: ps, w, hp, hw => session_pure R n ps _ (fun q hq => hp q (List.mem_cons_of_mem _ hq)) (run_pure R n (hp p (List.mem_cons_self ..)) hw)

theorem fresh_pure : MemoPure false ({} : World) := (History.init {} rfl).memoPure

/-- **C76** (src/roller.py:79-101, src/settings.py:2-16, src/parser/parse_and_exec.py:125-135), partial: whatever was rolled before, and whatever is
in the settings that concern only how things are shown and how often warnings are given, a program gives the same outputs, or fails with the same
exception; and the settings after it are the same.  Missing: histories and programs that change 'RV_IGNORE_ZERO_PROBS'
(`C11_history_counterexample`). -/
theorem C76_history_partial (R : Rules) (n : ℕ) {b : Block} (hb : LeavesZeros b) {z : Bool} {w w' : World} (hw : History z w) (hw' : History z w')
    (ho : w'.settings.positionOrder = w.settings.positionOrder) (he : w'.settings.explodeDepth = w.settings.explodeDepth)
    (hm : w'.settings.maxFuncDepth = w.settings.maxFuncDepth) (hc : w'.settings.currDepth = w.settings.currDepth) :
    (run R n b w').1 = (run R n b w).1 ∧ Alike (run R n b w).2.settings (run R n b w').2.settings := by
  have hz : w'.settings.rvIgnoreZeroProbs = w.settings.rvIgnoreZeroProbs := hw'.memoPure.1.trans hw.memoPure.1.symm
  have h := run_replays R n hb ⟨hz, ho, he, hm, hc⟩ hw.memoPure hw'.memoPure
  exact ⟨h.1, h.2.settings⟩

/-- C76. After any programs, failed or not, and `settings_reset()`, a program gives what it gives in a new interpreter. -/
theorem C76_after_reset (R : Rules) (n : ℕ) {ps : List Block} (hp : ∀ p ∈ ps, LeavesZeros p) {b : Block} (hb : LeavesZeros b) :
    (run R n b { session R n ps {} with settings := {} }).1 = (run R n b {}).1 := by
  have h := session_pure R n ps {} hp fresh_pure
  exact (run_replays R n hb (w := {}) (w' := { session R n ps {} with settings := {} }) (Alike.refl _) fresh_pure ⟨rfl, h.2⟩).1

/-- C76. After programs that set nothing, none of which failed, a program gives what it would have given before them. -/
theorem C76_after_success (R : Rules) (n : ℕ) {z : Bool} {b : Block} (hb : LeavesZeros b) :
    ∀ {ps : List Block} {w : World}, (∀ p ∈ ps, SetsNothing p) → History z w → AllSucceed R n ps w →
      (run R n b (session R n ps w)).1 = (run R n b w).1 := by
  have key : ∀ (ps : List Block) (w : World), (∀ p ∈ ps, SetsNothing p) → MemoPure z w → AllSucceed R n ps w →
      Alike w.settings (session R n ps w).settings := by
    intro ps
    induction ps with
    | nil => exact fun w _ _ _ => Alike.refl _
    | cons p ps ih =>
      intro w hp hw ⟨⟨o, ho⟩, hs⟩
      have h1 := run_tidy R n (hp p (List.mem_cons_self ..)) w o ho
      exact h1.trans (ih _ (fun q hq => hp q (List.mem_cons_of_mem _ hq)) (run_pure R n (hp p (List.mem_cons_self ..)).leaves hw) hs)
  intro ps w hp hw ha
  exact (run_replays R n hb (key ps w hp hw.memoPure ha) hw.memoPure
    (session_pure R n ps w (fun q hq => (hp q hq).leaves) hw.memoPure)).1

/-- C76. A program that sets nothing and succeeds gives the same outputs when it is run again. -/
theorem C76_again (R : Rules) (n : ℕ) {z : Bool} {b : Block} (hb : SetsNothing b) {w : World} (hw : History z w) {o : List (Obj × Option PyText)}
    (h : (run R n b w).1 = .ok o) : (run R n b (run R n b w).2).1 = .ok o := by
  rw [← h]
  exact C76_after_success R n hb.leaves (ps := [b]) (fun p hp => by rw [List.mem_singleton.1 hp]; exact hb) hw ⟨⟨o, h⟩, trivial⟩

/-- C76. The same of the text that the compiler makes: it gives the same outputs, or fails with the same exception, whatever was rolled before. -/
theorem C76_text_partial (fl : Flags) {s t : List Char} {b : Block} (h : compile fl Char.isDigit s = .ok t)
    (hs : SourceOf (tokens Char.isDigit s) b) (hlit : LiteralsIn PlainChar (tokens Char.isDigit s)) (hc : cleanB (passFlags fl b) b = true)
    (hr : noResultB b = true) (hf : freeB (passFlags fl b).style true b = true) {p : Py.Block} (hp : ReadsProgram t p) (n : ℕ)
    (hb : LeavesZeros b) {z : Bool} {w w' : World} (hw : History z w) (hw' : History z w') (hset : w'.settings = w.settings) :
    (Exec.unsafeExec n p w').1 = (Exec.unsafeExec n p w).1 := by
  obtain ⟨d, h1⟩ := C63_run_partial fl h hs hlit hc hr hf hp n w
  obtain ⟨d', h2⟩ := C63_run_partial fl h hs hlit hc hr hf hp n w'
  rw [h1, h2]
  exact (C76_history_partial _ n hb hw hw' (by rw [hset]) (by rw [hset]) (by rw [hset]) (by rw [hset])).1

/-- `output [explode d2] set "explode depth" to 1` -/
def leaking : Block :=
  .cons (.output (.call (.word "explode".toList (.arg (.dm (.num "2".toList)) .nil))))
    (.cons (.set [.text "explode depth".toList] (.num "1".toList)) .nil)

/-- C76: what a program sets stays set.  The same program gives other outputs when it is run again. -/
theorem C76_set_counterexample :
    (run ⟨false, true, true⟩ 11 leaking {}).1 ≠ (run ⟨false, true, true⟩ 11 leaking (run ⟨false, true, true⟩ 11 leaking {}).2).1 ∧
      LeavesZeros leaking := by
  constructor
  · decide +kernel
  · decide +kernel

/-- `function: f X:n { result: Y } output [f 1]` -/
def failing : Block :=
  .cons (.function [.word "f".toList, .typed "X".toList "n".toList] (.cons (.result (.var "Y".toList)) .nil))
    (.cons (.output (.call (.word "f".toList (.arg (.num "1".toList) .nil)))) .nil)

/-- `function: g X:n { result: X } output [g 1]` -/
def working : Block :=
  .cons (.function [.word "g".toList, .typed "X".toList "n".toList] (.cons (.result (.var "X".toList)) .nil))
    (.cons (.output (.call (.word "g".toList (.arg (.num "1".toList) .nil)))) .nil)

/-- C76: a program that fails in a function leaves the depth raised.  After ten such programs no function can be called: instead of 1 there is a blank
die, though none of the programs set anything. -/
theorem C76_failed_counterexample :
    (run ⟨false, true, true⟩ 11 working {}).1 = .ok [(.num 1, none)] ∧
      (run ⟨false, true, true⟩ 11 working (session ⟨false, true, true⟩ 11 (List.replicate 10 failing) {})).1 = .ok [(.blank false, none)] ∧
      SetsNothing working ∧ SetsNothing failing := by
  refine ⟨?_, ?_, ?_, ?_⟩ <;> decide +kernel

/-- `output 2d2 output [highest 1 of 3d2] named "x"` -/
def twice : Block :=
  .cons (.output (.ndm (.num "2".toList) (.num "2".toList)))
    (.cons (.outputNamed (.call (.word "highest".toList (.arg (.num "1".toList) (.word "of".toList
      (.arg (.ndm (.num "3".toList) (.num "2".toList)) .nil))))) [.text "x".toList]) .nil)

example : SetsNothing twice ∧ (∃ o, (run ⟨false, true, true⟩ 11 twice {}).1 = .ok o) ∧
    (run ⟨false, true, true⟩ 11 twice {}).2.memo ≠ [] := by
  refine ⟨by decide +kernel, ⟨[(.rv ⟨[2, 3, 4], [1, 2, 1], some (2, [1, 2], [1, 1])⟩, none),
    (.rv ⟨[1, 2], [1, 7], none⟩, some ("x".toList.map Sum.inl))], ?_⟩, ?_⟩ <;> decide +kernel

example : (run ⟨false, true, true⟩ 11 leaking { session ⟨false, true, true⟩ 11 [leaking, failing, twice] {} with settings := {} }).1 =
    (run ⟨false, true, true⟩ 11 leaking {}).1 := C76_after_reset _ _ (by
      intro p hp
      simp only [List.mem_cons, List.not_mem_nil, or_false] at hp
      rcases hp with rfl | rfl | rfl <;> decide +kernel) (by decide +kernel)

end PythonDice
