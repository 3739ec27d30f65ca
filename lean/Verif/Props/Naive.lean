import Verif.Proofs.NaiveRun
import Verif.Proofs.MoreCalls
import Verif.Props.Run

/-!
# C66: the outputs of a program have the laws that enumeration gives; C70: such a program runs to its end
-/

namespace PythonDice

open Spec Compiler Lexer
open Spec.Py (ReadsProgram)
open Spec.Naive (Shows ShowsText ShowsOutput)

theorem Enum.Rep.shows {o : Obj} {v : Naive.Val} (h : Enum.Rep o v) : Shows o v := by
  match o, v, h with
  | .num a, .num _, h => exact h
  | .seq a, .seq _, h => exact h
  | .blank a, .blank _, h => exact h
  | .rv r, .die l p, h =>
    refine ⟨h.1.proper.nonempty, h.1.proper.len, h.1.proper.sorted, fun q hq => Nat.pos_of_ne_zero (h.1.nz q hq), h.1.coprime, fun v => ?_⟩
    rw [Pr]
    refine (h.1.law fun x => if x = v then 1 else 0).trans ?_
    unfold Naive.prob Naive.mean
    generalize l = l
    induction l with
    | nil => rfl
    | cons z l ih =>
      by_cases hz : z.1 = v
      · simp [hz]; simpa using ih
      · simp [hz]; simpa using ih

theorem Enum.TextRep.shows {t : PyText} {u : Naive.Text} (h : Enum.TextRep t u) : ShowsText t u := by
  refine List.Forall₂.imp (fun a b hab => ?_) h
  match a, b, hab with
  | .inl _, .inl _, hab => exact hab
  | .inr _, .inr _, hab => exact Enum.Rep.shows hab

theorem Enum.OutRep.shows {o : Obj × Option PyText} {v : Naive.Val × Option Naive.Text} (h : Enum.OutRep o v) : ShowsOutput o v := by
  match o, v, h with
  | (_, none), (_, none), h => exact Enum.Rep.shows h
  | (_, some _), (_, some _), h => exact ⟨Enum.Rep.shows h.1, Enum.TextRep.shows h.2⟩

/-- **C70** (everything that a program uses: src/randvar.py, src/seq.py, src/roller.py, src/decorators.py, src/funclib.py, src/blackrv.py), partial: a
program that enumeration of all outcomes gives outputs for runs to its end, whatever state it begins in, if functions may call each other deep
enough: it outputs what enumeration gives, or probabilities were rounded (a warning was logged), or the limiter of probabilities raised an
OverflowError.  `c` tells how often dice explode, whether the lowest die is the first, how deep functions may be called and how deep they may still be called;
the program may change this outside functions.  The dice that come out have exactly the possible outcomes, each once, in ascending order, with exactly their
probabilities, in lowest terms; numbers, sequences and blanks are equal; names show the right values.
Missing: see C66. -/
theorem C70_ends_partial (R : Rules) {c : Naive.Config} {b : Block} {vs : List (Naive.Val × Option Naive.Text)}
    (hv : Naive.outputs R c b = some vs) : ∃ N, ∀ n, N ≤ n → ∀ w, Reachable w → w.settings.maxFuncDepth = c.depth →
      w.settings.maxFuncDepth - w.settings.currDepth = c.left → w.settings.explodeDepth.toNat = c.explode →
      w.settings.positionOrder = (if c.low then .lowestFirst else .highestFirst) → (run R n b w).2.warns = 0 →
      (run R n b w).1 = .error .overflow ∨ ∃ outs, (run R n b w).1 = .ok outs ∧ List.Forall₂ ShowsOutput outs vs := by
  obtain ⟨N, hN⟩ := Enum.rep_run hv
  refine ⟨N, fun n hn w hw hd hk he hp h0 => ?_⟩
  rcases hN n hn w hw ⟨hd, hk, hp, he⟩ h0 with h | ⟨outs, ho, hs⟩
  · exact .inl h
  · exact .inr ⟨outs, ho, hs.imp fun _ _ h => h.shows⟩

/-- **C66** (the same code), partial: if a program runs without error, however deep functions may call each other, and no probabilities were
rounded, then its outputs, in their order, are what enumeration of all outcomes gives:
numbers, sequences and blanks are equal, and every die has exactly the possible outcomes, each once, in ascending order, with exactly their
probabilities, in lowest terms; names show the right values.
Missing: functions that output or change settings, strings and decimals, and dice of a random
number of dice where it matters what they are made of (`#`, `@` and parameters that are sequences), for which the code is wrong (see below). -/
theorem C66_laws_partial (R : Rules) (n : ℕ) {c : Naive.Config} {b : Block} {vs : List (Naive.Val × Option Naive.Text)}
    (hv : Naive.outputs R c b = some vs) {w : World}
    (hw : Reachable w) (hd : w.settings.maxFuncDepth = c.depth) (hk : w.settings.maxFuncDepth - w.settings.currDepth = c.left)
    (he : w.settings.explodeDepth.toNat = c.explode) 
    (hp : w.settings.positionOrder = if c.low then .lowestFirst else .highestFirst)
    {outs : List (Obj × Option PyText)} (h : (run R n b w).1 = .ok outs)
    (h0 : (run R n b w).2.warns = 0) : List.Forall₂ ShowsOutput outs vs := by
  obtain ⟨N, hN⟩ := C70_ends_partial R hv
  have e := run_extends R (le_max_left n N) b w (by rw [h]; exact fun h => by cases h)
  rw [← e] at h h0
  rcases hN _ (le_max_right n N) w hw hd hk he hp h0 with h' | ⟨outs', ho, hs⟩
  · rw [h] at h'; cases h'
  · rw [h] at ho; cases ho
    exact hs

/-- C66 of source texts: compiled, read by Python and run. -/
theorem C66_text_partial (fl : Flags) {s t : List Char} {b : Block} (h : compile fl Char.isDigit s = .ok t)
    (hs : SourceOf (tokens Char.isDigit s) b) (hlit : LiteralsIn PlainChar (tokens Char.isDigit s)) (hc : cleanB (passFlags fl b) b = true)
    (hr : noResultB b = true) (hf : freeB (passFlags fl b).style true b = true) {p : Py.Block} (hp : ReadsProgram t p) (n : ℕ)
    {vs : List (Naive.Val × Option Naive.Text)} (hv : Naive.outputs (passFlags fl b).style.rules ⟨2, false, 10, 10⟩ b = some vs)
    {outs : List (Obj × Option PyText)} (ho : (Exec.unsafeExec n p {}).1 = .ok outs) (h0 : (Exec.unsafeExec n p {}).2.warns = 0) :
    List.Forall₂ ShowsOutput outs vs := by
  obtain ⟨d, hd⟩ := C63_run_partial fl h hs hlit hc hr hf hp n {}
  rw [hd] at ho h0
  exact C66_laws_partial _ n (c := ⟨2, false, 10, 10⟩) hv Reachable.init rfl rfl rfl rfl ho h0

/-- C70 of source texts: compiled, read by Python and run. -/
theorem C70_text_partial (fl : Flags) {s t : List Char} {b : Block} (h : compile fl Char.isDigit s = .ok t)
    (hs : SourceOf (tokens Char.isDigit s) b) (hlit : LiteralsIn PlainChar (tokens Char.isDigit s)) (hc : cleanB (passFlags fl b) b = true)
    (hr : noResultB b = true) (hf : freeB (passFlags fl b).style true b = true) {p : Py.Block} (hp : ReadsProgram t p)
    {vs : List (Naive.Val × Option Naive.Text)} (hv : Naive.outputs (passFlags fl b).style.rules ⟨2, false, 10, 10⟩ b = some vs) :
    ∃ N, ∀ n, N ≤ n → (Exec.unsafeExec n p {}).2.warns = 0 → (Exec.unsafeExec n p {}).1 = .error .overflow ∨
      ∃ outs, (Exec.unsafeExec n p {}).1 = .ok outs ∧ List.Forall₂ ShowsOutput outs vs := by
  obtain ⟨N, hN⟩ := C70_ends_partial _ hv
  refine ⟨N, fun n hn h0 => ?_⟩
  obtain ⟨d, hd⟩ := C63_run_partial fl h hs hlit hc hr hf hp n {}
  rw [hd] at h0 ⊢
  exact hN n hn {} Reachable.init rfl rfl rfl rfl h0

/-- `function: f A:n { if A > 1 { result: d4 } result: A } output [f d3] output [highest 1 of 2d4] named "x" output [explode d3] output [f 5] > 2` -/
def lawTree : Block :=
  .cons (.function [.word "f".toList, .typed "A".toList "n".toList]
    (.cons (.cond (.bin .gt (.var "A".toList) (.num "1".toList)) (.cons (.result (.dm (.num "4".toList))) .nil) .done)
    (.cons (.result (.var "A".toList)) .nil)))
  (.cons (.output (.call (.word "f".toList (.arg (.dm (.num "3".toList)) .nil))))
  (.cons (.outputNamed (.call (.word "highest".toList (.arg (.num "1".toList) (.word "of".toList (.arg (.ndm (.num "2".toList) (.num "4".toList)) .nil)))))
    [.text "x".toList])
  (.cons (.output (.call (.word "explode".toList (.arg (.dm (.num "3".toList)) .nil))))
  (.cons (.output (.bin .gt (.call (.word "f".toList (.arg (.num "5".toList) .nil))) (.num "2".toList))) .nil))))

/-- It runs without warnings, and enumeration describes all four outputs. -/
example : (run ⟨true, false, true⟩ 11 lawTree {}).2.warns = 0 ∧
    (run ⟨true, false, true⟩ 11 lawTree {}).1 = .ok [
      (.rv ⟨[1, 2, 3, 4], [3, 1, 1, 1], none⟩, none),
      (.rv ⟨[1, 2, 3, 4], [1, 3, 5, 7], none⟩, some [.inl 'x']),
      (.rv ⟨[1, 2, 4, 5, 7, 8, 9], [9, 9, 3, 3, 1, 1, 1], none⟩, none),
      (.rv ⟨[0, 1], [1, 1], none⟩, none)] := by
  constructor <;> decide +kernel

example : (Naive.outputs ⟨true, false, true⟩ ⟨2, false, 10, 10⟩ lawTree).map (·.map fun v => match v.1 with
    | .die l _ => (Naive.support l).map fun v => (v, Naive.prob l v)
    | _ => []) = some [[(1, 1/2), (2, 1/6), (3, 1/6), (4, 1/6)], [(1, 1/16), (2, 3/16), (3, 5/16), (4, 7/16)],
      [(1, 1/3), (2, 1/3), (4, 1/9), (5, 1/9), (7, 1/27), (8, 1/27), (9, 1/27)], [(0, 1/2), (1, 1/2)]] := by
  decide +kernel

example {outs : List (Obj × Option PyText)} (h : (run ⟨true, false, true⟩ 11 lawTree {}).1 = .ok outs)
    {vs : List (Naive.Val × Option Naive.Text)} (hv : Naive.outputs ⟨true, false, true⟩ ⟨2, false, 10, 10⟩ lawTree = some vs) :
    List.Forall₂ ShowsOutput outs vs :=
  C66_laws_partial _ 11 (c := ⟨2, false, 10, 10⟩) hv Reachable.init rfl rfl rfl rfl h (by decide +kernel)

/-- `function: f N:n { result: 1 + [f N] } set "explode depth" to 1 output [explode d2] set "maximum function depth" to 3 output [f d2]
set "position order" to "lowest first" output 1@3d2 output {1, 2}@3d2 set "position order" to "highest first" output 1@2d2` -/
def settingTree : Block :=
  .cons (.function [.word "f".toList, .typed "N".toList "n".toList]
    (.cons (.result (.bin .add (.num "1".toList) (.call (.word "f".toList (.arg (.var "N".toList) .nil))))) .nil))
  (.cons (.set [.text "explode depth".toList] (.num "1".toList))
  (.cons (.output (.call (.word "explode".toList (.arg (.dm (.num "2".toList)) .nil))))
  (.cons (.set [.text "maximum function depth".toList] (.num "3".toList))
  (.cons (.output (.call (.word "f".toList (.arg (.dm (.num "2".toList)) .nil))))
  (.cons (.set [.text "position order".toList] (.str [.text "lowest first".toList]))
  (.cons (.output (.bin .at_ (.num "1".toList) (.ndm (.num "3".toList) (.num "2".toList))))
  (.cons (.output (.bin .at_ (.seq (.expr (.num "1".toList) (.expr (.num "2".toList) .nil))) (.ndm (.num "3".toList) (.num "2".toList))))
  (.cons (.set [.text "position order".toList] (.str [.text "highest first".toList]))
  (.cons (.output (.bin .at_ (.num "1".toList) (.ndm (.num "2".toList) (.num "2".toList)))) .nil)))))))))

/-- A die explodes once, and functions call themselves three deep.  With the lowest die first, the first die is the lowest, but the first two dice
are the highest ones. -/
example : (run ⟨true, false, true⟩ 11 settingTree {}).2.warns = 0 ∧
    (run ⟨true, false, true⟩ 11 settingTree {}).1 = .ok [(.rv ⟨[1, 3, 4], [2, 1, 1], none⟩, none), (.rv ⟨[3], [1], none⟩, none),
      (.rv ⟨[1, 2], [7, 1], none⟩, none), (.rv ⟨[2, 3, 4], [1, 3, 4], none⟩, none), (.rv ⟨[1, 2], [1, 3], none⟩, none)] := by
  constructor <;> decide +kernel

example : (Naive.outputs ⟨true, false, true⟩ ⟨2, false, 10, 10⟩ settingTree).map (·.map fun v => match v.1 with
    | .die l _ => (Naive.support l).map fun v => (v, Naive.prob l v)
    | _ => []) = some [[(1, 1/2), (3, 1/4), (4, 1/4)], [(3, 1)], [(1, 7/8), (2, 1/8)], [(2, 1/8), (3, 3/8), (4, 1/2)], [(1, 1/4), (2, 3/4)]] := by
  decide +kernel

/-- `X: d2 loop N over {1..2} { output N + X named "[N] and [X]" } set "RV_TRUNC" to "True" output 6 / d2` -/
def namedTree : Block :=
  .cons (.assign "X".toList (.dm (.num "2".toList)))
  (.cons (.loop "N".toList (.seq (.range (.num "1".toList) (.num "2".toList) .nil))
    (.cons (.outputNamed (.bin .add (.var "N".toList) (.var "X".toList)) [.var "N".toList, .text " and ".toList, .var "X".toList]) .nil))
  (.cons (.set [.text "RV_TRUNC".toList] (.str [.text "True".toList]))
  (.cons (.output (.bin .div (.num "6".toList) (.dm (.num "2".toList)))) .nil)))

/-- Enumeration describes it, with the names; so it runs to its end. -/
example : (Naive.outputs ⟨true, false, true⟩ ⟨2, false, 10, 10⟩ namedTree).map (·.map fun v => ((match v.1 with
    | .die l _ => (Naive.support l).map fun v => (v, Naive.prob l v)
    | _ => []), v.2.map fun t => t.map fun
    | .inl a => a
    | .inr (.num n) => if n = 1 then '1' else '2'
    | .inr _ => 'X')) = some [([(2, 1/2), (3, 1/2)], some "1 and X".toList), ([(3, 1/2), (4, 1/2)], some "2 and X".toList),
      ([(3, 1/2), (6, 1/2)], none)] := by
  decide +kernel

example : (run ⟨true, false, true⟩ 11 namedTree {}).2.warns = 0 ∧ (run ⟨true, false, true⟩ 11 namedTree {}).1 = .ok [
    (.rv ⟨[2, 3], [1, 1], none⟩, some (.inr (.num 1) :: " and ".toList.map .inl ++ [.inr (.rv ⟨[1, 2], [1, 1], none⟩)])),
    (.rv ⟨[3, 4], [1, 1], none⟩, some (.inr (.num 2) :: " and ".toList.map .inl ++ [.inr (.rv ⟨[1, 2], [1, 1], none⟩)])),
    (.rv ⟨[3, 6], [1, 1], none⟩, none)] := by
  constructor <;> decide +kernel

/-- `output 6 / (d3 - 1)`: enumeration gives nothing, for the divisor may be 0, and the program fails. -/
example : Naive.outputs ⟨true, false, true⟩ ⟨2, false, 10, 10⟩
      (.cons (.output (.bin .div (.num "6".toList) (.group (.bin .sub (.dm (.num "3".toList)) (.num "1".toList))))) .nil) = none ∧
    (run ⟨true, false, true⟩ 11
      (.cons (.output (.bin .div (.num "6".toList) (.group (.bin .sub (.dm (.num "3".toList)) (.num "1".toList))))) .nil) {}).1 =
        .error .zeroDivision := by
  constructor <;> decide +kernel

/-- `function: f S:s { result: S + 0 } output (d2)d2 output [f (d2)d2] output #(d2)d2 output 1@(d2)d2` -/
def poolTree : Block :=
  .cons (.function [.word "f".toList, .typed "S".toList "s".toList] (.cons (.result (.bin .add (.var "S".toList) (.num "0".toList))) .nil))
  (.cons (.output (.ndm (.group (.dm (.num "2".toList))) (.num "2".toList)))
  (.cons (.output (.call (.word "f".toList (.arg (.ndm (.group (.dm (.num "2".toList))) (.num "2".toList)) .nil))))
  (.cons (.output (.hash (.ndm (.group (.dm (.num "2".toList))) (.num "2".toList))))
  (.cons (.output (.bin .at_ (.num "1".toList) (.ndm (.group (.dm (.num "2".toList))) (.num "2".toList)))) .nil))))

/-- Why dice of a random number of dice are missing (src/roller.py:72-77): such a die is recorded as a single die.  The sum of its dice, taken by a
function whose parameter is a sequence, is not the die: at most 2 instead of at most 4.  There is always one die, and the highest of the dice is
2 with probability 1/2, where it should be 1/2 * 1/2 + 1/2 * 3/4. -/
theorem C66_random_pool_counterexample (R : Rules) : (run R 11 poolTree {}).1 = .ok [
    (.rv ⟨[1, 2, 3, 4], [2, 3, 2, 1], some (1, [1, 2], [1, 1])⟩, none),
    (.rv ⟨[1, 2], [1, 1], none⟩, none), (.num 1, none), (.rv ⟨[1, 2], [1, 1], none⟩, none)] := by
  obtain ⟨a, b, c⟩ := R
  cases a <;> cases b <;> cases c <;> decide +kernel

end PythonDice
