import Verif.Model.Ops

/-!
# Model: objects, module state, effects

Object-level code is modelled on Python ints.  Simplification: float operands/outcomes and string
outcomes do not occur here (dice over other outcome types are covered by the generic definitions of
`Model/RV.lean`).
-/

namespace PythonDice

/-- The values the library's functions take and return: ints (bools are ints), sequences
(`src/seq.py:10` `Seq`; other iterables of numbers are represented by the `Seq` they are converted to),
dice, blank dice (`src/blackrv.py:9-11`, with `_special_null`). -/
inductive Obj
  | num (n : ℤ)
  | seq (s : List ℤ)
  | rv (r : RV ℤ)
  | blank (special : Bool)
  deriving DecidableEq, Repr

/-- The text of a string, in which the texts of objects (`str(o)`) are inserted. -/
abbrev PyText := List (Char ⊕ Obj)

/-- Module-level state: `SETTINGS` (src/settings.py:16), `_MEMOIZED_ROLLS` (src/roller.py:81), and the
observable effects: number of "reducing probabilities" warnings logged (src/randvar.py:452), number
of times the depth message was printed (src/decorators.py:147-151), a log user functions may write to (the
library itself never does), and, for compiled programs (`Model/Exec.lean`): `all_outputs` of
src/parser/parse_and_exec.py:95, 133, with the names given, and the dictionaries that hold the variables (`vars`). -/
structure World where
  settings : Settings := {}
  memo : List ((ℕ × List ℤ × List ℕ) × RV ℤ) := []
  warns : ℕ := 0
  depthMsgs : ℕ := 0
  trace : List (List Obj) := []
  outs : List (Obj × Option PyText) := []
  dicts : List (List (List Char × Obj)) := []
  deriving DecidableEq, Repr

/-- An effectful computation: reads and updates the state, returns or raises.  State changes made
before an exception persist, as in Python. -/
def M (β : Type) : Type := World → Except Err β × World

namespace M
variable {β γ : Type}

/-- `return x`. -/
protected def pure (x : β) : M β := fun w => (.ok x, w)

/-- Sequencing; an exception skips the rest. -/
protected def bind (m : M β) (f : β → M γ) : M γ := fun w =>
  match m w with
  | (.ok x, w') => f x w'
  | (.error e, w') => (.error e, w')

instance : Monad M where
  pure := M.pure
  bind := M.bind

/-- `raise e`. -/
def throw (e : Err) : M β := fun w => (.error e, w)

/-- The current state. -/
def get : M World := fun w => (.ok w, w)

/-- Update the state. -/
def modify (f : World → World) : M Unit := fun w => (.ok (), f w)

/-- `SETTINGS`. -/
def settings : M Settings := fun w => (.ok w.settings, w)

/-- Run a function that only reads the settings. -/
def ofSettings (f : Settings → Except Err β) : M β := fun w => (f w.settings, w)

/-- Run a function ending with `_INTERNAL_PROB_LIMIT_VALS`: count its warning. -/
def ofLimited (f : Settings → Except Err (β × Bool)) : M β := fun w =>
  match f w.settings with
  | .ok (x, b) => (.ok x, if b then { w with warns := w.warns + 1 } else w)
  | .error e => (.error e, w)

/-- Apply a computation to the elements of a list, in order. -/
def forList (f : β → M γ) : List β → M (List γ)
  | [] => M.pure []
  | x :: xs => do
    let y ← f x
    let ys ← forList f xs
    return y :: ys

end M
end PythonDice
