import Verif.Model.Cast

/-!
# Specification vocabulary: user programs calling decorated functions

A program is an arbitrary call tree: it performs library operations, calls functions decorated with
`anydice_casting`, raises and catches exceptions, and returns.
-/

namespace PythonDice

/-- A computation that leaves the settings and the observable effects alone. -/
def Quiet {β : Type} (m : M β) : Prop :=
  ∀ w, (m w).2.settings = w.settings ∧ (m w).2.depthMsgs = w.depthMsgs ∧ (m w).2.trace = w.trace

/-- `try: m; except: h`. -/
def M.attempt {β : Type} (m : M β) : M (Option β) := fun w =>
  match m w with
  | (.ok x, w') => (.ok (some x), w')
  | (.error _, w') => (.ok none, w')

/-- User programs. -/
inductive Prog : Type
  /-- `return o` -/
  | ret (o : Option Obj)
  /-- `raise e` -/
  | fail (e : Err)
  /-- a library operation -/
  | op (m : M Obj) (h : Quiet m) (k : Obj → Prog)
  /-- a call of a decorated function with body `f` -/
  | call (f : List Obj → Prog) (args : List (Option Ty × Obj)) (k : Obj → Prog)
  /-- `try: p; except: ...` (`none` after an exception) -/
  | attempt (p : Prog) (k : Option (Option Obj) → Prog)

/-- Note that a body starts executing at nesting level `l`. -/
def enter (l : ℕ) : M Unit := M.modify fun w => { w with trace := w.trace ++ [[.num l]] }

namespace Prog

/-- Run a program at nesting level `g`: `g` bodies of decorated functions are executing.  Every body
records its level when it starts. -/
def exec (g : ℕ) : Prog → M (Option Obj)
  | .ret o => pure o
  | .fail e => M.throw e
  | .op m _ k => do let o ← m; (k o).exec g
  | .call f args k => do
    let o ← fnCall (fun a => do enter (g + 1); (f a).exec (g + 1)) args
    (k o).exec g
  | .attempt p k => do
    let r ← M.attempt (p.exec g)
    (k r).exec g

/-- What a decorated call runs, at nesting level `g`. -/
def castBody (g : ℕ) (f : List Obj → Prog) (args : List (Option Ty × Obj)) : M (Option Obj) :=
  castCall (fun a => do enter (g + 1); (f a).exec (g + 1)) args

/-- No exception leaves a decorated function called by the program. -/
def CallsReturn : Prog → Prop
  | .ret _ => True
  | .fail _ => True
  | .op _ _ k => ∀ o, (k o).CallsReturn
  | .call f args k => (∀ g w, ∃ o, (castBody g f args w).1 = .ok o) ∧ ∀ o, (k o).CallsReturn
  | .attempt p k => p.CallsReturn ∧ ∀ r, (k r).CallsReturn

/-- Exceptions are only caught where they did not leave a decorated function. -/
def Contained : Prog → Prop
  | .ret _ => True
  | .fail _ => True
  | .op _ _ k => ∀ o, (k o).Contained
  | .call f _ k => (∀ a, (f a).Contained) ∧ ∀ o, (k o).Contained
  | .attempt p k => p.Contained ∧ p.CallsReturn ∧ ∀ r, (k r).Contained

end Prog
end PythonDice
