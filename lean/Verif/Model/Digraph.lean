import Mathlib.Data.List.Basic
import Mathlib.Logic.Function.Basic

/-!
# Model of `digraph` and `traverse`: `src/parser/ply/yacc.py:1266-1298`

The algorithm of DeRemer and Pennello for sets of the form `F(x) = F'(x) ∪ ⋃ {F(y) | x R y}`.  Dictionaries are functions; a list that is shared
after line 1293 or 1297 is not changed any more, so that lists are values here.
-/

namespace PythonDice.Digraph

variable {α β : Type} [DecidableEq α] [DecidableEq β]

/-- ply/yacc.py:82 `sys.maxsize`. -/
def MAXINT : ℕ := 2 ^ 63 - 1

/-- `N`, `F` and `stack`; the top of the stack comes first. -/
structure St (α β : Type) where
  N : α → ℕ
  F : α → List β
  stack : List α

/-- ply/yacc.py:1288-1290: append what is not yet there. -/
def merge (f g : List β) : List β := g.foldl (fun f a => if a ∈ f then f else f ++ [a]) f

/-- ply/yacc.py:1292-1298: pop the stack up to `x`; the elements get the set `f`. -/
def pop (x : α) (f : List β) : List α → (α → ℕ) → (α → List β) → St α β
  | [], N, F => ⟨N, F, []⟩
  | e :: st, N, F =>
    if e = x then ⟨Function.update N e MAXINT, Function.update F e f, st⟩
    else pop x f st (Function.update N e MAXINT) (Function.update F e f)

/-- ply/yacc.py:1278-1281. -/
def push (FP : α → List β) (x : α) (s : St α β) : St α β :=
  ⟨Function.update s.N x (s.stack.length + 1), Function.update s.F x (FP x), x :: s.stack⟩

/-- ply/yacc.py:1287-1290. -/
def absorb (x y : α) (s : St α β) : St α β :=
  ⟨Function.update s.N x (min (s.N x) (s.N y)), Function.update s.F x (merge (s.F x) (s.F y)), s.stack⟩

/-- ply/yacc.py:1277-1298 `traverse`; the first argument bounds the depth of the recursion. -/
def traverse (R : α → List α) (FP : α → List β) : ℕ → α → St α β → St α β
  | 0, _, s => s
  | n + 1, x, s =>
    let t := (R x).foldl (fun t y => absorb x y (if t.N y = 0 then traverse R FP n y t else t)) (push FP x s)
    if t.N x = s.stack.length + 1 then pop x (t.F x) t.stack t.N t.F else t

/-- ply/yacc.py:1266-1275 `digraph`. -/
def digraph (X : List α) (R : α → List α) (FP : α → List β) : α → List β :=
  (X.foldl (fun s x => if s.N x = 0 then traverse R FP X.length x s else s) ⟨fun _ => 0, fun _ => [], []⟩).F

end PythonDice.Digraph
