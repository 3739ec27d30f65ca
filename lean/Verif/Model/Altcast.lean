import Verif.Model.SeqOps

/-!
# Model of `src/altcast.py`: writing `n *D* d` for rolls

Python reads `n * D * d` as `(n * D) * d`.
-/

namespace PythonDice.Altcast

/-- What the operands of `*` can be: objects of the library, `D` (src/altcast.py:19), or what is waiting for the die (`D_WITH_LEFT`, lines 11-16). -/
inductive Term
  | obj (o : Obj)
  | d
  | left (n : Obj)
  deriving DecidableEq

/-- `a * b`; src/altcast.py:4-16, and the methods `__mul__` of the library where the left operand has one: src/seq.py:85-86, src/randvar.py:201-213,
src/blackrv.py.  A die times `D` is a die whose outcomes are `D_WITH_LEFT` objects; sorting them (src/randvar.py:50) or, under `RV_TRUNC`,
truncating them (line 30) raises TypeError if there are two or more; with one outcome it gives an object that the model does not have.  Neither
does it have `roll(D)`. -/
def mul : Term → Term → M Term
  | .obj a, .obj b => .obj <$> binop .mul a b
  | .obj (.num n), .d => pure (.left (.num n))
  | .obj (.seq s), .d => pure (.left (.num s.sum))
  | .obj (.rv r), .d => M.throw (if 2 ≤ r.vals.length then .type else .unmodelled)
  | .obj (.blank b), _ => pure (.obj (.blank b))
  | .obj _, .left _ => M.throw .type
  | .d, .obj b => .obj <$> roll1 b
  | .left n, .obj b => .obj <$> roll n b
  | .d, _ => M.throw .unmodelled
  | .left _, _ => M.throw .unmodelled

/-- A product of several factors, as Python evaluates it: from the left. -/
def product (a : Term) (ts : List Term) : M Term :=
  match ts with
  | [] => pure a
  | t :: ts => do
    let b ← mul a t
    product b ts

end PythonDice.Altcast
