import Verif.Model.Altcast
import Verif.Props.Roll

/-!
# C68: writing `n *D* d` for rolls
-/

namespace PythonDice

open Spec Altcast

/-- Is it a die or a blank? -/
def Obj.isDie : Obj → Bool
  | .rv _ => true
  | .blank _ => true
  | _ => false

theorem bind_product_nil (m : M Obj) : (do let b ← Term.obj <$> m; product b [] : M Term) = Term.obj <$> m := by
  funext w
  show M.bind (M.bind m fun o => M.pure (Term.obj o)) (fun b => M.pure b) w = M.bind m (fun o => M.pure (Term.obj o)) w
  unfold M.bind M.pure
  rcases m w with ⟨a | a, w'⟩ <;> rfl

/-- **C68** (src/altcast.py), partial: `D * d` is `roll(d)`; `n *D* d` is `roll(n, d)` for numbers and sequences `n` and everything for `d`, with the same
effects and the same errors.
Missing: dice and blanks on the left, for which it is false (see below). -/
theorem C68_left_partial (n d : Obj) (hn : n.isDie = false) :
    product (.obj n) [.d, .obj d] = Term.obj <$> roll n d ∧ product .d [.obj d] = Term.obj <$> roll (.num 1) d := by
  match n, hn with
  | .num k, _ => exact ⟨bind_product_nil _, bind_product_nil _⟩
  | .seq s, _ =>
    refine ⟨(bind_product_nil (roll (.num s.sum) d)).trans ?_, bind_product_nil _⟩
    match d with
    | .blank _ => rfl
    | .num _ => rfl
    | .seq _ => rfl
    | .rv _ => rfl

/-- A number before it multiplies the number of dice, not the roll: `a * n *D* d` is `(a * n) *D* d`. -/
theorem C68_factor (a n : ℤ) (d : Obj) : product (.obj (.num a)) [.obj (.num n), .d, .obj d] = Term.obj <$> roll (.num (a * n)) d := bind_product_nil _

/-- **C68** is false for dice on the left: with two outcomes or more it always raises TypeError. -/
theorem C68_random_counterexample (r : RV ℤ) (d : Obj) (hr : 2 ≤ r.vals.length) (w : World) :
    (product (.obj (.rv r)) [.d, .obj d] w).1 = .error .type := by
  simp only [product, mul, if_pos hr]
  rfl

/-- So rolls of rolls cannot be written in this way: `2 *D* 2 *D* 6` raises, where `roll(roll(2, 2), 6)` does not. -/
example : (product (.obj (.num 2)) [.d, .obj (.num 2), .d, .obj (.num 2)] {}).1 = .error .type ∧
    ((do roll (← roll (.num 2) (.num 2)) (.num 2) : M Obj) {}).1 =
      .ok (.rv ⟨[2, 3, 4, 5, 6, 7, 8], [4, 12, 17, 16, 10, 4, 1], some (1, [1, 2], [1, 1])⟩) := by
  constructor <;> decide +kernel

/-- Nor for blanks: `n *D* d` is an ordinary blank where `roll(n, d)` is the special one, so that for example comparing it with 1 gives a blank instead
of 1. -/
theorem C68_blank_counterexample (m : ℤ) (w : World) :
    (product (.obj (.blank false)) [.d, .obj (.num m)] w).1 = .ok (.obj (.blank false)) ∧
    (roll (.blank false) (.num m) w).1 = .ok (.blank true) ∧
    ((binop .eq (.blank false) (.num 1)) w).1 = .ok (.blank false) ∧ ((binop .eq (.blank true) (.num 1)) w).1 = .ok (.num 1) :=
  ⟨rfl, rfl, rfl, rfl⟩

example : (product (.obj (.seq [1, 1])) [.d, .obj (.num 2)] {}).1 = .ok (.obj (.rv ⟨[2, 3, 4], [1, 2, 1], some (2, [1, 2], [1, 1])⟩)) := by
  decide +kernel

end PythonDice
