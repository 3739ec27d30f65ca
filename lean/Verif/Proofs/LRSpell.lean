import Verif.Proofs.LR

/-!
# The symbols that lead to the states of the parser
-/

namespace PythonDice.Yacc

open Lexer (Kind Token)

/-! ## The symbols before a state -/

/-- The shifts of a row. -/
def shiftsOf (s : ℕ) (row : List (ℕ × Action)) : List (ℕ × ℕ × ℕ) :=
  (List.range 41).filterMap fun i =>
    match rowAction (i + 1) row with
    | some (.shift j) => some (s, i + 1, j)
    | _ => none

/-- All transitions: state, symbol, state. -/
def transitions : List (ℕ × ℕ × ℕ) :=
  (List.range 183).flatMap fun s => shiftsOf s (actionData.getD s []) ++ (gotoData.getD s []).map fun e => (s, e.1, e.2)

/-- Every way to the state spells the symbols, the last one first, and then there is a transition by `lhs`. -/
def spells (lhs : ℕ) : List ℕ → ℕ → Bool
  | [], s => (gotoOn s lhs).isSome
  | x :: xs, s =>
    Nat.blt 0 s && (transitions.filter fun e => Nat.beq e.2.2 s).all fun e => Nat.beq e.2.1 x && spells lhs xs e.1

/-- The reductions of a state are possible. -/
def reducesOK (s : ℕ) : Bool :=
  (actionData.getD s []).all fun e =>
    match e.2 with
    | .reduce p =>
      match rules[p - 1]? with
      | some r => spells (ntCode r.lhs) (r.rhs.map Sym.code).reverse s
      | none => false
    | _ => true

set_option maxRecDepth 100000 in
theorem reducesOK_all : ∀ s < 183, reducesOK s = true := by decide +kernel

end PythonDice.Yacc
