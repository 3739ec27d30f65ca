import Verif.Proofs.LRSound
import Verif.Spec.Parse

/-!
# What the tables decide about precedence
-/

namespace PythonDice.Yacc

open Lexer (Kind Token)
open Compiler Spec

/-- The binary operators. -/
def binOps : List BinOp := [.add, .sub, .mul, .div, .pow, .at_, .and_, .or_, .lt, .gt, .eq, .ne, .le, .ge]

theorem mem_binOps (op : BinOp) : op ∈ binOps := by cases op <;> decide

/-- The types of the tokens of an operator. -/
def opKinds (op : BinOp) : List Kind := (opTokens op).map Token.kind

/-- The first of them. -/
def opFirst (op : BinOp) : Kind := (opKinds op).headD .plus

/-- The rule for an operator. -/
def opRhs (op : BinOp) : List Sym := .n .expression :: ((opKinds op).map .t ++ [.n .expression])

/-- Where a list of symbols leads. -/
def walkTo : ℕ → List Sym → Option ℕ
  | s, [] => some s
  | s, x :: xs =>
    match nextState s x with
    | some t => walkTo t xs
    | none => none

/-- The rule of a reduction. -/
def reduceRule (s a : ℕ) : Option Rule :=
  match act s a with
  | some (.reduce p) => rules[p - 1]?
  | _ => none

theorem reduceRule_eq {s a p : ℕ} {r : Rule} (h : act s a = some (.reduce p)) (hr : rules[p - 1]? = some r) : reduceRule s a = some r := by
  simp [reduceRule, h, hr]

/-- Whether there is a shift. -/
def shifts (s a : ℕ) : Bool :=
  match act s a with
  | some (.shift _) => true
  | _ => false

/-- Operators are reduced before operators that do not bind tighter. -/
def reducesByLevel (s : ℕ) : Bool :=
  binOps.all fun op2 =>
    match reduceRule s (kindCode (opFirst op2)) with
    | some r => binOps.all fun op => decide (r.rhs ≠ opRhs op) || Nat.ble (opLevel op2) (opLevel op)
    | none => true

theorem reducesByLevel_all : ∀ s < 183, reducesByLevel s = true := by decide +kernel

/-- After an operator, operators that bind tighter are shifted, and no others. -/
def shiftsByLevel (s : ℕ) : Bool :=
  binOps.all fun op =>
    match walkTo s ((opKinds op).map .t ++ [.n .expression]) with
    | some s' => binOps.all fun op2 => shifts s' (kindCode (opFirst op2)) == Nat.blt (opLevel op) (opLevel op2)
    | none => true

theorem shiftsByLevel_all : ∀ s < 183, shiftsByLevel s = true := by decide +kernel

/-- The other reductions of expressions. -/
def reducesOnly (s : ℕ) : Bool :=
  (List.range 43).all fun a =>
    match reduceRule s a with
    | some r =>
      match r.func with
      | .expressionTerm => a != kindCode .dOp
      | .strElement => literalKinds.all fun q => a != kindCode q
      | .callElementsExpr => a != kindCode .plus && a != kindCode .minus
      | _ => true
    | none => true

theorem reducesOnly_all : ∀ s < 183, reducesOnly s = true := by decide +kernel

end PythonDice.Yacc
