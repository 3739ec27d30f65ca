import Verif.Spec.Parse
import Verif.Proofs.Resolver

/-!
# What holds of a program holds of its parts
-/

namespace PythonDice

open Compiler Spec

section
variable {dig : Char → Bool} {lit : Char → Prop}

mutual

theorem subExpr_ok {s e : Expr} (h : SubExpr s e) (hok : ExprOK dig lit e) : ExprOK dig lit s :=
  match h with
  | .refl _ => hok
  | .group h => subExpr_ok h hok
  | .binL h => subExpr_ok h hok.1
  | .binR h => subExpr_ok h hok.2
  | .ndmL h => subExpr_ok h hok.1
  | .ndmR h => subExpr_ok h hok.2
  | .dm h => subExpr_ok h hok
  | .unary h => subExpr_ok h hok
  | .hash h => subExpr_ok h hok
  | .seq h => subElem_ok h hok
  | .call h => subArg_ok h hok.2

theorem subElem_ok {s : Expr} {es : Elems} (h : SubElem s es) (hok : ElemsOK dig lit es) : ExprOK dig lit s :=
  match h with
  | .expr h => subExpr_ok h hok.1
  | .rangeL h => subExpr_ok h hok.1
  | .rangeR h => subExpr_ok h hok.2.1
  | .afterExpr h => subElem_ok h hok.2
  | .afterRange h => subElem_ok h hok.2.2

theorem subArg_ok {s : Expr} {cs : CallParts} (h : SubArg s cs) (hok : CallOK dig lit cs) : ExprOK dig lit s :=
  match h with
  | .arg h => subExpr_ok h hok.1
  | .afterWord h => subArg_ok h hok.2
  | .afterArg h => subArg_ok h hok.2

end

mutual

theorem stmtIn_ok {s : Stmt} {b : Block} (h : StmtIn s b) (hok : BlockOK dig lit b) : StmtOK dig lit s :=
  match h with
  | .head _ _ => hok.1
  | .tail h => stmtIn_ok h hok.2
  | .function h => stmtIn_ok h hok.1.2
  | .loop h => stmtIn_ok h hok.1.2.2
  | .cond h => stmtIn_ok h hok.1.2.1
  | .condRest h => stmtInElse_ok h hok.1.2.2

theorem stmtInElse_ok {s : Stmt} {r : Else} (h : StmtInElse s r) (hok : ElseOK dig lit r) : StmtOK dig lit s :=
  match h with
  | .else_ h => stmtIn_ok h hok
  | .elif h => stmtIn_ok h hok.2.1
  | .rest h => stmtInElse_ok h hok.2.2

end

theorem elifCond_ok {e : Expr} {r : Else} (h : ElifCond e r) (hok : ElseOK dig lit r) : ExprOK dig lit e := by
  induction h with
  | here => exact hok.1
  | rest _ ih => exact ih hok.2.2

theorem exprOf_ok {e : Expr} {s : Stmt} (h : ExprOf e s) (hok : StmtOK dig lit s) : ExprOK dig lit e := by
  cases h with
  | output => exact hok
  | outputNamed => exact hok.1
  | set => exact hok.2
  | result => exact hok
  | cond => exact hok.1
  | elif h => exact elifCond_ok h hok.2.2
  | loop => exact hok.2.1
  | assign => exact hok.2

theorem callSig_ok (cs : CallParts) (h : CallOK dig lit cs) : SigOK (callSig cs) :=
  match cs with
  | .nil => fun _ hw => by cases hw
  | .word v cs => fun w hw => by
    have ih := callSig_ok cs h.2
    simp only [callSig, List.mem_cons, Option.some.injEq] at hw
    rcases hw with rfl | hw
    · exact h.1
    · exact ih w hw
  | .arg e cs => fun w hw => by
    have ih := callSig_ok cs h.2
    simp only [callSig, List.mem_cons, reduceCtorEq, false_or] at hw
    exact ih w hw

theorem defSig_ok {d : List DefPart} (h : ∀ q ∈ d, DefOK q) : SigOK (defSig d) := by
  intro w hw
  obtain ⟨q, hq, e⟩ := List.mem_map.1 hw
  have := h q hq
  cases q with
  | word v => cases e; exact this
  | param x => cases e
  | typed x t => cases e

theorem paramsOK_of_defs {d : List DefPart} (h : ∀ q ∈ d, DefOK q) : ParamsOK (params d) := by
  intro p hp
  obtain ⟨q, hq, e⟩ := List.mem_filterMap.1 hp
  have := h q hq
  cases q with
  | word v => cases e
  | param x => cases e; exact this
  | typed x t => cases e; exact this.1

end

/-! ## Written -/

mutual

theorem subExpr_written {s e : Expr} (h : SubExpr s e) (hok : Written e) : Written s :=
  match h with
  | .refl _ => hok
  | .group h => subExpr_written h hok
  | .binL h => subExpr_written h hok.2.2.1
  | .binR h => subExpr_written h hok.2.2.2
  | .ndmL h => subExpr_written h hok.2.2.1
  | .ndmR h => subExpr_written h hok.2.2.2
  | .dm h => subExpr_written h hok.2
  | .unary h => subExpr_written h hok.2
  | .hash h => subExpr_written h hok.2
  | .seq h => subElem_written h hok
  | .call h => subArg_written h hok.2

theorem subElem_written {s : Expr} {es : Elems} (h : SubElem s es) (hok : WrittenE es) : Written s :=
  match h with
  | .expr h => subExpr_written h hok.1
  | .rangeL h => subExpr_written h hok.1
  | .rangeR h => subExpr_written h hok.2.1
  | .afterExpr h => subElem_written h hok.2
  | .afterRange h => subElem_written h hok.2.2

theorem subArg_written {s : Expr} {cs : CallParts} (h : SubArg s cs) (hok : WrittenC cs) : Written s :=
  match h with
  | .arg h => subExpr_written h hok.1
  | .afterWord h => subArg_written h hok.2
  | .afterArg h => subArg_written h hok.2.2

end

mutual

theorem stmtIn_written {s : Stmt} {b : Block} (h : StmtIn s b) (hok : WrittenB b) : WrittenS s :=
  match h with
  | .head _ _ => hok.1
  | .tail h => stmtIn_written h hok.2
  | .function h => stmtIn_written h hok.1.2.2
  | .loop h => stmtIn_written h hok.1.2
  | .cond h => stmtIn_written h hok.1.2.1
  | .condRest h => stmtInElse_written h hok.1.2.2

theorem stmtInElse_written {s : Stmt} {r : Else} (h : StmtInElse s r) (hok : WrittenR r) : WrittenS s :=
  match h with
  | .else_ h => stmtIn_written h hok
  | .elif h => stmtIn_written h hok.2.1
  | .rest h => stmtInElse_written h hok.2.2

end

theorem elifCond_written {e : Expr} {r : Else} (h : ElifCond e r) (hok : WrittenR r) : Written e := by
  induction h with
  | here => exact hok.1
  | rest _ ih => exact ih hok.2.2

theorem exprOf_written {e : Expr} {s : Stmt} (h : ExprOf e s) (hok : WrittenS s) : Written e := by
  cases h with
  | output => exact hok
  | outputNamed => exact hok.1
  | set => exact hok.2
  | result => exact hok
  | cond => exact hok.1
  | elif h => exact elifCond_written h hok.2.2
  | loop => exact hok.1
  | assign => exact hok

end PythonDice
