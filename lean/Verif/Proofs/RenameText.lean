import Verif.Proofs.Rename

/-!
# What a renamed program defines, calls and outputs
-/

namespace PythonDice

open Spec Compiler

variable {ρ : Renaming}

mutual

theorem ren_stmtIn {s : Stmt} {b : Block} (h : StmtIn s b) : StmtIn (ρ.stmt s) (ρ.block b) := by
  cases h with
  | head => rw [Renaming.block]; exact .head _ _
  | tail h => rw [Renaming.block]; exact .tail (ren_stmtIn h)
  | function h => rw [Renaming.block, Renaming.stmt.eq_4]; exact .function (ren_stmtIn h)
  | loop h => rw [Renaming.block, Renaming.stmt.eq_7]; exact .loop (ren_stmtIn h)
  | cond h => rw [Renaming.block, Renaming.stmt.eq_6]; exact .cond (ren_stmtIn h)
  | condRest h => rw [Renaming.block, Renaming.stmt.eq_6]; exact .condRest (ren_stmtInElse h)

theorem ren_stmtInElse {s : Stmt} {r : Else} (h : StmtInElse s r) : StmtInElse (ρ.stmt s) (ρ.alt r) := by
  cases h with
  | else_ h => rw [Renaming.alt]; exact .else_ (ren_stmtIn h)
  | elif h => rw [Renaming.alt]; exact .elif (ren_stmtIn h)
  | rest h => rw [Renaming.alt]; exact .rest (ren_stmtInElse h)

end

mutual

theorem stmtIn_ren {q : Stmt} (b : Block) (h : StmtIn q (ρ.block b)) : ∃ s, StmtIn s b ∧ q = ρ.stmt s := by
  match b with
  | .nil => rw [Renaming.block] at h; cases h
  | .cons t b =>
    rw [Renaming.block] at h
    generalize hx : ρ.stmt t = x at h
    cases h with
    | head => exact ⟨t, .head _ _, hx.symm⟩
    | tail h =>
      obtain ⟨s, h1, h2⟩ := stmtIn_ren b h
      exact ⟨s, .tail h1, h2⟩
    | function h =>
      match t with
      | .function d body =>
        rw [Renaming.stmt] at hx
        injection hx with _ hx
        obtain ⟨s, h1, h2⟩ := stmtIn_ren body (hx ▸ h)
        exact ⟨s, .function h1, h2⟩
      | .output _ | .outputNamed _ _ | .set _ _ | .result _ | .cond _ _ _ | .loop _ _ _ | .assign _ _ => rw [Renaming.stmt] at hx; cases hx
    | loop h =>
      match t with
      | .loop x e body =>
        rw [Renaming.stmt] at hx
        injection hx with _ _ hx
        obtain ⟨s, h1, h2⟩ := stmtIn_ren body (hx ▸ h)
        exact ⟨s, .loop h1, h2⟩
      | .output _ | .outputNamed _ _ | .set _ _ | .result _ | .cond _ _ _ | .function _ _ | .assign _ _ => rw [Renaming.stmt] at hx; cases hx
    | cond h =>
      match t with
      | .cond c body r =>
        rw [Renaming.stmt] at hx
        injection hx with _ hx _
        obtain ⟨s, h1, h2⟩ := stmtIn_ren body (hx ▸ h)
        exact ⟨s, .cond h1, h2⟩
      | .output _ | .outputNamed _ _ | .set _ _ | .result _ | .loop _ _ _ | .function _ _ | .assign _ _ => rw [Renaming.stmt] at hx; cases hx
    | condRest h =>
      match t with
      | .cond c body r =>
        rw [Renaming.stmt] at hx
        injection hx with _ _ hx
        obtain ⟨s, h1, h2⟩ := stmtInElse_ren r (hx ▸ h)
        exact ⟨s, .condRest h1, h2⟩
      | .output _ | .outputNamed _ _ | .set _ _ | .result _ | .loop _ _ _ | .function _ _ | .assign _ _ => rw [Renaming.stmt] at hx; cases hx

theorem stmtInElse_ren {q : Stmt} (r : Else) (h : StmtInElse q (ρ.alt r)) : ∃ s, StmtInElse s r ∧ q = ρ.stmt s := by
  match r with
  | .done => rw [Renaming.alt] at h; cases h
  | .else_ b =>
    rw [Renaming.alt] at h
    cases h with
    | else_ h =>
      obtain ⟨s, h1, h2⟩ := stmtIn_ren b h
      exact ⟨s, .else_ h1, h2⟩
  | .elif c b r =>
    rw [Renaming.alt] at h
    cases h with
    | elif h =>
      obtain ⟨s, h1, h2⟩ := stmtIn_ren b h
      exact ⟨s, .elif h1, h2⟩
    | rest h =>
      obtain ⟨s, h1, h2⟩ := stmtInElse_ren r h
      exact ⟨s, .rest h1, h2⟩

end

theorem ren_elifCond {e : Expr} {r : Else} (h : ElifCond e r) : ElifCond (ρ.expr e) (ρ.alt r) := by
  induction h with
  | here => rw [Renaming.alt]; exact .here _ _ _
  | rest _ ih => rw [Renaming.alt]; exact .rest ih

theorem elifCond_ren {q : Expr} : (r : Else) → ElifCond q (ρ.alt r) → ∃ e, ElifCond e r ∧ q = ρ.expr e
  | .done, h => by rw [Renaming.alt] at h; cases h
  | .else_ b, h => by rw [Renaming.alt] at h; cases h
  | .elif c b r, h => by
    rw [Renaming.alt] at h
    cases h with
    | here => exact ⟨c, .here _ _ _, rfl⟩
    | rest h =>
      obtain ⟨e, h1, h2⟩ := elifCond_ren r h
      exact ⟨e, .rest h1, h2⟩

theorem ren_exprOf {e : Expr} {s : Stmt} (h : ExprOf e s) : ExprOf (ρ.expr e) (ρ.stmt s) := by
  cases h <;> rw [Renaming.stmt]
  case elif h => exact .elif (ren_elifCond h)
  all_goals constructor

theorem exprOf_ren {q : Expr} (s : Stmt) (h : ExprOf q (ρ.stmt s)) : ∃ e, ExprOf e s ∧ q = ρ.expr e := by
  cases s with
  | cond c b r =>
    rw [Renaming.stmt] at h
    cases h with
    | cond => exact ⟨c, .cond _ _ _, rfl⟩
    | elif h =>
      obtain ⟨e, h1, h2⟩ := elifCond_ren r h
      exact ⟨e, .elif h1, h2⟩
  | _ => rw [Renaming.stmt] at h; cases h <;> exact ⟨_, by constructor, rfl⟩

mutual

theorem ren_subExpr {q e : Expr} (h : SubExpr q e) : SubExpr (ρ.expr q) (ρ.expr e) := by
  cases h with
  | refl => exact .refl _
  | group h => rw [Renaming.expr.eq_5]; exact .group (ren_subExpr h)
  | binL h => rw [Renaming.expr.eq_6]; exact .binL (ren_subExpr h)
  | binR h => rw [Renaming.expr.eq_6]; exact .binR (ren_subExpr h)
  | ndmL h => rw [Renaming.expr.eq_7]; exact .ndmL (ren_subExpr h)
  | ndmR h => rw [Renaming.expr.eq_7]; exact .ndmR (ren_subExpr h)
  | dm h => rw [Renaming.expr.eq_8]; exact .dm (ren_subExpr h)
  | unary h => rw [Renaming.expr.eq_9]; exact .unary (ren_subExpr h)
  | hash h => rw [Renaming.expr.eq_10]; exact .hash (ren_subExpr h)
  | seq h => rw [Renaming.expr.eq_11]; exact .seq (ren_subElem h)
  | call h => rw [Renaming.expr.eq_12]; exact .call (ren_subArg h)

theorem ren_subElem {q : Expr} {es : Elems} (h : SubElem q es) : SubElem (ρ.expr q) (ρ.elems es) := by
  cases h with
  | expr h => rw [Renaming.elems]; exact .expr (ren_subExpr h)
  | rangeL h => rw [Renaming.elems]; exact .rangeL (ren_subExpr h)
  | rangeR h => rw [Renaming.elems]; exact .rangeR (ren_subExpr h)
  | afterExpr h => rw [Renaming.elems]; exact .afterExpr (ren_subElem h)
  | afterRange h => rw [Renaming.elems]; exact .afterRange (ren_subElem h)

theorem ren_subArg {q : Expr} {cs : CallParts} (h : SubArg q cs) : SubArg (ρ.expr q) (ρ.callParts cs) := by
  cases h with
  | arg h => rw [Renaming.callParts]; exact .arg (ren_subExpr h)
  | afterWord h => rw [Renaming.callParts]; exact .afterWord (ren_subArg h)
  | afterArg h => rw [Renaming.callParts]; exact .afterArg (ren_subArg h)

end

mutual

theorem subExpr_ren {q : Expr} (e : Expr) (h : SubExpr q (ρ.expr e)) : ∃ s, SubExpr s e ∧ q = ρ.expr s := by
  match e with
  | .num _ | .dec _ _ | .var _ | .str _ =>
    refine ⟨_, .refl _, ?_⟩
    rw [Renaming.expr] at h ⊢
    cases h
    rfl
  | .group e =>
    rw [Renaming.expr] at h
    cases h with
    | refl => exact ⟨.group e, .refl _, by rw [Renaming.expr]⟩
    | group h => obtain ⟨s, h1, h2⟩ := subExpr_ren e h; exact ⟨s, .group h1, h2⟩
  | .bin op l r =>
    rw [Renaming.expr] at h
    cases h with
    | refl => exact ⟨.bin op l r, .refl _, by rw [Renaming.expr]⟩
    | binL h => obtain ⟨s, h1, h2⟩ := subExpr_ren l h; exact ⟨s, .binL h1, h2⟩
    | binR h => obtain ⟨s, h1, h2⟩ := subExpr_ren r h; exact ⟨s, .binR h1, h2⟩
  | .ndm l r =>
    rw [Renaming.expr] at h
    cases h with
    | refl => exact ⟨.ndm l r, .refl _, by rw [Renaming.expr]⟩
    | ndmL h => obtain ⟨s, h1, h2⟩ := subExpr_ren l h; exact ⟨s, .ndmL h1, h2⟩
    | ndmR h => obtain ⟨s, h1, h2⟩ := subExpr_ren r h; exact ⟨s, .ndmR h1, h2⟩
  | .dm e =>
    rw [Renaming.expr] at h
    cases h with
    | refl => exact ⟨.dm e, .refl _, by rw [Renaming.expr]⟩
    | dm h => obtain ⟨s, h1, h2⟩ := subExpr_ren e h; exact ⟨s, .dm h1, h2⟩
  | .unary op e =>
    rw [Renaming.expr] at h
    cases h with
    | refl => exact ⟨.unary op e, .refl _, by rw [Renaming.expr]⟩
    | unary h => obtain ⟨s, h1, h2⟩ := subExpr_ren e h; exact ⟨s, .unary h1, h2⟩
  | .hash e =>
    rw [Renaming.expr] at h
    cases h with
    | refl => exact ⟨.hash e, .refl _, by rw [Renaming.expr]⟩
    | hash h => obtain ⟨s, h1, h2⟩ := subExpr_ren e h; exact ⟨s, .hash h1, h2⟩
  | .seq es =>
    rw [Renaming.expr] at h
    cases h with
    | refl => exact ⟨.seq es, .refl _, by rw [Renaming.expr]⟩
    | seq h => obtain ⟨s, h1, h2⟩ := subElem_ren es h; exact ⟨s, .seq h1, h2⟩
  | .call cs =>
    rw [Renaming.expr] at h
    cases h with
    | refl => exact ⟨.call cs, .refl _, by rw [Renaming.expr]⟩
    | call h => obtain ⟨s, h1, h2⟩ := subArg_ren cs h; exact ⟨s, .call h1, h2⟩

theorem subElem_ren {q : Expr} (es : Elems) (h : SubElem q (ρ.elems es)) : ∃ s, SubElem s es ∧ q = ρ.expr s := by
  match es with
  | .nil => rw [Renaming.elems] at h; cases h
  | .expr e es =>
    rw [Renaming.elems] at h
    cases h with
    | expr h => obtain ⟨s, h1, h2⟩ := subExpr_ren e h; exact ⟨s, .expr h1, h2⟩
    | afterExpr h => obtain ⟨s, h1, h2⟩ := subElem_ren es h; exact ⟨s, .afterExpr h1, h2⟩
  | .range l r es =>
    rw [Renaming.elems] at h
    cases h with
    | rangeL h => obtain ⟨s, h1, h2⟩ := subExpr_ren l h; exact ⟨s, .rangeL h1, h2⟩
    | rangeR h => obtain ⟨s, h1, h2⟩ := subExpr_ren r h; exact ⟨s, .rangeR h1, h2⟩
    | afterRange h => obtain ⟨s, h1, h2⟩ := subElem_ren es h; exact ⟨s, .afterRange h1, h2⟩

theorem subArg_ren {q : Expr} (cs : CallParts) (h : SubArg q (ρ.callParts cs)) : ∃ s, SubArg s cs ∧ q = ρ.expr s := by
  match cs with
  | .nil => rw [Renaming.callParts] at h; cases h
  | .word w cs =>
    rw [Renaming.callParts] at h
    cases h with
    | afterWord h => obtain ⟨s, h1, h2⟩ := subArg_ren cs h; exact ⟨s, .afterWord h1, h2⟩
  | .arg e cs =>
    rw [Renaming.callParts] at h
    cases h with
    | arg h => obtain ⟨s, h1, h2⟩ := subExpr_ren e h; exact ⟨s, .arg h1, h2⟩
    | afterArg h => obtain ⟨s, h1, h2⟩ := subArg_ren cs h; exact ⟨s, .afterArg h1, h2⟩

end

theorem call_ren {e : Expr} {cs : CallParts} (h : Expr.call cs = ρ.expr e) : ∃ ds, e = .call ds ∧ cs = ρ.callParts ds := by
  cases e <;> rw [Renaming.expr] at h <;> cases h
  exact ⟨_, rfl, rfl⟩

theorem function_ren {s : Stmt} {d : List DefPart} {body : Block} (h : Stmt.function d body = ρ.stmt s) :
    ∃ d' body', s = .function d' body' ∧ d = d'.map ρ.defPart ∧ body = ρ.block body' := by
  cases s <;> rw [Renaming.stmt] at h <;> cases h
  exact ⟨_, _, rfl, rfl, rfl⟩

/-- The functions that the renamed program defines. -/
theorem ren_defines {b : Block} {q : Sig} : Defines (ρ.block b) q ↔ ∃ s, Defines b s ∧ q = ρ.sig s := by
  constructor
  · rintro ⟨d, body, h, rfl⟩
    obtain ⟨s, h1, h2⟩ := stmtIn_ren b h
    obtain ⟨d', body', rfl, rfl, rfl⟩ := function_ren h2
    exact ⟨_, ⟨d', body', h1, rfl⟩, ren_defSig d'⟩
  · rintro ⟨_, ⟨d, body, h, rfl⟩, rfl⟩
    have := ren_stmtIn (ρ := ρ) h
    rw [Renaming.stmt] at this
    exact ⟨_, _, this, ren_defSig d⟩

/-- The functions that it calls. -/
theorem ren_calls {b : Block} {q : Sig} : Calls (ρ.block b) q ↔ ∃ s, Calls b s ∧ q = ρ.sig s := by
  constructor
  · rintro ⟨st, e, cs, h1, h2, h3, rfl⟩
    obtain ⟨s, h4, rfl⟩ := stmtIn_ren b h1
    obtain ⟨e', h5, rfl⟩ := exprOf_ren s h2
    obtain ⟨x, h6, h7⟩ := subExpr_ren e' h3
    obtain ⟨ds, rfl, rfl⟩ := call_ren h7
    exact ⟨_, ⟨s, e', ds, h4, h5, h6, rfl⟩, ren_callSig ds⟩
  · rintro ⟨_, ⟨st, e, cs, h1, h2, h3, rfl⟩, rfl⟩
    have := ren_subExpr (ρ := ρ) h3
    rw [Renaming.expr] at this
    exact ⟨_, _, _, ren_stmtIn h1, ren_exprOf h2, this, ren_callSig cs⟩

theorem ren_outputs {b : Block} : Outputs (ρ.block b) ↔ Outputs b := by
  constructor
  · rintro (⟨e, h⟩ | ⟨e, n, h⟩)
    · obtain ⟨s, h1, h2⟩ := stmtIn_ren b h
      cases s <;> rw [Renaming.stmt] at h2 <;> cases h2
      exact .inl ⟨_, h1⟩
    · obtain ⟨s, h1, h2⟩ := stmtIn_ren b h
      cases s <;> rw [Renaming.stmt] at h2 <;> cases h2
      exact .inr ⟨_, _, h1⟩
  · rintro (⟨e, h⟩ | ⟨e, n, h⟩)
    · have := ren_stmtIn (ρ := ρ) h
      rw [Renaming.stmt] at this
      exact .inl ⟨_, this⟩
    · have := ren_stmtIn (ρ := ρ) h
      rw [Renaming.stmt] at this
      exact .inr ⟨_, _, this⟩

theorem ren_sig_kept {l : List Sig} (h : ρ.Keeps l) {s : Sig} (hs : s ∈ l) : ρ.sig s = s := by
  unfold Renaming.sig
  conv_rhs => rw [← List.map_id s]
  refine List.map_congr_left fun o ho => ?_
  cases o with
  | none => rfl
  | some w => simp [h _ hs w ho]

theorem ren_sig_mem (hρ : ρ.Apart) {l : List Sig} (h : ρ.Keeps l) {s : Sig} : ρ.sig s ∈ l ↔ s ∈ l := by
  constructor
  · intro hs
    have := sig_injective hρ (ren_sig_kept h hs)
    rwa [this] at hs
  · intro hs
    rwa [ren_sig_kept h hs]

theorem ren_protected (hρ : ρ.Apart) (h : ρ.Keeps protectedSigs) {b : Block} : DefinesProtected (ρ.block b) ↔ DefinesProtected b := by
  constructor
  · rintro ⟨q, hq, hd⟩
    obtain ⟨s, hs, rfl⟩ := ren_defines.1 hd
    exact ⟨s, (ren_sig_mem hρ h).1 hq, hs⟩
  · rintro ⟨s, hs, hd⟩
    exact ⟨ρ.sig s, (ren_sig_mem hρ h).2 hs, ren_defines.2 ⟨s, hd, rfl⟩⟩

/-- A parameter is repeated after the renaming if it was before. -/
theorem ren_repeats (hρ : ρ.Apart) (d : List DefPart) : RepeatsUntyped (d.map ρ.defPart) ↔ RepeatsUntyped d := by
  constructor
  · rintro ⟨a, x, b, h, hx⟩
    obtain ⟨a', r, rfl, rfl, hr⟩ := List.map_eq_append_iff.1 h
    obtain ⟨p, b', rfl, hp, rfl⟩ := List.map_eq_cons_iff.1 hr
    cases p with
    | word w => cases hp
    | typed y t => cases hp
    | param y =>
      injection hp with hp
      subst hp
      refine ⟨a', y, b', rfl, ?_⟩
      rcases hx with hx | ⟨t, hx⟩
      · obtain ⟨q, hq, e⟩ := List.mem_map.1 hx
        cases q with
        | word w => cases e
        | typed z t => cases e
        | param z =>
          injection e with e
          exact .inl (hρ.1 e ▸ hq)
      · obtain ⟨q, hq, e⟩ := List.mem_map.1 hx
        cases q with
        | word w => cases e
        | param z => cases e
        | typed z t' =>
          injection e with e e'
          exact .inr ⟨t, e' ▸ hρ.1 e ▸ hq⟩
  · rintro ⟨a, x, b, rfl, hx⟩
    refine ⟨a.map ρ.defPart, ρ.var x, b.map ρ.defPart, by rw [List.map_append, List.map_cons]; rfl, ?_⟩
    rcases hx with hx | ⟨t, hx⟩
    · exact .inl (List.mem_map_of_mem (f := ρ.defPart) hx)
    · exact .inr ⟨t, List.mem_map_of_mem (f := ρ.defPart) hx⟩

end PythonDice
