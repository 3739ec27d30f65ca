import Verif.Proofs.ParseSoundE

/-!
# From derivations to trees as they are written: statements
-/

namespace PythonDice.Yacc

open Lexer (Kind Token)
open Compiler Spec

@[elab_as_elim]
theorem Block.listInduction {P : Block → Prop} (nil : P .nil) (cons : ∀ s b, P b → P (.cons s b)) : ∀ b, P b
  | .nil => nil
  | .cons s b => cons s b (Block.listInduction nil cons b)

theorem blockToks_addStmt (b : Block) (s : Stmt) : blockToks (addStmt b s) = blockToks b ++ stmtToks s := by
  induction b using Block.listInduction with
  | nil => simp [addStmt, blockToks]
  | cons t b ih => simp [addStmt, blockToks, ih]

theorem written_addStmt {b : Block} {s : Stmt} (hb : WrittenB b) (hs : WrittenS s) : WrittenB (addStmt b s) := by
  induction b using Block.listInduction with
  | nil => exact ⟨hs, trivial⟩
  | cons t b ih => exact ⟨hb.1, ih hb.2⟩

theorem good_multilineCode {s j : ℕ} {r : Rule} {vs : List Val} {v : Val} {ts rest : List Token} (hr : r ∈ multilineCodeRules)
    (hl : GoodL s r.rhs vs ts rest j) (hv : r.func.run vs = .ok v) : Good s (.n r.lhs) v ts (ahead rest) := by
  simp only [multilineCodeRules, List.mem_cons, List.not_mem_nil, or_false] at hr
  rcases hr with rfl | rfl
  · obtain ⟨_, _, _, _, s1, rfl, rfl, ⟨st, rfl, rfl, hs⟩, _, rfl, rfl, rfl⟩ := hl
    cases hv
    exact ⟨_, rfl, by simp [blockToks], ⟨hs, trivial⟩⟩
  · obtain ⟨_, _, _, _, s1, rfl, rfl, ⟨b, rfl, rfl, hb⟩, _, _, _, _, _, s2, rfl, rfl, ⟨st, rfl, rfl, hs⟩, _, rfl, rfl, rfl⟩ := hl
    cases hv
    exact ⟨_, rfl, by simp [blockToks_addStmt], written_addStmt hb hs⟩

theorem good_multilineCodeEmpty {s j : ℕ} {r : Rule} {vs : List Val} {v : Val} {ts rest : List Token} (hr : r ∈ multilineCodeEmptyRules)
    (hl : GoodL s r.rhs vs ts rest j) (hv : r.func.run vs = .ok v) : Good s (.n r.lhs) v ts (ahead rest) := by
  simp only [multilineCodeEmptyRules, List.mem_cons, List.not_mem_nil, or_false] at hr
  subst hr
  obtain ⟨_, _, t1, _, s1, rfl, rfl, h, _, rfl, rfl, rfl⟩ := hl
  replace h : t1 = [] := h
  subst h
  cases hv
  exact ⟨_, rfl, by simp [blockToks], trivial⟩

theorem good_empty {s j : ℕ} {r : Rule} {vs : List Val} {v : Val} {ts rest : List Token} (hr : r ∈ emptyRules)
    (hl : GoodL s r.rhs vs ts rest j) : Good s (.n r.lhs) v ts (ahead rest) := by
  simp only [emptyRules, List.mem_cons, List.not_mem_nil, or_false] at hr
  subst hr
  exact hl.2.1

theorem good_singleCode {s j : ℕ} {r : Rule} {vs : List Val} {v : Val} {ts rest : List Token} (hr : r ∈ singleCodeRules)
    (hl : GoodL s r.rhs vs ts rest j) (hv : r.func.run vs = .ok v) : Good s (.n r.lhs) v ts (ahead rest) := by
  simp only [singleCodeRules, List.mem_cons, List.not_mem_nil, or_false] at hr
  rcases hr with rfl | rfl | rfl | rfl | rfl | rfl | rfl
  · obtain ⟨_, _, _, _, s1, rfl, rfl, h1, _, _, _, _, _, s2, rfl, rfl, ⟨e, rfl, rfl, we, _⟩, _, rfl, rfl, rfl⟩ := hl
    obtain ⟨rfl, rfl⟩ := good_keyword (c := "output") h1 (by decide +kernel)
    cases hv
    exact ⟨_, rfl, by simp [stmtToks], we⟩
  · obtain ⟨_, _, _, _, s1, rfl, rfl, h1, _, _, _, _, _, s2, rfl, rfl, ⟨e, rfl, rfl, we, _⟩, _, _, _, _, _, s3, rfl, rfl, h3, _,
      _, _, _, _, s4, rfl, rfl, ⟨ps, rfl, rfl, hp⟩, _, rfl, rfl, rfl⟩ := hl
    obtain ⟨rfl, rfl⟩ := good_keyword (c := "output") h1 (by decide +kernel)
    obtain ⟨rfl, rfl⟩ := good_keyword (c := "named") h3 (by decide +kernel)
    cases hv
    exact ⟨_, rfl, by simp [stmtToks], we, hp⟩
  · obtain ⟨_, _, _, _, s1, rfl, rfl, h1, _, _, _, _, _, s2, rfl, rfl, h2, _, _, _, _, _, s3, rfl, rfl, ⟨ds, rfl, rfl, hd, ht⟩, _,
      _, _, _, _, s4, rfl, rfl, h4, _, _, _, _, _, s5, rfl, rfl, ⟨b, rfl, rfl, hb⟩, _, _, _, _, _, s6, rfl, rfl, h6, _, rfl, rfl, rfl⟩ := hl
    obtain ⟨rfl, rfl⟩ := good_keyword (c := "function") h1 (by decide +kernel)
    obtain ⟨rfl, rfl⟩ := good_symbol (c := ":") h2 (by decide +kernel)
    obtain ⟨rfl, rfl⟩ := good_symbol (c := "{") h4 (by decide +kernel)
    obtain ⟨rfl, rfl⟩ := good_symbol (c := "}") h6 (by decide +kernel)
    cases hv
    exact ⟨_, rfl, by simp [stmtToks], hd, ht, hb⟩
  · obtain ⟨_, _, _, _, s1, rfl, rfl, h1, _, _, _, _, _, s2, rfl, rfl, ⟨x, rfl, rfl⟩, _, _, _, _, _, s3, rfl, rfl, h3, _,
      _, _, _, _, s4, rfl, rfl, ⟨e, rfl, rfl, we, _⟩, _, _, _, _, _, s5, rfl, rfl, h5, _, _, _, _, _, s6, rfl, rfl, ⟨b, rfl, rfl, hb⟩, _,
      _, _, _, _, s7, rfl, rfl, h7, _, rfl, rfl, rfl⟩ := hl
    obtain ⟨rfl, rfl⟩ := good_keyword (c := "loop") h1 (by decide +kernel)
    obtain ⟨rfl, rfl⟩ := good_keyword (c := "over") h3 (by decide +kernel)
    obtain ⟨rfl, rfl⟩ := good_symbol (c := "{") h5 (by decide +kernel)
    obtain ⟨rfl, rfl⟩ := good_symbol (c := "}") h7 (by decide +kernel)
    cases hv
    exact ⟨_, rfl, by simp [stmtToks], we, hb⟩
  · obtain ⟨_, _, _, _, s1, rfl, rfl, h1, _, _, _, _, _, s2, rfl, rfl, h2, _, _, _, _, _, s3, rfl, rfl, ⟨e, rfl, rfl, we, _⟩, _,
      rfl, rfl, rfl⟩ := hl
    obtain ⟨rfl, rfl⟩ := good_keyword (c := "result") h1 (by decide +kernel)
    obtain ⟨rfl, rfl⟩ := good_symbol (c := ":") h2 (by decide +kernel)
    cases hv
    exact ⟨_, rfl, by simp [stmtToks], we⟩
  · obtain ⟨_, _, _, _, s1, rfl, rfl, h1, _, _, _, _, _, s2, rfl, rfl, ⟨ps, rfl, rfl, hp⟩, _, _, _, _, _, s3, rfl, rfl, h3, _,
      _, _, _, _, s4, rfl, rfl, ⟨qs, rfl, rfl, hq⟩, _, rfl, rfl, rfl⟩ := hl
    obtain ⟨rfl, rfl⟩ := good_keyword (c := "set") h1 (by decide +kernel)
    obtain ⟨rfl, rfl⟩ := good_keyword (c := "to") h3 (by decide +kernel)
    cases hv
    exact ⟨_, rfl, by simp [stmtToks, exprToks], hp, hq⟩
  · obtain ⟨_, _, _, _, s1, rfl, rfl, h1, _, _, _, _, _, s2, rfl, rfl, ⟨ps, rfl, rfl, hp⟩, _, _, _, _, _, s3, rfl, rfl, h3, _,
      _, _, _, _, s4, rfl, rfl, ⟨e, rfl, rfl, we, _⟩, _, rfl, rfl, rfl⟩ := hl
    obtain ⟨rfl, rfl⟩ := good_keyword (c := "set") h1 (by decide +kernel)
    obtain ⟨rfl, rfl⟩ := good_keyword (c := "to") h3 (by decide +kernel)
    cases hv
    exact ⟨_, rfl, by simp [stmtToks], hp, we⟩

theorem good_varAssign {s j : ℕ} {r : Rule} {vs : List Val} {v : Val} {ts rest : List Token} (hr : r ∈ varAssignRules)
    (hl : GoodL s r.rhs vs ts rest j) (hv : r.func.run vs = .ok v) : Good s (.n r.lhs) v ts (ahead rest) := by
  simp only [varAssignRules, List.mem_cons, List.not_mem_nil, or_false] at hr
  subst hr
  obtain ⟨_, _, _, _, s1, rfl, rfl, ⟨x, rfl, rfl⟩, _, _, _, _, _, s2, rfl, rfl, h2, _, _, _, _, _, s3, rfl, rfl, ⟨e, rfl, rfl, we, _⟩, _,
    rfl, rfl, rfl⟩ := hl
  obtain ⟨rfl, rfl⟩ := good_symbol (c := ":") h2 (by decide +kernel)
  cases hv
  exact ⟨_, rfl, by simp [stmtToks], we⟩

/-! ## Alternatives -/

theorem good_if {s j : ℕ} {r : Rule} {vs : List Val} {v : Val} {ts rest : List Token} (hr : r ∈ ifRules)
    (hl : GoodL s r.rhs vs ts rest j) (hv : r.func.run vs = .ok v) : Good s (.n r.lhs) v ts (ahead rest) := by
  simp only [ifRules, List.mem_cons, List.not_mem_nil, or_false] at hr
  subst hr
  obtain ⟨_, _, _, _, s1, rfl, rfl, h1, _, _, _, _, _, s2, rfl, rfl, ⟨e, rfl, rfl, we, _⟩, _, _, _, _, _, s3, rfl, rfl, h3, _,
    _, _, _, _, s4, rfl, rfl, ⟨b, rfl, rfl, hb⟩, _, _, _, _, _, s5, rfl, rfl, h5, _, rfl, rfl, rfl⟩ := hl
  obtain ⟨rfl, rfl⟩ := good_keyword (c := "if") h1 (by decide +kernel)
  obtain ⟨rfl, rfl⟩ := good_symbol (c := "{") h3 (by decide +kernel)
  obtain ⟨rfl, rfl⟩ := good_symbol (c := "}") h5 (by decide +kernel)
  cases hv
  exact ⟨_, _, rfl, by simp, we, hb⟩

theorem good_else {s j : ℕ} {r : Rule} {vs : List Val} {v : Val} {ts rest : List Token} (hr : r ∈ elseRules)
    (hl : GoodL s r.rhs vs ts rest j) (hv : r.func.run vs = .ok v) : Good s (.n r.lhs) v ts (ahead rest) := by
  simp only [elseRules, List.mem_cons, List.not_mem_nil, or_false] at hr
  subst hr
  obtain ⟨_, _, _, _, s1, rfl, rfl, h1, _, _, _, _, _, s3, rfl, rfl, h3, _,
    _, _, _, _, s4, rfl, rfl, ⟨b, rfl, rfl, hb⟩, _, _, _, _, _, s5, rfl, rfl, h5, _, rfl, rfl, rfl⟩ := hl
  obtain ⟨rfl, rfl⟩ := good_keyword (c := "else") h1 (by decide +kernel)
  obtain ⟨rfl, rfl⟩ := good_symbol (c := "{") h3 (by decide +kernel)
  obtain ⟨rfl, rfl⟩ := good_symbol (c := "}") h5 (by decide +kernel)
  cases hv
  exact ⟨_, rfl, by simp, hb⟩

theorem good_elif {s j : ℕ} {r : Rule} {vs : List Val} {v : Val} {ts rest : List Token} (hr : r ∈ elifRules)
    (hl : GoodL s r.rhs vs ts rest j) (hv : r.func.run vs = .ok v) : Good s (.n r.lhs) v ts (ahead rest) := by
  simp only [elifRules, List.mem_cons, List.not_mem_nil, or_false] at hr
  rcases hr with rfl | rfl
  · obtain ⟨_, _, _, _, s0, rfl, rfl, h0, _, _, _, _, _, s1, rfl, rfl, h1, _, _, _, _, _, s2, rfl, rfl, ⟨e, rfl, rfl, we, _⟩, _,
      _, _, _, _, s3, rfl, rfl, h3, _, _, _, _, _, s4, rfl, rfl, ⟨b, rfl, rfl, hb⟩, _, _, _, _, _, s5, rfl, rfl, h5, _, rfl, rfl, rfl⟩ := hl
    obtain ⟨rfl, rfl⟩ := good_keyword (c := "else") h0 (by decide +kernel)
    obtain ⟨rfl, rfl⟩ := good_keyword (c := "if") h1 (by decide +kernel)
    obtain ⟨rfl, rfl⟩ := good_symbol (c := "{") h3 (by decide +kernel)
    obtain ⟨rfl, rfl⟩ := good_symbol (c := "}") h5 (by decide +kernel)
    cases hv
    exact ⟨[(e, b)], rfl, by simp [elifToks], by simp [we, hb]⟩
  · obtain ⟨_, _, _, _, _, rfl, rfl, ⟨xs, rfl, rfl, hx⟩, _, _, _, _, _, s0, rfl, rfl, h0, _, _, _, _, _, s1, rfl, rfl, h1, _,
      _, _, _, _, s2, rfl, rfl, ⟨e, rfl, rfl, we, _⟩, _,
      _, _, _, _, s3, rfl, rfl, h3, _, _, _, _, _, s4, rfl, rfl, ⟨b, rfl, rfl, hb⟩, _, _, _, _, _, s5, rfl, rfl, h5, _, rfl, rfl, rfl⟩ := hl
    obtain ⟨rfl, rfl⟩ := good_keyword (c := "else") h0 (by decide +kernel)
    obtain ⟨rfl, rfl⟩ := good_keyword (c := "if") h1 (by decide +kernel)
    obtain ⟨rfl, rfl⟩ := good_symbol (c := "{") h3 (by decide +kernel)
    obtain ⟨rfl, rfl⟩ := good_symbol (c := "}") h5 (by decide +kernel)
    cases hv
    refine ⟨xs ++ [(e, b)], by simp, by simp [elifToks], ?_⟩
    intro x hx'
    rcases List.mem_append.1 hx' with h | h
    · exact hx x h
    · simp only [List.mem_singleton] at h; subst h; exact ⟨we, hb⟩

/-- Alternatives, one after the other. -/
def elseChain (xs : List (Expr × Block)) (r : Else) : Else := xs.foldr (fun x r => .elif x.1 x.2 r) r

theorem elseToks_chain (xs : List (Expr × Block)) (r : Else) : elseToks (elseChain xs r) = xs.flatMap elifToks ++ elseToks r := by
  induction xs with
  | nil => rfl
  | cons x xs ih =>
    simp only [elseChain, List.foldr_cons] at ih ⊢
    simp [elseToks, ih, elifToks]

theorem written_chain {xs : List (Expr × Block)} {r : Else} (hx : ∀ x ∈ xs, Written x.1 ∧ WrittenB x.2) (hr : WrittenR r) :
    WrittenR (elseChain xs r) := by
  induction xs with
  | nil => exact hr
  | cons x xs ih =>
    have h := hx x (by simp)
    exact ⟨h.1, h.2, ih fun y hy => hx y (by simp [hy])⟩

theorem elseOf_chain (xs : List (Expr × Block)) (bs : List Branch) (r : Else) (h : elseOf bs = some r) :
    elseOf (xs.map (fun x => Branch.elseif x.1 x.2) ++ bs) = some (elseChain xs r) := by
  induction xs with
  | nil => exact h
  | cons x xs ih =>
    simp only [List.map_cons, List.cons_append, elseOf, ih, Option.map_some]
    rfl

theorem good_cond {s j : ℕ} {r : Rule} {vs : List Val} {v : Val} {ts rest : List Token} (hr : r ∈ singleCodeIfElseifElseRules)
    (hl : GoodL s r.rhs vs ts rest j) (hv : r.func.run vs = .ok v) : Good s (.n r.lhs) v ts (ahead rest) := by
  simp only [singleCodeIfElseifElseRules, List.mem_cons, List.not_mem_nil, or_false] at hr
  rcases hr with rfl | rfl | rfl | rfl
  · obtain ⟨_, _, _, _, s0, rfl, rfl, ⟨c, b, rfl, rfl, wc, wb⟩, _, rfl, rfl, rfl⟩ := hl
    cases hv
    exact ⟨_, rfl, by simp [stmtToks, elseToks], wc, wb, trivial⟩
  · obtain ⟨_, _, _, _, s0, rfl, rfl, ⟨c, b, rfl, rfl, wc, wb⟩, _, _, _, _, _, s1, rfl, rfl, ⟨b', rfl, rfl, wb'⟩, _, rfl, rfl, rfl⟩ := hl
    cases hv
    exact ⟨_, rfl, by simp [stmtToks, elseToks], wc, wb, wb'⟩
  · obtain ⟨_, _, _, _, s0, rfl, rfl, ⟨c, b, rfl, rfl, wc, wb⟩, _, _, _, _, _, s1, rfl, rfl, ⟨xs, rfl, rfl, hx⟩, _, rfl, rfl, rfl⟩ := hl
    have e := elseOf_chain xs [] .done rfl
    replace hv : orInternal ((condOf ([.if_ c b] ++ xs.map fun x => .elseif x.1 x.2)).map .stmt) = .ok v := hv
    simp only [List.append_nil] at e
    simp only [List.cons_append, List.nil_append, condOf, e, Option.map_some, orInternal] at hv
    cases hv
    exact ⟨_, rfl, by simp [stmtToks, elseToks_chain, elseToks], wc, wb, written_chain hx trivial⟩
  · obtain ⟨_, _, _, _, s0, rfl, rfl, ⟨c, b, rfl, rfl, wc, wb⟩, _, _, _, _, _, s1, rfl, rfl, ⟨xs, rfl, rfl, hx⟩, _,
      _, _, _, _, s2, rfl, rfl, ⟨b', rfl, rfl, wb'⟩, _, rfl, rfl, rfl⟩ := hl
    have e := elseOf_chain xs [.else_ b'] (.else_ b') rfl
    replace hv : orInternal ((condOf ([.if_ c b] ++ xs.map (fun x => .elseif x.1 x.2) ++ [.else_ b'])).map .stmt) = .ok v := hv
    simp only [List.cons_append, List.nil_append, condOf, e, Option.map_some, orInternal] at hv
    cases hv
    exact ⟨_, rfl, by simp [stmtToks, elseToks_chain, elseToks], wc, wb, written_chain hx wb'⟩

/-! ## All rules -/

theorem good_node {s j p : ℕ} {r : Rule} {vs : List Val} {v : Val} {ts rest : List Token} (hp : rules[p - 1]? = some r)
    (hl : GoodL s r.rhs vs ts rest j) (ha : act j (ahead rest) = some (.reduce p)) (hv : r.func.run vs = .ok v) :
    Good s (.n r.lhs) v ts (ahead rest) := by
  have hr : r ∈ rules := List.mem_of_getElem? hp
  unfold rules at hr
  rcases List.mem_append.1 hr with hr | hr
  swap
  · exact good_callElementsExpr hr hl hp ha hv
  rcases List.mem_append.1 hr with hr | hr
  swap
  · exact good_callElements hr hl hv
  rcases List.mem_append.1 hr with hr | hr
  swap
  · exact good_termCall hr hl hv
  rcases List.mem_append.1 hr with hr | hr
  swap
  · exact good_strElement hr hl hp ha hv
  rcases List.mem_append.1 hr with hr | hr
  swap
  · exact good_range hr hl hv
  rcases List.mem_append.1 hr with hr | hr
  swap
  · exact good_element hr hl hv
  rcases List.mem_append.1 hr with hr | hr
  swap
  · exact good_elements hr hl hv
  rcases List.mem_append.1 hr with hr | hr
  swap
  · exact good_termSeq hr hl hv
  rcases List.mem_append.1 hr with hr | hr
  swap
  · exact good_termName hr hl hv
  rcases List.mem_append.1 hr with hr | hr
  swap
  · exact good_termNumberDecimal hr hl hv
  rcases List.mem_append.1 hr with hr | hr
  swap
  · exact good_termNumber hr hl hv
  rcases List.mem_append.1 hr with hr | hr
  swap
  · exact good_termGrouped hr hl hv
  rcases List.mem_append.1 hr with hr | hr
  swap
  · exact good_termHash hr hl hv
  rcases List.mem_append.1 hr with hr | hr
  swap
  · exact good_termUnary hr hl hv
  rcases List.mem_append.1 hr with hr | hr
  swap
  · exact good_expressionTerm hr hl hp ha hv
  rcases List.mem_append.1 hr with hr | hr
  swap
  · exact good_binop (List.mem_append_right _ hr) hl hp ha hv
  rcases List.mem_append.1 hr with hr | hr
  swap
  · exact good_dop hr hl hv
  rcases List.mem_append.1 hr with hr | hr
  swap
  · exact good_binop (List.mem_append_left _ hr) hl hp ha hv
  rcases List.mem_append.1 hr with hr | hr
  swap
  · exact good_funcnameDefParam hr hl hv
  rcases List.mem_append.1 hr with hr | hr
  swap
  · exact good_funcnameDefImpossibletocall hr hl hv
  rcases List.mem_append.1 hr with hr | hr
  swap
  · exact good_funcnameDef hr hl hv
  rcases List.mem_append.1 hr with hr | hr
  swap
  · exact good_strvarInstring hr hl hv
  rcases List.mem_append.1 hr with hr | hr
  swap
  · exact good_stringInstring hr hl hv
  rcases List.mem_append.1 hr with hr | hr
  swap
  · exact good_varName hr hl hv
  rcases List.mem_append.1 hr with hr | hr
  swap
  · exact good_varAssign hr hl hv
  rcases List.mem_append.1 hr with hr | hr
  swap
  · exact good_elif hr hl hv
  rcases List.mem_append.1 hr with hr | hr
  swap
  · exact good_else hr hl hv
  rcases List.mem_append.1 hr with hr | hr
  swap
  · exact good_if hr hl hv
  rcases List.mem_append.1 hr with hr | hr
  swap
  · exact good_cond hr hl hv
  rcases List.mem_append.1 hr with hr | hr
  swap
  · exact good_singleCode hr hl hv
  rcases List.mem_append.1 hr with hr | hr
  swap
  · exact good_empty hr hl
  rcases List.mem_append.1 hr with hr | hr
  swap
  · exact good_multilineCodeEmpty hr hl hv
  exact good_multilineCode hr hl hv

mutual

theorem Derives.good {s : ℕ} {x : Sym} {v : Val} {ts rest : List Token} (h : Derives s x v ts rest) (ht : ∀ t ∈ ts, TokenOK t) :
    Good s x v ts (ahead rest) :=
  match h with
  | .tok _ t _ => ⟨t.value, rfl, rfl, ht t (by simp)⟩
  | .node hr hl ha hv => good_node hr (hl.good ht) ha hv

theorem DerivesL.good {s : ℕ} {xs : List Sym} {vs : List Val} {ts rest : List Token} {j : ℕ} (h : DerivesL s xs vs ts rest j)
    (ht : ∀ t ∈ ts, TokenOK t) : GoodL s xs vs ts rest j :=
  match h with
  | .nil _ _ => ⟨rfl, rfl, rfl⟩
  | .cons h hn hl => ⟨_, _, _, _, _, rfl, rfl, h.good fun t hm => ht t (List.mem_append_left _ hm), hn,
      hl.good fun t hm => ht t (List.mem_append_right _ hm)⟩

end

/-- What the parser accepts is written in the tokens it has read. -/
theorem written_of_derives {v : Val} {ts : List Token} (h : Derives 0 (.n .multilineCode) v ts []) (ht : ∀ t ∈ ts, TokenOK t) :
    ∃ b, v = .block b ∧ ts = blockToks b ∧ WrittenB b := h.good ht

end PythonDice.Yacc
