import Verif.Proofs.ParseSound

/-!
# From derivations to trees as they are written: expressions
-/

namespace PythonDice.Yacc

open Lexer (Kind Token)
open Compiler Spec

/-! ## Induction along lists -/

@[elab_as_elim]
theorem Elems.listInduction {P : Elems → Prop} (nil : P .nil) (expr : ∀ e es, P es → P (.expr e es))
    (range : ∀ l r es, P es → P (.range l r es)) : ∀ es, P es
  | .nil => nil
  | .expr e es => expr e es (Elems.listInduction nil expr range es)
  | .range l r es => range l r es (Elems.listInduction nil expr range es)

@[elab_as_elim]
theorem CallParts.listInduction {P : CallParts → Prop} (nil : P .nil) (word : ∀ w cs, P cs → P (.word w cs))
    (arg : ∀ e cs, P cs → P (.arg e cs)) : ∀ cs, P cs
  | .nil => nil
  | .word w cs => word w cs (CallParts.listInduction nil word arg cs)
  | .arg e cs => arg e cs (CallParts.listInduction nil word arg cs)

/-! ## What reductions tell -/

theorem level_of_reduce {j a p : ℕ} {r : Rule} (hp : rules[p - 1]? = some r) (ha : act j a = some (.reduce p)) {op : BinOp}
    (hr : r.rhs = opRhs op) (op2 : BinOp) (h : a = kindCode (opFirst op2)) : opLevel op2 ≤ opLevel op := by
  have h1 := reducesByLevel_all j (act_lt ha)
  simp only [reducesByLevel, List.all_eq_true] at h1
  have h2 := h1 op2 (mem_binOps op2)
  rw [← h, reduceRule_eq ha hp] at h2
  simp only [List.all_eq_true, Bool.or_eq_true, decide_eq_true_eq] at h2
  rcases h2 op (mem_binOps op) with h3 | h3
  · exact absurd hr h3
  · exact Nat.le_of_ble_eq_true h3

theorem reduce_only {j p : ℕ} {r : Rule} {rest : List Token} (hp : rules[p - 1]? = some r) (ha : act j (ahead rest) = some (.reduce p)) :
    (match r.func with
      | .expressionTerm => ahead rest != kindCode .dOp
      | .strElement => literalKinds.all fun q => ahead rest != kindCode q
      | .callElementsExpr => ahead rest != kindCode .plus && ahead rest != kindCode .minus
      | _ => true) = true := by
  have h1 := reducesOnly_all j (act_lt ha)
  simp only [reducesOnly, List.all_eq_true] at h1
  have h2 := h1 (ahead rest) (List.mem_range.2 (by have := (ahead_bounds rest).2; omega))
  rw [reduceRule_eq ha hp] at h2
  exact h2

theorem shifts_of_next {s j : ℕ} {k : Kind} (h : nextState s (.t k) = some j) : shifts s (kindCode k) = true := by
  simp only [nextState] at h
  unfold shifts
  split at h
  · rename_i i hk; rw [hk]
  · cases h

theorem level_lt_of_shift {s s' : ℕ} {op op2 : BinOp} (hw : walkTo s ((opKinds op).map .t ++ [.n .expression]) = some s') (hs : s < 183)
    (h : shifts s' (kindCode (opFirst op2)) = true) : opLevel op < opLevel op2 := by
  have h1 := shiftsByLevel_all s hs
  simp only [shiftsByLevel, List.all_eq_true] at h1
  have h2 := h1 op (mem_binOps op)
  rw [hw] at h2
  simp only [List.all_eq_true] at h2
  have h3 := h2 op2 (mem_binOps op2)
  rw [h] at h3
  simpa [Nat.lt_iff_add_one_le] using h3.symm

theorem ahead_opTokens (op : BinOp) (ts : List Token) : ahead (opTokens op ++ ts) = kindCode (opFirst op) := by cases op <;> rfl

/-! ## Binary operators -/

theorem level_left {s a : ℕ} {e : Expr} {op : BinOp} (h : RootOK s a e) (ha : a = kindCode (opFirst op)) : opLevel op ≤ level e := by
  have hop : opLevel op ≤ 7 := by cases op <;> decide
  cases e with
  | bin op' l r => exact h.1 op ha
  | _ => simp only [level]; omega

theorem level_right {s s1 a : ℕ} {e : Expr} {op : BinOp} (h : RootOK s1 a e) (hs : s < 183)
    (hw : walkTo s ((opKinds op).map .t) = some s1) : opLevel op < level e := by
  have hop : opLevel op ≤ 7 := by cases op <;> decide
  cases e with
  | bin op' l r =>
    obtain ⟨_, s', hg, hsh⟩ := h
    refine level_lt_of_shift (s := s) (s' := s') ?_ hs hsh
    revert hw
    generalize (opKinds op).map Sym.t = xs
    intro hw
    clear hop
    induction xs generalizing s with
    | nil =>
      simp only [walkTo, Option.some.injEq] at hw
      simp only [List.nil_append, walkTo, hw]
      rw [show nextState s1 (.n .expression) = some s' from hg]
    | cons x xs ih =>
      simp only [walkTo, List.cons_append] at hw ⊢
      split at hw
      · rename_i t ht
        have : t < 183 := by
          cases xs with
          | nil => simp only [walkTo] at hw; cases hw; exact gotoOn_lt hg
          | cons y ys =>
            simp only [walkTo] at hw
            split at hw
            · rename_i t' ht'; exact nextState_lt ht'
            · cases hw
        exact ih this hw
      · cases hw
  | _ => simp only [level]; omega

/-- An expression made by a binary operator. -/
theorem goodE_bin {s s' s1 : ℕ} {v1 v2 : Val} {t1 t2 rest : List Token} {j p : ℕ} {r : Rule} {op : BinOp}
    (h1 : GoodE s v1 t1 (ahead (opTokens op ++ t2 ++ rest))) (hn : nextState s (.n .expression) = some s')
    (hw : walkTo s' ((opKinds op).map .t) = some s1) (hs : shifts s' (kindCode (opFirst op)) = true) (h2 : GoodE s1 v2 t2 (ahead rest))
    (hp : rules[p - 1]? = some r) (ha : act j (ahead rest) = some (.reduce p)) (hr : r.rhs = opRhs op) (hs' : s' < 183) :
    ∃ l e, v1 = .expr l ∧ v2 = .expr e ∧ GoodE s (.expr (.bin op l e)) (t1 ++ (opTokens op ++ t2)) (ahead rest) := by
  obtain ⟨l, rfl, rfl, hl, rl, _, _⟩ := h1
  obtain ⟨e, rfl, rfl, he, re, de, le⟩ := h2
  refine ⟨l, e, rfl, rfl, _, rfl, by simp [exprToks], ⟨level_left rl ?_, level_right re hs' hw, hl, he⟩, ⟨?_, s', hn, hs⟩, ?_, ?_⟩
  · rw [List.append_assoc, ahead_opTokens]
  · exact level_of_reduce hp ha hr
  · exact de
  · exact le

theorem good_bin_rule {s j p : ℕ} {r : Rule} {vs : List Val} {v : Val} {ts rest : List Token} {op : BinOp} (hr : r.rhs = opRhs op)
    (hlhs : r.lhs = .expression) (hl : GoodL s r.rhs vs ts rest j) (hp : rules[p - 1]? = some r)
    (ha : act j (ahead rest) = some (.reduce p)) (hv : pExpressionBinop vs = .ok v) : Good s (.n r.lhs) v ts (ahead rest) := by
  rw [hlhs]
  show GoodE s v ts (ahead rest)
  have single : ∀ (k : Kind) (c : String), opTokens op = [tok k c] → symbolText.lookup k = some c.toList → binOpOf c.toList = some op →
      GoodE s v ts (ahead rest) := by
    intro k c ho hk hb
    have hks : opKinds op = [k] := by simp [opKinds, ho, tok]
    have hf : opFirst op = k := by simp [opFirst, hks]
    rw [hr, opRhs, hks] at hl
    obtain ⟨v1, _, t1, _, s', rfl, rfl, h1, hn, v2, _, _, _, s1, rfl, rfl, h2, hn2, v3, _, t3, _, s2, rfl, rfl, h3, hn3, rfl, rfl, rfl⟩ := hl
    obtain ⟨rfl, rfl⟩ := good_symbol h2 hk
    have h1' : GoodE s v1 t1 (ahead (opTokens op ++ t3 ++ rest)) := by rw [ho]; simpa [Good] using h1
    obtain ⟨l, e, rfl, rfl, hg⟩ := goodE_bin (s1 := s1) h1' hn (by rw [hks]; simp [walkTo, hn2]) (by rw [hf]; exact shifts_of_next hn2)
      (by simpa [Good] using h3) hp ha hr (nextState_lt hn2)
    simp only [pExpressionBinop, hb, Option.map_some, orInternal] at hv
    cases hv
    rw [ho] at hg
    simpa using hg
  have double : ∀ (k1 k2 : Kind) (c1 c2 : String), opTokens op = [tok k1 c1, tok k2 c2] → symbolText.lookup k1 = some c1.toList →
      symbolText.lookup k2 = some c2.toList → binOpOf (c1.toList ++ c2.toList) = some op → GoodE s v ts (ahead rest) := by
    intro k1 k2 c1 c2 ho hk1 hk2 hb
    have hks : opKinds op = [k1, k2] := by simp [opKinds, ho, tok]
    have hf : opFirst op = k1 := by simp [opFirst, hks]
    rw [hr, opRhs, hks] at hl
    obtain ⟨v1, _, t1, _, s', rfl, rfl, h1, hn, v2, _, _, _, s1, rfl, rfl, h2, hn2, v2', _, _, _, s1', rfl, rfl, h2', hn2',
      v3, _, t3, _, s2, rfl, rfl, h3, hn3, rfl, rfl, rfl⟩ := hl
    obtain ⟨rfl, rfl⟩ := good_symbol h2 hk1
    obtain ⟨rfl, rfl⟩ := good_symbol h2' hk2
    have h1' : GoodE s v1 t1 (ahead (opTokens op ++ t3 ++ rest)) := by rw [ho]; simpa [Good] using h1
    obtain ⟨l, e, rfl, rfl, hg⟩ := goodE_bin (s1 := s1') h1' hn (by rw [hks]; simp [walkTo, hn2, hn2']) (by rw [hf]; exact shifts_of_next hn2)
      (by simpa [Good] using h3) hp ha hr (nextState_lt hn2)
    simp only [pExpressionBinop, hb, Option.map_some, orInternal] at hv
    cases hv
    rw [ho] at hg
    simpa using hg
  cases op with
  | add => exact single _ _ rfl (by decide +kernel) (by decide +kernel)
  | sub => exact single _ _ rfl (by decide +kernel) (by decide +kernel)
  | mul => exact single _ _ rfl (by decide +kernel) (by decide +kernel)
  | div => exact single _ _ rfl (by decide +kernel) (by decide +kernel)
  | pow => exact single _ _ rfl (by decide +kernel) (by decide +kernel)
  | at_ => exact single _ _ rfl (by decide +kernel) (by decide +kernel)
  | and_ => exact single _ _ rfl (by decide +kernel) (by decide +kernel)
  | or_ => exact single _ _ rfl (by decide +kernel) (by decide +kernel)
  | lt => exact single _ _ rfl (by decide +kernel) (by decide +kernel)
  | gt => exact single _ _ rfl (by decide +kernel) (by decide +kernel)
  | eq => exact single _ _ rfl (by decide +kernel) (by decide +kernel)
  | ne => exact single _ _ rfl (by decide +kernel) (by decide +kernel)
  | le => exact double _ _ _ _ rfl (by decide +kernel) (by decide +kernel) (by decide +kernel)
  | ge => exact double _ _ _ _ rfl (by decide +kernel) (by decide +kernel) (by decide +kernel)

theorem good_binop {s j p : ℕ} {r : Rule} {vs : List Val} {v : Val} {ts rest : List Token}
    (hr : r ∈ expressionBinopRules ++ expressionComparisonRules) (hl : GoodL s r.rhs vs ts rest j) (hp : rules[p - 1]? = some r)
    (ha : act j (ahead rest) = some (.reduce p)) (hv : r.func.run vs = .ok v) : Good s (.n r.lhs) v ts (ahead rest) := by
  have shape : ∀ r ∈ expressionBinopRules ++ expressionComparisonRules, r.lhs = .expression ∧
      (r.func = .expressionBinop ∨ r.func = .expressionComparison) ∧ ∃ op ∈ binOps, r.rhs = opRhs op := by decide +kernel
  obtain ⟨h1, h2, op, _, h3⟩ := shape r hr
  refine good_bin_rule h3 h1 hl hp ha ?_
  rcases h2 with h2 | h2 <;> rw [h2] at hv <;> exact hv

/-! ## Dice and terms -/

theorem good_dop {s j : ℕ} {r : Rule} {vs : List Val} {v : Val} {ts rest : List Token} (hr : r ∈ expressionDopRules)
    (hl : GoodL s r.rhs vs ts rest j) (hv : r.func.run vs = .ok v) : Good s (.n r.lhs) v ts (ahead rest) := by
  simp only [expressionDopRules, List.mem_cons, List.not_mem_nil, or_false] at hr
  rcases hr with rfl | rfl
  · obtain ⟨_, _, t1, _, s', rfl, rfl, ⟨l, rfl, rfl, wl, ll, _⟩, _, _, _, _, _, s1, rfl, rfl, h2, _, _, _, t3, _, s2, rfl, rfl,
      ⟨e, rfl, rfl, we, le, hle⟩, _, rfl, rfl, rfl⟩ := hl
    obtain ⟨rfl, rfl⟩ := good_keyword (c := "d") h2 (by decide +kernel)
    cases hv
    exact ⟨_, rfl, by simp [exprToks], ⟨ll, le, wl, we⟩, trivial, by simp [opensDie], by simpa [endsLiteral] using hle⟩
  · obtain ⟨_, _, _, _, s1, rfl, rfl, h2, _, _, _, t3, _, s2, rfl, rfl, ⟨e, rfl, rfl, we, le, hle⟩, _, rfl, rfl, rfl⟩ := hl
    obtain ⟨rfl, rfl⟩ := good_keyword (c := "d") h2 (by decide +kernel)
    cases hv
    exact ⟨_, rfl, by simp [exprToks], ⟨le, we⟩, trivial, by simp [opensDie], by simpa [endsLiteral] using hle⟩

theorem good_expressionTerm {s j p : ℕ} {r : Rule} {vs : List Val} {v : Val} {ts rest : List Token} (hr : r ∈ expressionTermRules)
    (hl : GoodL s r.rhs vs ts rest j) (hp : rules[p - 1]? = some r) (ha : act j (ahead rest) = some (.reduce p))
    (hv : r.func.run vs = .ok v) : Good s (.n r.lhs) v ts (ahead rest) := by
  simp only [expressionTermRules, List.mem_cons, List.not_mem_nil, or_false] at hr
  have hd := reduce_only hp ha
  subst hr
  obtain ⟨_, _, t1, _, s', rfl, rfl, ⟨e, rfl, rfl, we, le, hle⟩, _, rfl, rfl, rfl⟩ := hl
  cases hv
  refine ⟨e, rfl, by simp, we, ?_, fun _ => by simpa using hd, by simpa using hle⟩
  cases e <;> first | trivial | skip
  rename_i op _ _
  cases op <;> cases le

theorem good_unary {s j : ℕ} {k : Kind} {c : String} {op : UnOp} {vs : List Val} {v : Val} {ts rest : List Token}
    (hk : symbolText.lookup k = some c.toList) (ho : unOpOf c.toList = some op) (ht : unTok op = tok k c)
    (hl : GoodL s [.t k, .n .term] vs ts rest j) (hv : Func.termUnary.run vs = .ok v) : GoodT v ts (ahead rest) := by
  obtain ⟨_, _, _, _, s1, rfl, rfl, h2, _, _, _, t3, _, s2, rfl, rfl, ⟨e, rfl, rfl, we, le, hle⟩, _, rfl, rfl, rfl⟩ := hl
  obtain ⟨rfl, rfl⟩ := good_symbol h2 hk
  simp only [Func.run, ho, Option.map_some, orInternal] at hv
  cases hv
  exact ⟨_, rfl, by simp [exprToks, ht], ⟨le, we⟩, rfl, by simpa [endsLiteral] using hle⟩

theorem good_termUnary {s j : ℕ} {r : Rule} {vs : List Val} {v : Val} {ts rest : List Token} (hr : r ∈ termUnaryRules)
    (hl : GoodL s r.rhs vs ts rest j) (hv : r.func.run vs = .ok v) : Good s (.n r.lhs) v ts (ahead rest) := by
  simp only [termUnaryRules, List.mem_cons, List.not_mem_nil, or_false] at hr
  rcases hr with rfl | rfl | rfl
  · exact good_unary (c := "+") (op := .plus) (by decide +kernel) (by decide +kernel) rfl hl hv
  · exact good_unary (c := "-") (op := .minus) (by decide +kernel) (by decide +kernel) rfl hl hv
  · exact good_unary (c := "!") (op := .not_) (by decide +kernel) (by decide +kernel) rfl hl hv

theorem good_termHash {s j : ℕ} {r : Rule} {vs : List Val} {v : Val} {ts rest : List Token} (hr : r ∈ termHashRules)
    (hl : GoodL s r.rhs vs ts rest j) (hv : r.func.run vs = .ok v) : Good s (.n r.lhs) v ts (ahead rest) := by
  simp only [termHashRules, List.mem_cons, List.not_mem_nil, or_false] at hr
  subst hr
  obtain ⟨_, _, _, _, s1, rfl, rfl, h2, _, _, _, t3, _, s2, rfl, rfl, ⟨e, rfl, rfl, we, le, hle⟩, _, rfl, rfl, rfl⟩ := hl
  obtain ⟨rfl, rfl⟩ := good_symbol (c := "#") h2 (by decide +kernel)
  cases hv
  exact ⟨_, rfl, by simp [exprToks], ⟨le, we⟩, rfl, by simpa [endsLiteral] using hle⟩

theorem good_termGrouped {s j : ℕ} {r : Rule} {vs : List Val} {v : Val} {ts rest : List Token} (hr : r ∈ termGroupedRules)
    (hl : GoodL s r.rhs vs ts rest j) (hv : r.func.run vs = .ok v) : Good s (.n r.lhs) v ts (ahead rest) := by
  simp only [termGroupedRules, List.mem_cons, List.not_mem_nil, or_false] at hr
  subst hr
  obtain ⟨_, _, _, _, s1, rfl, rfl, h1, _, _, _, t3, _, s2, rfl, rfl, ⟨e, rfl, rfl, we, _⟩, _, _, _, _, _, s3, rfl, rfl, h2, _,
    rfl, rfl, rfl⟩ := hl
  obtain ⟨rfl, rfl⟩ := good_symbol (c := "(") h1 (by decide +kernel)
  obtain ⟨rfl, rfl⟩ := good_symbol (c := ")") h2 (by decide +kernel)
  cases hv
  exact ⟨_, rfl, by simp [exprToks], we, rfl, by simp [endsLiteral]⟩

theorem good_termNumber {s j : ℕ} {r : Rule} {vs : List Val} {v : Val} {ts rest : List Token} (hr : r ∈ termNumberRules)
    (hl : GoodL s r.rhs vs ts rest j) (hv : r.func.run vs = .ok v) : Good s (.n r.lhs) v ts (ahead rest) := by
  simp only [termNumberRules, List.mem_cons, List.not_mem_nil, or_false] at hr
  subst hr
  obtain ⟨_, _, _, _, s1, rfl, rfl, ⟨w, rfl, rfl, _⟩, _, rfl, rfl, rfl⟩ := hl
  cases hv
  exact ⟨_, rfl, by simp [exprToks], trivial, rfl, by simp [endsLiteral]⟩

theorem good_termNumberDecimal {s j : ℕ} {r : Rule} {vs : List Val} {v : Val} {ts rest : List Token} (hr : r ∈ termNumberDecimalRules)
    (hl : GoodL s r.rhs vs ts rest j) (hv : r.func.run vs = .ok v) : Good s (.n r.lhs) v ts (ahead rest) := by
  simp only [termNumberDecimalRules, List.mem_cons, List.not_mem_nil, or_false] at hr
  subst hr
  obtain ⟨_, _, _, _, s1, rfl, rfl, ⟨w, rfl, rfl, _⟩, _, _, _, _, _, s2, rfl, rfl, h2, _, _, _, _, _, s3, rfl, rfl, ⟨w', rfl, rfl, _⟩, _,
    rfl, rfl, rfl⟩ := hl
  obtain ⟨rfl, rfl⟩ := good_symbol (c := ".") h2 (by decide +kernel)
  cases hv
  exact ⟨_, rfl, by simp [exprToks], trivial, rfl, by simp [endsLiteral]⟩

theorem good_termName {s j : ℕ} {r : Rule} {vs : List Val} {v : Val} {ts rest : List Token} (hr : r ∈ termNameRules)
    (hl : GoodL s r.rhs vs ts rest j) (hv : r.func.run vs = .ok v) : Good s (.n r.lhs) v ts (ahead rest) := by
  simp only [termNameRules, List.mem_cons, List.not_mem_nil, or_false] at hr
  subst hr
  obtain ⟨_, _, _, _, s1, rfl, rfl, ⟨w, rfl, rfl⟩, _, rfl, rfl, rfl⟩ := hl
  cases hv
  exact ⟨_, rfl, by simp [exprToks], trivial, rfl, by simp [endsLiteral]⟩

theorem good_strElement {s j p : ℕ} {r : Rule} {vs : List Val} {v : Val} {ts rest : List Token} (hr : r ∈ strElementRules)
    (hl : GoodL s r.rhs vs ts rest j) (hp : rules[p - 1]? = some r) (ha : act j (ahead rest) = some (.reduce p))
    (hv : r.func.run vs = .ok v) : Good s (.n r.lhs) v ts (ahead rest) := by
  simp only [strElementRules, List.mem_cons, List.not_mem_nil, or_false] at hr
  have hd := reduce_only hp ha
  subst hr
  obtain ⟨_, _, t1, _, s', rfl, rfl, ⟨ps, rfl, rfl, hne⟩, _, rfl, rfl, rfl⟩ := hl
  cases hv
  refine ⟨_, rfl, by simp [exprToks], hne, rfl, fun _ q hq => ?_⟩
  simpa using List.all_eq_true.1 hd q hq

/-! ## Sequences -/

theorem good_termSeq {s j : ℕ} {r : Rule} {vs : List Val} {v : Val} {ts rest : List Token} (hr : r ∈ termSeqRules)
    (hl : GoodL s r.rhs vs ts rest j) (hv : r.func.run vs = .ok v) : Good s (.n r.lhs) v ts (ahead rest) := by
  simp only [termSeqRules, List.mem_cons, List.not_mem_nil, or_false] at hr
  rcases hr with rfl | rfl
  · obtain ⟨_, _, _, _, s1, rfl, rfl, h1, _, _, _, _, _, s2, rfl, rfl, h2, _, rfl, rfl, rfl⟩ := hl
    obtain ⟨rfl, rfl⟩ := good_symbol (c := "{") h1 (by decide +kernel)
    obtain ⟨rfl, rfl⟩ := good_symbol (c := "}") h2 (by decide +kernel)
    cases hv
    exact ⟨_, rfl, by simp [exprToks, elemToks], trivial, rfl, by simp [endsLiteral]⟩
  · obtain ⟨_, _, _, _, s1, rfl, rfl, h1, _, _, _, _, _, s2, rfl, rfl, ⟨es, rfl, rfl, we, _⟩, _, _, _, _, _, s3, rfl, rfl, h2, _,
      rfl, rfl, rfl⟩ := hl
    obtain ⟨rfl, rfl⟩ := good_symbol (c := "{") h1 (by decide +kernel)
    obtain ⟨rfl, rfl⟩ := good_symbol (c := "}") h2 (by decide +kernel)
    cases hv
    exact ⟨_, rfl, by simp [exprToks], we, rfl, by simp [endsLiteral]⟩

/-- The tokens of an element. -/
def elementToks : Val → List Token
  | .expr e => exprToks e
  | .range l r => exprToks l ++ tok .doubleDot ".." :: exprToks r
  | _ => []

theorem moreToks_addElem {es : Elems} {v : Val} {es' : Elems} (h : addElem es v = some es') :
    moreToks es' = moreToks es ++ tok .comma "," :: elementToks v := by
  induction es using Elems.listInduction generalizing es' with
  | nil => cases v <;> cases h <;> simp [moreToks, elementToks]
  | expr e es ih =>
    simp only [addElem, Option.map_eq_some_iff] at h
    obtain ⟨es'', h, rfl⟩ := h
    simp [moreToks, ih h]
  | range l r es ih =>
    simp only [addElem, Option.map_eq_some_iff] at h
    obtain ⟨es'', h, rfl⟩ := h
    simp [moreToks, ih h]

theorem elemToks_addElem {es : Elems} {v : Val} {es' : Elems} (hne : es ≠ .nil) (h : addElem es v = some es') :
    elemToks es' = elemToks es ++ tok .comma "," :: elementToks v := by
  cases es with
  | nil => exact absurd rfl hne
  | expr e es =>
    simp only [addElem, Option.map_eq_some_iff] at h
    obtain ⟨es'', h, rfl⟩ := h
    simp [elemToks, moreToks_addElem h]
  | range l r es =>
    simp only [addElem, Option.map_eq_some_iff] at h
    obtain ⟨es'', h, rfl⟩ := h
    simp [elemToks, moreToks_addElem h]

/-- An element as it is written. -/
def WrittenV : Val → Prop
  | .expr e => Written e
  | .range l r => Written l ∧ Written r
  | _ => False

theorem written_addElem {es : Elems} {v : Val} {es' : Elems} (he : WrittenE es) (hv : WrittenV v) (h : addElem es v = some es') :
    WrittenE es' ∧ es' ≠ .nil := by
  induction es using Elems.listInduction generalizing es' with
  | nil => cases v <;> cases h <;> simpa [WrittenE, WrittenV] using hv
  | expr e es ih =>
    simp only [addElem, Option.map_eq_some_iff] at h
    obtain ⟨es'', h, rfl⟩ := h
    exact ⟨⟨he.1, (ih he.2 h).1⟩, by simp⟩
  | range l r es ih =>
    simp only [addElem, Option.map_eq_some_iff] at h
    obtain ⟨es'', h, rfl⟩ := h
    exact ⟨⟨he.1, he.2.1, (ih he.2.2 h).1⟩, by simp⟩

theorem good_element_val {s : ℕ} {v : Val} {ts : List Token} {a : ℕ} (h : Good s (.n .element) v ts a) :
    ts = elementToks v ∧ WrittenV v := by
  rcases h with ⟨e, rfl, rfl, h⟩ | ⟨l, r, rfl, rfl, h⟩
  · exact ⟨rfl, h⟩
  · exact ⟨rfl, h⟩

theorem good_elements {s j : ℕ} {r : Rule} {vs : List Val} {v : Val} {ts rest : List Token} (hr : r ∈ elementsRules)
    (hl : GoodL s r.rhs vs ts rest j) (hv : r.func.run vs = .ok v) : Good s (.n r.lhs) v ts (ahead rest) := by
  simp only [elementsRules, List.mem_cons, List.not_mem_nil, or_false] at hr
  rcases hr with rfl | rfl
  · obtain ⟨_, _, _, _, s1, rfl, rfl, ⟨es, rfl, rfl, we, hne⟩, _, _, _, _, _, s2, rfl, rfl, h2, _, v3, _, t3, _, s3, rfl, rfl, h3, _,
      rfl, rfl, rfl⟩ := hl
    obtain ⟨rfl, rfl⟩ := good_symbol (c := ",") h2 (by decide +kernel)
    obtain ⟨rfl, hw⟩ := good_element_val h3
    replace hv : orInternal ((addElem es v3).map .elems) = .ok v := hv
    cases he : addElem es v3 with
    | none => rw [he] at hv; cases hv
    | some es' =>
      rw [he] at hv
      cases hv
      exact ⟨es', rfl, by simp [elemToks_addElem hne he], written_addElem we hw he⟩
  · obtain ⟨v3, _, t3, _, s3, rfl, rfl, h3, _, rfl, rfl, rfl⟩ := hl
    rcases h3 with ⟨e, rfl, rfl, h⟩ | ⟨l, r, rfl, rfl, h⟩
    · cases hv
      exact ⟨_, rfl, by simp [elemToks, moreToks], ⟨h, trivial⟩, by simp⟩
    · cases hv
      exact ⟨_, rfl, by simp [elemToks, moreToks], ⟨h.1, h.2, trivial⟩, by simp⟩

theorem good_element {s j : ℕ} {r : Rule} {vs : List Val} {v : Val} {ts rest : List Token} (hr : r ∈ elementRules)
    (hl : GoodL s r.rhs vs ts rest j) (hv : r.func.run vs = .ok v) : Good s (.n r.lhs) v ts (ahead rest) := by
  simp only [elementRules, List.mem_cons, List.not_mem_nil, or_false] at hr
  rcases hr with rfl | rfl
  · obtain ⟨_, _, _, _, s1, rfl, rfl, ⟨e, rfl, rfl, we, _⟩, _, rfl, rfl, rfl⟩ := hl
    cases hv
    exact .inl ⟨_, rfl, by simp, we⟩
  · obtain ⟨_, _, _, _, s1, rfl, rfl, ⟨l, r, rfl, rfl, h⟩, _, rfl, rfl, rfl⟩ := hl
    cases hv
    exact .inr ⟨_, _, rfl, by simp, h⟩

theorem good_range {s j : ℕ} {r : Rule} {vs : List Val} {v : Val} {ts rest : List Token} (hr : r ∈ rangeRules)
    (hl : GoodL s r.rhs vs ts rest j) (hv : r.func.run vs = .ok v) : Good s (.n r.lhs) v ts (ahead rest) := by
  simp only [rangeRules, List.mem_cons, List.not_mem_nil, or_false] at hr
  subst hr
  obtain ⟨_, _, _, _, s1, rfl, rfl, ⟨l, rfl, rfl, wl, _⟩, _, _, _, _, _, s2, rfl, rfl, h2, _, _, _, _, _, s3, rfl, rfl,
    ⟨e, rfl, rfl, we, _⟩, _, rfl, rfl, rfl⟩ := hl
  obtain ⟨rfl, rfl⟩ := good_symbol (c := "..") h2 (by decide +kernel)
  cases hv
  exact ⟨_, _, rfl, by simp, wl, we⟩

/-! ## Calls -/

theorem good_termCall {s j : ℕ} {r : Rule} {vs : List Val} {v : Val} {ts rest : List Token} (hr : r ∈ termCallRules)
    (hl : GoodL s r.rhs vs ts rest j) (hv : r.func.run vs = .ok v) : Good s (.n r.lhs) v ts (ahead rest) := by
  simp only [termCallRules, List.mem_cons, List.not_mem_nil, or_false] at hr
  subst hr
  obtain ⟨_, _, _, _, s1, rfl, rfl, h1, _, _, _, _, _, s2, rfl, rfl, ⟨cs, rfl, rfl, hf, wc, _⟩, _, _, _, _, _, s3, rfl, rfl, h2, _,
    rfl, rfl, rfl⟩ := hl
  obtain ⟨rfl, rfl⟩ := good_symbol (c := "[") h1 (by decide +kernel)
  obtain ⟨rfl, rfl⟩ := good_symbol (c := "]") h2 (by decide +kernel)
  cases hv
  exact ⟨_, rfl, by simp [exprToks], ⟨hf, wc⟩, rfl, by simp [endsLiteral]⟩

theorem callToks_addWord (cs : CallParts) (w : List Char) : callToks (addWord cs w) = callToks cs ++ [wordTok w] := by
  induction cs using CallParts.listInduction with
  | nil => simp [addWord, callToks]
  | word v cs ih => simp [addWord, callToks, ih]
  | arg e cs ih => simp [addWord, callToks, ih]

theorem callToks_addArg (cs : CallParts) (e : Expr) : callToks (addArg cs e) = callToks cs ++ exprToks e := by
  induction cs using CallParts.listInduction with
  | nil => simp [addArg, callToks]
  | word v cs ih => simp [addArg, callToks, ih]
  | arg e cs ih => simp [addArg, callToks, ih]

theorem addWord_ok {cs : CallParts} {w : List Char} (hw : w ≠ "d".toList) (hc : WrittenC cs) (a : ℕ) :
    WrittenC (addWord cs w) ∧ LastOK (addWord cs w) a := by
  induction cs using CallParts.listInduction with
  | nil => exact ⟨⟨hw, trivial⟩, trivial⟩
  | word v cs ih => exact ⟨⟨hc.1, (ih hc.2).1⟩, (ih hc.2).2⟩
  | arg e cs ih =>
    obtain ⟨h1, h2, h3⟩ := hc
    obtain ⟨i1, i2⟩ := ih h3
    constructor
    · refine ⟨h1, ?_, i1⟩
      cases cs <;> trivial
    · cases cs <;> exact i2

theorem firstOK_addWord {cs : CallParts} (w : List Char) (h : FirstOK cs) : FirstOK (addWord cs w) := by
  cases cs with
  | nil => cases h
  | word => trivial
  | arg e cs => cases e <;> trivial

theorem firstOK_addArg {cs : CallParts} (e : Expr) (h : FirstOK cs) : FirstOK (addArg cs e) := by
  cases cs with
  | nil => cases h
  | word => trivial
  | arg e cs => cases e <;> trivial

theorem kindCode_inj {k q : Kind} (h : kindCode k = kindCode q) : k = q := by
  have : Sym.t k = Sym.t q := code_inj h
  cases this; rfl

theorem addArg_ok {cs : CallParts} {e : Expr} {rest : List Token} {a : ℕ} (he : Written e) (hc : WrittenC cs)
    (hlast : LastOK cs (ahead (exprToks e ++ rest))) (hne : LastOK (.arg e .nil) a) :
    WrittenC (addArg cs e) ∧ LastOK (addArg cs e) a := by
  induction cs using CallParts.listInduction with
  | nil => exact ⟨⟨he, trivial, trivial⟩, hne⟩
  | word v cs ih => exact ⟨⟨hc.1, (ih hc.2 hlast).1⟩, (ih hc.2 hlast).2⟩
  | arg f cs ih =>
    obtain ⟨h1, h2, h3⟩ := hc
    cases cs with
    | nil =>
      refine ⟨⟨h1, ?_, he, trivial, trivial⟩, hne⟩
      show Separate f (firstKind e)
      unfold Spec.firstKind
      cases ht : exprToks e with
      | nil => exact absurd ht (exprToks_ne_nil e he)
      | cons t ts =>
        rw [ht] at hlast
        obtain ⟨a1, a2, a3, a4⟩ := hlast
        simp only [List.cons_append, ahead] at a1 a2 a3 a4
        simp only [List.head?_cons, Option.map_some, Separate]
        refine ⟨fun h => a1 ?_, fun h => a2 ?_, fun hd h => a3 hd ?_, fun hd q hq h => a4 hd q hq ?_⟩ <;>
          rw [Option.some.inj h]
    | word w cs =>
      obtain ⟨i1, i2⟩ := ih h3 hlast
      exact ⟨⟨h1, trivial, i1⟩, i2⟩
    | arg g cs =>
      obtain ⟨i1, i2⟩ := ih h3 hlast
      exact ⟨⟨h1, h2, i1⟩, i2⟩

theorem good_callElements {s j : ℕ} {r : Rule} {vs : List Val} {v : Val} {ts rest : List Token} (hr : r ∈ callElementsRules)
    (hl : GoodL s r.rhs vs ts rest j) (hv : r.func.run vs = .ok v) : Good s (.n r.lhs) v ts (ahead rest) := by
  have shape : ∀ r ∈ callElementsRules, r.lhs = .callElements ∧ r.func = .callElements ∧
      ∃ k ∈ wordKinds, r.rhs = [.t k] ∨ r.rhs = [.n .callElements, .t k] := by decide +kernel
  obtain ⟨h1, h2, k, hk, h3 | h3⟩ := shape r hr <;> rw [h3] at hl <;> rw [h2] at hv <;> rw [h1]
  · obtain ⟨_, _, _, _, s1, rfl, rfl, ⟨w, rfl, rfl, ho⟩, _, rfl, rfl, rfl⟩ := hl
    cases hv
    exact ⟨_, rfl, by simp [callToks, tokenOK_word ho (.inl hk)], trivial, ⟨word_ne_d ho hk, trivial⟩, trivial⟩
  · obtain ⟨_, _, _, _, s1, rfl, rfl, ⟨cs, rfl, rfl, hf, wc, _⟩, _, _, _, _, _, s2, rfl, rfl, ⟨w, rfl, rfl, ho⟩, _, rfl, rfl, rfl⟩ := hl
    cases hv
    exact ⟨_, rfl, by simp [callToks_addWord, tokenOK_word ho (.inl hk)], firstOK_addWord w hf, addWord_ok (word_ne_d ho hk) wc _⟩

theorem good_callElementsExpr {s j p : ℕ} {r : Rule} {vs : List Val} {v : Val} {ts rest : List Token} (hr : r ∈ callElementsExprRules)
    (hl : GoodL s r.rhs vs ts rest j) (hp : rules[p - 1]? = some r) (ha : act j (ahead rest) = some (.reduce p))
    (hv : r.func.run vs = .ok v) : Good s (.n r.lhs) v ts (ahead rest) := by
  have hd := reduce_only hp ha
  simp only [callElementsExprRules, List.mem_cons, List.not_mem_nil, or_false] at hr
  rcases hr with rfl | rfl
  · simp only [Bool.and_eq_true, bne_iff_ne, ne_eq] at hd
    obtain ⟨_, _, _, _, s1, rfl, rfl, ⟨e, rfl, rfl, we, _, he, hle⟩, _, rfl, rfl, rfl⟩ := hl
    have hne : LastOK (.arg e .nil) (ahead rest) := ⟨hd.1, hd.2, by simpa using he, by simpa using hle⟩
    cases e <;> cases hv <;> exact ⟨_, rfl, by simp [callToks], trivial, ⟨we, trivial, trivial⟩, hne⟩
  · simp only [Bool.and_eq_true, bne_iff_ne, ne_eq] at hd
    obtain ⟨_, _, _, _, s1, rfl, rfl, ⟨cs, rfl, rfl, hf, wc, hlast⟩, _, _, _, _, _, s2, rfl, rfl, ⟨e, rfl, rfl, we, _, he, hle⟩, _,
      rfl, rfl, rfl⟩ := hl
    have hne : LastOK (.arg e .nil) (ahead rest) := ⟨hd.1, hd.2, by simpa using he, by simpa using hle⟩
    cases hv
    exact ⟨_, rfl, by simp [callToks_addArg], firstOK_addArg e hf, addArg_ok (rest := rest) we wc (by simpa using hlast) hne⟩

end PythonDice.Yacc
