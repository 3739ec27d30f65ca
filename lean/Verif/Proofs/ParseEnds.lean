import Verif.Proofs.ParseSoundS
import Verif.Model.Compile
import Verif.Spec.Compile

/-!
# The parser ends, and how
-/

namespace PythonDice.Yacc

open Lexer (Kind Token)
open Compiler Spec

/-! ## The actions -/

/-- The values of symbols. -/
def Fits (x : Sym) (v : Val) : Prop :=
  match x with
  | .t k => ∃ w, v = .text w ∧ TokenOK ⟨k, w⟩
  | .n .start => True
  | .n .multilineCode => ∃ b, v = .block b
  | .n .empty => True
  | .n .singleCode => ∃ st, v = .stmt st
  | .n .ifExpr => ∃ c b, v = .branches [.if_ c b]
  | .n .elseExpr => ∃ b, v = .branches [.else_ b]
  | .n .elseifExpr => ∃ xs : List (Expr × Block), v = .branches (xs.map fun x => .elseif x.1 x.2)
  | .n .varName => ∃ x, v = .text x
  | .n .string => ∃ ps, v = .str ps
  | .n .funcnameDef => ∃ ds, v = .sig ds
  | .n .expression => ∃ e, v = .expr e
  | .n .term => ∃ e, v = .expr e
  | .n .elements => ∃ es, v = .elems es
  | .n .element => (∃ e, v = .expr e) ∨ ∃ l r, v = .range l r
  | .n .range => ∃ l r, v = .range l r
  | .n .callElements => ∃ cs, v = .call cs

theorem Good.fits {s : ℕ} {x : Sym} {v : Val} {ts : List Token} {a : ℕ} (h : Good s x v ts a) : Fits x v := by
  cases x with
  | t k => obtain ⟨w, h1, _, h2⟩ := h; exact ⟨w, h1, h2⟩
  | n x =>
    cases x
    case start => trivial
    case empty => trivial
    case multilineCode => obtain ⟨b, h, _⟩ := h; exact ⟨b, h⟩
    case singleCode => obtain ⟨b, h, _⟩ := h; exact ⟨b, h⟩
    case ifExpr => obtain ⟨c, b, h, _⟩ := h; exact ⟨c, b, h⟩
    case elseExpr => obtain ⟨b, h, _⟩ := h; exact ⟨b, h⟩
    case elseifExpr => obtain ⟨b, h, _⟩ := h; exact ⟨b, h⟩
    case varName => obtain ⟨b, h, _⟩ := h; exact ⟨b, h⟩
    case string => obtain ⟨b, h, _⟩ := h; exact ⟨b, h⟩
    case funcnameDef => obtain ⟨b, h, _⟩ := h; exact ⟨b, h⟩
    case expression => obtain ⟨b, h, _⟩ := h; exact ⟨b, h⟩
    case term => obtain ⟨b, h, _⟩ := h; exact ⟨b, h⟩
    case elements => obtain ⟨b, h, _⟩ := h; exact ⟨b, h⟩
    case element =>
      rcases h with ⟨b, h, _⟩ | ⟨l, r, h, _⟩
      · exact .inl ⟨b, h⟩
      · exact .inr ⟨l, r, h⟩
    case range => obtain ⟨l, r, h, _⟩ := h; exact ⟨l, r, h⟩
    case callElements => obtain ⟨b, h, _⟩ := h; exact ⟨b, h⟩

/-- The values of lists of symbols. -/
def FitsL : List Sym → List Val → Prop
  | [], vs => vs = []
  | x :: xs, vs => ∃ v vs', vs = v :: vs' ∧ Fits x v ∧ FitsL xs vs'

theorem GoodL.fits {xs : List Sym} : ∀ {s : ℕ} {vs : List Val} {ts rest : List Token} {j : ℕ}, GoodL s xs vs ts rest j → FitsL xs vs := by
  induction xs with
  | nil => intro s vs ts rest j h; exact h.1
  | cons x xs ih =>
    intro s vs ts rest j h
    obtain ⟨v, vs', _, _, _, rfl, _, h1, _, h2⟩ := h
    exact ⟨v, vs', rfl, h1.fits, ih h2⟩

/-- An action works, or it is one of two that do not. -/
def Works (r : Rule) (vs : List Val) : Prop :=
  (∃ v, r.func.run vs = .ok v) ∨
    r.func.run vs = .error .indexError ∧
      (r.rhs = [] ∧ r.lhs = .funcnameDef ∨ r.lhs = .callElements ∧ r.rhs = [.n .expression] ∧ ∃ cs, vs = [.expr (.call cs)])

theorem addElem_some {v : Val} (h : (∃ e, v = .expr e) ∨ ∃ l r, v = .range l r) (es : Elems) : ∃ es', addElem es v = some es' := by
  induction es using Elems.listInduction with
  | nil =>
    rcases h with ⟨e, rfl⟩ | ⟨l, r, rfl⟩
    · exact ⟨_, rfl⟩
    · exact ⟨_, rfl⟩
  | expr e es ih => obtain ⟨es', ih⟩ := ih; exact ⟨.expr e es', by simp [addElem, ih]⟩
  | range l r es ih => obtain ⟨es', ih⟩ := ih; exact ⟨.range l r es', by simp [addElem, ih]⟩

theorem text_of {k : Kind} {w c : List Char} (h : TokenOK ⟨k, w⟩)
    (hk : symbolText.lookup k = some c ∨ k ∈ keywords.map Prod.snd ∧ (keywords.map Prod.swap).lookup k = some c) : w = c := by
  rcases hk with hk | ⟨h1, h2⟩
  · exact tokenOK_symbol h hk
  · exact keyword_text (tokenOK_keyword h h1) h2

theorem works_multilineCode {r : Rule} (hr : r ∈ multilineCodeRules) {vs : List Val} (h : FitsL r.rhs vs) : Works r vs := by
  simp only [multilineCodeRules, List.mem_cons, List.not_mem_nil, or_false] at hr
  rcases hr with rfl | rfl
  · obtain ⟨_, _, rfl, ⟨st, rfl⟩, rfl⟩ := h
    exact .inl ⟨_, rfl⟩
  · obtain ⟨_, _, rfl, ⟨b, rfl⟩, _, _, rfl, ⟨st, rfl⟩, rfl⟩ := h
    exact .inl ⟨_, rfl⟩

theorem works_multilineCodeEmpty {r : Rule} (hr : r ∈ multilineCodeEmptyRules) {vs : List Val} (h : FitsL r.rhs vs) : Works r vs := by
  simp only [multilineCodeEmptyRules, List.mem_cons, List.not_mem_nil, or_false] at hr
  subst hr
  obtain ⟨_, _, rfl, _, rfl⟩ := h
  exact .inl ⟨_, rfl⟩

theorem works_empty {r : Rule} (hr : r ∈ emptyRules) {vs : List Val} (h : FitsL r.rhs vs) : Works r vs := by
  simp only [emptyRules, List.mem_cons, List.not_mem_nil, or_false] at hr
  subst hr
  cases h
  exact .inl ⟨_, rfl⟩

theorem works_singleCode {r : Rule} (hr : r ∈ singleCodeRules) {vs : List Val} (h : FitsL r.rhs vs) : Works r vs := by
  simp only [singleCodeRules, List.mem_cons, List.not_mem_nil, or_false] at hr
  rcases hr with rfl | rfl | rfl | rfl | rfl | rfl | rfl
  · obtain ⟨_, _, rfl, ⟨w, rfl, hw⟩, _, _, rfl, ⟨e, rfl⟩, rfl⟩ := h
    have := text_of (c := "output".toList) hw (by decide +kernel)
    subst this
    exact .inl ⟨_, rfl⟩
  · obtain ⟨_, _, rfl, ⟨w, rfl, hw⟩, _, _, rfl, ⟨e, rfl⟩, _, _, rfl, ⟨w', rfl, _⟩, _, _, rfl, ⟨n, rfl⟩, rfl⟩ := h
    have := text_of (c := "output".toList) hw (by decide +kernel)
    subst this
    exact .inl ⟨_, rfl⟩
  · obtain ⟨_, _, rfl, ⟨w, rfl, hw⟩, _, _, rfl, ⟨w1, rfl, _⟩, _, _, rfl, ⟨ds, rfl⟩, _, _, rfl, ⟨w2, rfl, _⟩, _, _, rfl, ⟨b, rfl⟩, _, _, rfl,
      ⟨w3, rfl, _⟩, rfl⟩ := h
    have := text_of (c := "function".toList) hw (by decide +kernel)
    subst this
    exact .inl ⟨_, rfl⟩
  · obtain ⟨_, _, rfl, ⟨w, rfl, hw⟩, _, _, rfl, ⟨x, rfl⟩, _, _, rfl, ⟨w1, rfl, _⟩, _, _, rfl, ⟨e, rfl⟩, _, _, rfl, ⟨w2, rfl, _⟩, _, _, rfl,
      ⟨b, rfl⟩, _, _, rfl, ⟨w3, rfl, _⟩, rfl⟩ := h
    have := text_of (c := "loop".toList) hw (by decide +kernel)
    subst this
    exact .inl ⟨_, rfl⟩
  · obtain ⟨_, _, rfl, ⟨w, rfl, hw⟩, _, _, rfl, ⟨w1, rfl, _⟩, _, _, rfl, ⟨e, rfl⟩, rfl⟩ := h
    have := text_of (c := "result".toList) hw (by decide +kernel)
    subst this
    exact .inl ⟨_, rfl⟩
  · obtain ⟨_, _, rfl, ⟨w, rfl, hw⟩, _, _, rfl, ⟨n, rfl⟩, _, _, rfl, ⟨w1, rfl, _⟩, _, _, rfl, ⟨e, rfl⟩, rfl⟩ := h
    have := text_of (c := "set".toList) hw (by decide +kernel)
    subst this
    exact .inl ⟨_, rfl⟩
  · obtain ⟨_, _, rfl, ⟨w, rfl, hw⟩, _, _, rfl, ⟨n, rfl⟩, _, _, rfl, ⟨w1, rfl, _⟩, _, _, rfl, ⟨e, rfl⟩, rfl⟩ := h
    have := text_of (c := "set".toList) hw (by decide +kernel)
    subst this
    exact .inl ⟨_, rfl⟩

theorem elseOf_some (xs : List (Expr × Block)) {bs : List Branch} (h : ∃ r, elseOf bs = some r) :
    ∃ r, elseOf (xs.map (fun x => .elseif x.1 x.2) ++ bs) = some r := by
  induction xs with
  | nil => exact h
  | cons x xs ih =>
    obtain ⟨r, ih⟩ := ih
    exact ⟨.elif x.1 x.2 r, by simp [elseOf, ih]⟩

theorem works_cond {r : Rule} (hr : r ∈ singleCodeIfElseifElseRules) {vs : List Val} (h : FitsL r.rhs vs) : Works r vs := by
  simp only [singleCodeIfElseifElseRules, List.mem_cons, List.not_mem_nil, or_false] at hr
  rcases hr with rfl | rfl | rfl | rfl
  · obtain ⟨_, _, rfl, ⟨c, b, rfl⟩, rfl⟩ := h
    exact .inl ⟨_, rfl⟩
  · obtain ⟨_, _, rfl, ⟨c, b, rfl⟩, _, _, rfl, ⟨b', rfl⟩, rfl⟩ := h
    exact .inl ⟨_, rfl⟩
  · obtain ⟨_, _, rfl, ⟨c, b, rfl⟩, _, _, rfl, ⟨xs, rfl⟩, rfl⟩ := h
    obtain ⟨r, hr⟩ := elseOf_some xs (bs := []) ⟨_, rfl⟩
    rw [List.append_nil] at hr
    refine .inl ⟨.stmt (.cond c b r), ?_⟩
    show orInternal ((condOf ([.if_ c b] ++ xs.map fun x => .elseif x.1 x.2)).map .stmt) = _
    simp only [List.cons_append, List.nil_append, condOf, hr, Option.map_some, orInternal]
  · obtain ⟨_, _, rfl, ⟨c, b, rfl⟩, _, _, rfl, ⟨xs, rfl⟩, _, _, rfl, ⟨b', rfl⟩, rfl⟩ := h
    obtain ⟨r, hr⟩ := elseOf_some xs (bs := [.else_ b']) ⟨_, rfl⟩
    refine .inl ⟨.stmt (.cond c b r), ?_⟩
    show orInternal ((condOf ([.if_ c b] ++ xs.map (fun x => .elseif x.1 x.2) ++ [.else_ b'])).map .stmt) = _
    simp only [List.cons_append, List.nil_append, condOf, hr, Option.map_some, orInternal]

theorem works_if {r : Rule} (hr : r ∈ ifRules) {vs : List Val} (h : FitsL r.rhs vs) : Works r vs := by
  simp only [ifRules, List.mem_cons, List.not_mem_nil, or_false] at hr
  subst hr
  obtain ⟨_, _, rfl, ⟨w, rfl, hw⟩, _, _, rfl, ⟨e, rfl⟩, _, _, rfl, ⟨w', rfl, _⟩, _, _, rfl, ⟨n, rfl⟩, _, _, rfl, ⟨w', rfl, _⟩, rfl⟩ := h
  exact .inl ⟨_, rfl⟩

theorem works_else {r : Rule} (hr : r ∈ elseRules) {vs : List Val} (h : FitsL r.rhs vs) : Works r vs := by
  simp only [elseRules, List.mem_cons, List.not_mem_nil, or_false] at hr
  subst hr
  obtain ⟨_, _, rfl, ⟨w, rfl, hw⟩, _, _, rfl, ⟨w', rfl, _⟩, _, _, rfl, ⟨n, rfl⟩, _, _, rfl, ⟨w', rfl, _⟩, rfl⟩ := h
  exact .inl ⟨_, rfl⟩

theorem works_elif {r : Rule} (hr : r ∈ elifRules) {vs : List Val} (h : FitsL r.rhs vs) : Works r vs := by
  simp only [elifRules, List.mem_cons, List.not_mem_nil, or_false] at hr
  rcases hr with rfl | rfl
  · obtain ⟨_, _, rfl, ⟨w, rfl, hw⟩, _, _, rfl, ⟨w, rfl, hw⟩, _, _, rfl, ⟨e, rfl⟩, _, _, rfl, ⟨w', rfl, _⟩, _, _, rfl, ⟨n, rfl⟩, _, _, rfl,
      ⟨w', rfl, _⟩, rfl⟩ := h
    exact .inl ⟨_, rfl⟩
  · obtain ⟨_, _, rfl, ⟨xs, rfl⟩, _, _, rfl, ⟨w, rfl, hw⟩, _, _, rfl, ⟨w, rfl, hw⟩, _, _, rfl, ⟨e, rfl⟩, _, _, rfl, ⟨w', rfl, _⟩, _, _, rfl,
      ⟨n, rfl⟩, _, _, rfl, ⟨w', rfl, _⟩, rfl⟩ := h
    exact .inl ⟨_, rfl⟩

theorem works_varAssign {r : Rule} (hr : r ∈ varAssignRules) {vs : List Val} (h : FitsL r.rhs vs) : Works r vs := by
  simp only [varAssignRules, List.mem_cons, List.not_mem_nil, or_false] at hr
  subst hr
  obtain ⟨_, _, rfl, ⟨w, rfl⟩, _, _, rfl, ⟨w', rfl, _⟩, _, _, rfl, ⟨n, rfl⟩, rfl⟩ := h
  exact .inl ⟨_, rfl⟩

theorem works_varName {r : Rule} (hr : r ∈ varNameRules) {vs : List Val} (h : FitsL r.rhs vs) : Works r vs := by
  simp only [varNameRules, List.mem_cons, List.not_mem_nil, or_false] at hr
  subst hr
  obtain ⟨_, _, rfl, ⟨w, rfl, _⟩, rfl⟩ := h
  exact .inl ⟨_, rfl⟩

theorem works_stringInstring {r : Rule} (hr : r ∈ stringInstringRules) {vs : List Val} (h : FitsL r.rhs vs) : Works r vs := by
  simp only [stringInstringRules, List.mem_cons, List.not_mem_nil, or_false] at hr
  rcases hr with rfl | rfl | rfl | rfl
  · obtain ⟨_, _, rfl, ⟨w, rfl, _⟩, rfl⟩ := h
    exact .inl ⟨_, rfl⟩
  · obtain ⟨_, _, rfl, ⟨w, rfl, _⟩, rfl⟩ := h
    exact .inl ⟨_, rfl⟩
  · obtain ⟨_, _, rfl, ⟨w, rfl⟩, _, _, rfl, ⟨_, rfl, _⟩, rfl⟩ := h
    exact .inl ⟨_, rfl⟩
  · obtain ⟨_, _, rfl, ⟨w, rfl⟩, _, _, rfl, ⟨_, rfl, _⟩, rfl⟩ := h
    exact .inl ⟨_, rfl⟩

theorem works_strvarInstring {r : Rule} (hr : r ∈ strvarInstringRules) {vs : List Val} (h : FitsL r.rhs vs) : Works r vs := by
  simp only [strvarInstringRules, List.mem_cons, List.not_mem_nil, or_false] at hr
  rcases hr with rfl | rfl
  · obtain ⟨_, _, rfl, ⟨w, rfl, _⟩, rfl⟩ := h
    exact .inl ⟨_, rfl⟩
  · obtain ⟨_, _, rfl, ⟨w, rfl⟩, _, _, rfl, ⟨_, rfl, _⟩, rfl⟩ := h
    exact .inl ⟨_, rfl⟩

theorem works_sig {r : Rule} (hf : r.func.run = pFuncnameDef) (hl : r.lhs = .funcnameDef)
    (hr : r.rhs = [] ∨ (∃ k, r.rhs = [.t k]) ∨ ∃ k, r.rhs = [.n .funcnameDef, .t k]) {vs : List Val} (h : FitsL r.rhs vs) : Works r vs := by
  unfold Works
  rw [hf]
  rcases hr with hr | ⟨k, hr⟩ | ⟨k, hr⟩ <;> rw [hr] at h
  · cases h
    exact .inr ⟨rfl, .inl ⟨hr, hl⟩⟩
  · obtain ⟨_, _, rfl, ⟨w, rfl, _⟩, rfl⟩ := h
    exact .inl ⟨_, rfl⟩
  · obtain ⟨_, _, rfl, ⟨w, rfl⟩, _, _, rfl, ⟨_, rfl, _⟩, rfl⟩ := h
    exact .inl ⟨_, rfl⟩

/-- The right sides of names of functions. -/
def sigShape (r : Rule) : Bool :=
  match r.rhs with
  | [] => true
  | [.t _] => true
  | [.n .funcnameDef, .t _] => true
  | _ => false

theorem sigShape_spec {r : Rule} (h : sigShape r = true) : r.rhs = [] ∨ (∃ k, r.rhs = [.t k]) ∨ ∃ k, r.rhs = [.n .funcnameDef, .t k] := by
  unfold sigShape at h
  split at h
  · rename_i e; exact .inl e
  · rename_i k e; exact .inr (.inl ⟨k, e⟩)
  · rename_i k e; exact .inr (.inr ⟨k, e⟩)
  · cases h

theorem sigRules_shape : ∀ r ∈ funcnameDefRules ++ funcnameDefImpossibletocallRules, sigShape r = true ∧ r.lhs = .funcnameDef ∧
    (r.func = .funcnameDef ∨ r.func = .funcnameDefImpossibletocall) := by decide

theorem works_funcnameDef {r : Rule} (hr : r ∈ funcnameDefRules ++ funcnameDefImpossibletocallRules) {vs : List Val} (h : FitsL r.rhs vs) :
    Works r vs := by
  obtain ⟨h1, h2, h3⟩ := sigRules_shape r hr
  refine works_sig ?_ h2 (sigShape_spec h1) h
  rcases h3 with h3 | h3 <;> rw [h3] <;> rfl

theorem works_funcnameDefParam {r : Rule} (hr : r ∈ funcnameDefParamRules) {vs : List Val} (h : FitsL r.rhs vs) : Works r vs := by
  simp only [funcnameDefParamRules, List.mem_cons, List.not_mem_nil, or_false] at hr
  rcases hr with rfl | rfl | rfl | rfl | rfl | rfl
  · obtain ⟨_, _, rfl, ⟨w, rfl⟩, rfl⟩ := h
    exact .inl ⟨_, rfl⟩
  · obtain ⟨_, _, rfl, ⟨w, rfl⟩, _, _, rfl, ⟨_, rfl, _⟩, _, _, rfl, ⟨_, rfl, _⟩, rfl⟩ := h
    exact .inl ⟨_, rfl⟩
  · obtain ⟨_, _, rfl, ⟨w, rfl⟩, _, _, rfl, ⟨_, rfl, _⟩, _, _, rfl, ⟨_, rfl, _⟩, rfl⟩ := h
    exact .inl ⟨_, rfl⟩
  · obtain ⟨_, _, rfl, ⟨w, rfl⟩, _, _, rfl, ⟨_, rfl⟩, rfl⟩ := h
    exact .inl ⟨_, rfl⟩
  · obtain ⟨_, _, rfl, ⟨w, rfl⟩, _, _, rfl, ⟨_, rfl⟩, _, _, rfl, ⟨_, rfl, _⟩, _, _, rfl, ⟨_, rfl, _⟩, rfl⟩ := h
    exact .inl ⟨_, rfl⟩
  · obtain ⟨_, _, rfl, ⟨w, rfl⟩, _, _, rfl, ⟨_, rfl⟩, _, _, rfl, ⟨_, rfl, _⟩, _, _, rfl, ⟨_, rfl, _⟩, rfl⟩ := h
    exact .inl ⟨_, rfl⟩

theorem binOpOf_opTexts : ∀ k c, symbolText.lookup k = some c →
    k ∈ [Kind.plus, .minus, .times, .divide, .power, .at_, .and_, .or_, .less, .greater, .equals, .notequals] → (binOpOf c).isSome = true := by
  have : ∀ p ∈ symbolText, p.1 ∈ [Kind.plus, .minus, .times, .divide, .power, .at_, .and_, .or_, .less, .greater, .equals, .notequals] →
      (binOpOf p.2).isSome = true := by decide +kernel
  intro k c hk
  obtain ⟨a, b, e, _⟩ := List.lookup_eq_some_iff.1 hk
  exact this (k, c) (by rw [e]; simp)

/-- The kinds of the operators of one token. -/
def opKinds1 : List Kind := [.plus, .minus, .times, .divide, .power, .at_, .and_, .or_, .less, .greater, .equals, .notequals]

theorem opKinds1_text : ∀ k ∈ opKinds1, (symbolText.lookup k).isSome = true := by decide +kernel

/-- The right sides of binary operators. -/
def binShape (r : Rule) : Bool :=
  match r.rhs with
  | [.n .expression, .t k, .n .expression] => opKinds1.contains k
  | [.n .expression, .t k, .t .equals, .n .expression] => k == .less || k == .greater
  | _ => false

theorem binRules_shape : ∀ r ∈ expressionBinopRules ++ expressionComparisonRules, binShape r = true ∧
    (r.func = .expressionBinop ∨ r.func = .expressionComparison) := by decide

theorem works_bin {r : Rule} (hr : r ∈ expressionBinopRules ++ expressionComparisonRules) {vs : List Val} (h : FitsL r.rhs vs) :
    Works r vs := by
  obtain ⟨h1, h2⟩ := binRules_shape r hr
  have hf : r.func.run = pExpressionBinop := by rcases h2 with h2 | h2 <;> rw [h2] <;> rfl
  refine .inl ?_
  rw [hf]
  unfold binShape at h1
  split at h1
  · rename_i k e
    rw [e] at h
    obtain ⟨_, _, rfl, ⟨a, rfl⟩, _, _, rfl, ⟨w, rfl, hw⟩, _, _, rfl, ⟨b, rfl⟩, rfl⟩ := h
    have hk : k ∈ opKinds1 := List.contains_iff_mem.1 h1
    obtain ⟨c, hc⟩ := Option.isSome_iff_exists.1 (opKinds1_text k hk)
    have := tokenOK_symbol hw hc
    subst this
    obtain ⟨o, ho⟩ := Option.isSome_iff_exists.1 (binOpOf_opTexts k w hc hk)
    exact ⟨.expr (.bin o a b), by simp only [pExpressionBinop, ho, Option.map_some, orInternal]⟩
  · rename_i k e
    rw [e] at h
    obtain ⟨_, _, rfl, ⟨a, rfl⟩, _, _, rfl, ⟨w, rfl, hw⟩, _, _, rfl, ⟨w', rfl, hw'⟩, _, _, rfl, ⟨b, rfl⟩, rfl⟩ := h
    have e2 := tokenOK_symbol (c := "=".toList) hw' (by decide +kernel)
    subst e2
    simp only [Bool.or_eq_true, beq_iff_eq] at h1
    rcases h1 with rfl | rfl
    · have e1 := tokenOK_symbol (c := "<".toList) hw (by decide +kernel)
      subst e1
      have : binOpOf ("<".toList ++ "=".toList) = some .le := by decide +kernel
      exact ⟨.expr (.bin .le a b), by simp only [pExpressionBinop, this, Option.map_some, orInternal]⟩
    · have e1 := tokenOK_symbol (c := ">".toList) hw (by decide +kernel)
      subst e1
      have : binOpOf (">".toList ++ "=".toList) = some .ge := by decide +kernel
      exact ⟨.expr (.bin .ge a b), by simp only [pExpressionBinop, this, Option.map_some, orInternal]⟩
  · cases h1

theorem works_dop {r : Rule} (hr : r ∈ expressionDopRules) {vs : List Val} (h : FitsL r.rhs vs) : Works r vs := by
  simp only [expressionDopRules, List.mem_cons, List.not_mem_nil, or_false] at hr
  rcases hr with rfl | rfl
  · obtain ⟨_, _, rfl, ⟨w, rfl⟩, _, _, rfl, ⟨_, rfl, _⟩, _, _, rfl, ⟨_, rfl⟩, rfl⟩ := h
    exact .inl ⟨_, rfl⟩
  · obtain ⟨_, _, rfl, ⟨_, rfl, _⟩, _, _, rfl, ⟨_, rfl⟩, rfl⟩ := h
    exact .inl ⟨_, rfl⟩

theorem works_expressionTerm {r : Rule} (hr : r ∈ expressionTermRules) {vs : List Val} (h : FitsL r.rhs vs) : Works r vs := by
  simp only [expressionTermRules, List.mem_cons, List.not_mem_nil, or_false] at hr
  subst hr
  obtain ⟨_, _, rfl, ⟨w, rfl⟩, rfl⟩ := h
  exact .inl ⟨_, rfl⟩

theorem works_termUnary {r : Rule} (hr : r ∈ termUnaryRules) {vs : List Val} (h : FitsL r.rhs vs) : Works r vs := by
  simp only [termUnaryRules, List.mem_cons, List.not_mem_nil, or_false] at hr
  rcases hr with rfl | rfl | rfl
  · obtain ⟨_, _, rfl, ⟨w, rfl, hw⟩, _, _, rfl, ⟨e, rfl⟩, rfl⟩ := h
    have := text_of (c := "+".toList) hw (by decide +kernel)
    subst this
    exact .inl ⟨_, rfl⟩
  · obtain ⟨_, _, rfl, ⟨w, rfl, hw⟩, _, _, rfl, ⟨e, rfl⟩, rfl⟩ := h
    have := text_of (c := "-".toList) hw (by decide +kernel)
    subst this
    exact .inl ⟨_, rfl⟩
  · obtain ⟨_, _, rfl, ⟨w, rfl, hw⟩, _, _, rfl, ⟨e, rfl⟩, rfl⟩ := h
    have := text_of (c := "!".toList) hw (by decide +kernel)
    subst this
    exact .inl ⟨_, rfl⟩

theorem works_termHash {r : Rule} (hr : r ∈ termHashRules) {vs : List Val} (h : FitsL r.rhs vs) : Works r vs := by
  simp only [termHashRules, List.mem_cons, List.not_mem_nil, or_false] at hr
  subst hr
  obtain ⟨_, _, rfl, ⟨w, rfl, hw⟩, _, _, rfl, ⟨e, rfl⟩, rfl⟩ := h
  exact .inl ⟨_, rfl⟩

theorem works_termGrouped {r : Rule} (hr : r ∈ termGroupedRules) {vs : List Val} (h : FitsL r.rhs vs) : Works r vs := by
  simp only [termGroupedRules, List.mem_cons, List.not_mem_nil, or_false] at hr
  subst hr
  obtain ⟨_, _, rfl, ⟨w, rfl, hw⟩, _, _, rfl, ⟨e, rfl⟩, _, _, rfl, ⟨w, rfl, hw⟩, rfl⟩ := h
  exact .inl ⟨_, rfl⟩

theorem works_termNumber {r : Rule} (hr : r ∈ termNumberRules) {vs : List Val} (h : FitsL r.rhs vs) : Works r vs := by
  simp only [termNumberRules, List.mem_cons, List.not_mem_nil, or_false] at hr
  subst hr
  obtain ⟨_, _, rfl, ⟨w, rfl, hw⟩, rfl⟩ := h
  exact .inl ⟨_, rfl⟩

theorem works_termNumberDecimal {r : Rule} (hr : r ∈ termNumberDecimalRules) {vs : List Val} (h : FitsL r.rhs vs) : Works r vs := by
  simp only [termNumberDecimalRules, List.mem_cons, List.not_mem_nil, or_false] at hr
  subst hr
  obtain ⟨_, _, rfl, ⟨w, rfl, hw⟩, _, _, rfl, ⟨w, rfl, hw⟩, _, _, rfl, ⟨w, rfl, hw⟩, rfl⟩ := h
  exact .inl ⟨_, rfl⟩

theorem works_termName {r : Rule} (hr : r ∈ termNameRules) {vs : List Val} (h : FitsL r.rhs vs) : Works r vs := by
  simp only [termNameRules, List.mem_cons, List.not_mem_nil, or_false] at hr
  subst hr
  obtain ⟨_, _, rfl, ⟨w, rfl⟩, rfl⟩ := h
  exact .inl ⟨_, rfl⟩

theorem works_termSeq {r : Rule} (hr : r ∈ termSeqRules) {vs : List Val} (h : FitsL r.rhs vs) : Works r vs := by
  simp only [termSeqRules, List.mem_cons, List.not_mem_nil, or_false] at hr
  rcases hr with rfl | rfl
  · obtain ⟨_, _, rfl, ⟨w, rfl, hw⟩, _, _, rfl, ⟨w, rfl, hw⟩, rfl⟩ := h
    exact .inl ⟨_, rfl⟩
  · obtain ⟨_, _, rfl, ⟨w, rfl, hw⟩, _, _, rfl, ⟨e, rfl⟩, _, _, rfl, ⟨w, rfl, hw⟩, rfl⟩ := h
    exact .inl ⟨_, rfl⟩

theorem works_elements {r : Rule} (hr : r ∈ elementsRules) {vs : List Val} (h : FitsL r.rhs vs) : Works r vs := by
  simp only [elementsRules, List.mem_cons, List.not_mem_nil, or_false] at hr
  rcases hr with rfl | rfl
  · obtain ⟨_, _, rfl, ⟨es, rfl⟩, _, _, rfl, ⟨w, rfl, hw⟩, v, _, rfl, hv, rfl⟩ := h
    obtain ⟨es', he⟩ := addElem_some hv es
    refine .inl ⟨.elems es', ?_⟩
    show orInternal ((addElem es v).map .elems) = _
    rw [he]; rfl
  · obtain ⟨v, _, rfl, hv, rfl⟩ := h
    obtain ⟨es', he⟩ := addElem_some hv .nil
    refine .inl ⟨.elems es', ?_⟩
    have : Func.run .elements [v] = orInternal ((addElem .nil v).map .elems) := by rcases hv with ⟨_, rfl⟩ | ⟨_, _, rfl⟩ <;> rfl
    show Func.run .elements [v] = _
    rw [this, he]; rfl

theorem works_element {r : Rule} (hr : r ∈ elementRules) {vs : List Val} (h : FitsL r.rhs vs) : Works r vs := by
  simp only [elementRules, List.mem_cons, List.not_mem_nil, or_false] at hr
  rcases hr with rfl | rfl
  · obtain ⟨_, _, rfl, ⟨w, rfl⟩, rfl⟩ := h
    exact .inl ⟨_, rfl⟩
  · obtain ⟨_, _, rfl, ⟨l, r, rfl⟩, rfl⟩ := h
    exact .inl ⟨_, rfl⟩

theorem works_range {r : Rule} (hr : r ∈ rangeRules) {vs : List Val} (h : FitsL r.rhs vs) : Works r vs := by
  simp only [rangeRules, List.mem_cons, List.not_mem_nil, or_false] at hr
  subst hr
  obtain ⟨_, _, rfl, ⟨w, rfl⟩, _, _, rfl, ⟨_, rfl, _⟩, _, _, rfl, ⟨_, rfl⟩, rfl⟩ := h
  exact .inl ⟨_, rfl⟩

theorem works_strElement {r : Rule} (hr : r ∈ strElementRules) {vs : List Val} (h : FitsL r.rhs vs) : Works r vs := by
  simp only [strElementRules, List.mem_cons, List.not_mem_nil, or_false] at hr
  subst hr
  obtain ⟨_, _, rfl, ⟨w, rfl⟩, rfl⟩ := h
  exact .inl ⟨_, rfl⟩

theorem works_termCall {r : Rule} (hr : r ∈ termCallRules) {vs : List Val} (h : FitsL r.rhs vs) : Works r vs := by
  simp only [termCallRules, List.mem_cons, List.not_mem_nil, or_false] at hr
  subst hr
  obtain ⟨_, _, rfl, ⟨w, rfl, hw⟩, _, _, rfl, ⟨e, rfl⟩, _, _, rfl, ⟨w, rfl, hw⟩, rfl⟩ := h
  exact .inl ⟨_, rfl⟩

/-- The right sides of calls. -/
def callShape (r : Rule) : Bool :=
  match r.rhs with
  | [.t _] => true
  | [.n .callElements, .t _] => true
  | _ => false

theorem callRules_shape : ∀ r ∈ callElementsRules, callShape r = true ∧ r.func = .callElements := by decide

theorem works_callElements {r : Rule} (hr : r ∈ callElementsRules) {vs : List Val} (h : FitsL r.rhs vs) : Works r vs := by
  obtain ⟨h1, h2⟩ := callRules_shape r hr
  refine .inl ?_
  rw [h2]
  unfold callShape at h1
  split at h1
  · rename_i e
    rw [e] at h
    obtain ⟨_, _, rfl, ⟨w, rfl, _⟩, rfl⟩ := h
    exact ⟨_, rfl⟩
  · rename_i e
    rw [e] at h
    obtain ⟨_, _, rfl, ⟨cs, rfl⟩, _, _, rfl, ⟨w, rfl, _⟩, rfl⟩ := h
    exact ⟨_, rfl⟩
  · cases h1

theorem works_callElementsExpr {r : Rule} (hr : r ∈ callElementsExprRules) {vs : List Val} (h : FitsL r.rhs vs) : Works r vs := by
  simp only [callElementsExprRules, List.mem_cons, List.not_mem_nil, or_false] at hr
  rcases hr with rfl | rfl
  · obtain ⟨_, _, rfl, ⟨e, rfl⟩, rfl⟩ := h
    by_cases hc : ∃ cs, e = .call cs
    · obtain ⟨cs, rfl⟩ := hc
      exact .inr ⟨rfl, .inr ⟨rfl, rfl, cs, rfl⟩⟩
    · refine .inl ⟨.call (.arg e .nil), ?_⟩
      cases e <;> first | rfl | exact absurd ⟨_, rfl⟩ hc
  · obtain ⟨_, _, rfl, ⟨w, rfl⟩, _, _, rfl, ⟨_, rfl⟩, rfl⟩ := h
    exact .inl ⟨_, rfl⟩

theorem works {r : Rule} (hr : r ∈ rules) {vs : List Val} (h : FitsL r.rhs vs) : Works r vs := by
  unfold rules at hr
  rcases List.mem_append.1 hr with hr | hr
  swap
  · exact works_callElementsExpr hr h
  rcases List.mem_append.1 hr with hr | hr
  swap
  · exact works_callElements hr h
  rcases List.mem_append.1 hr with hr | hr
  swap
  · exact works_termCall hr h
  rcases List.mem_append.1 hr with hr | hr
  swap
  · exact works_strElement hr h
  rcases List.mem_append.1 hr with hr | hr
  swap
  · exact works_range hr h
  rcases List.mem_append.1 hr with hr | hr
  swap
  · exact works_element hr h
  rcases List.mem_append.1 hr with hr | hr
  swap
  · exact works_elements hr h
  rcases List.mem_append.1 hr with hr | hr
  swap
  · exact works_termSeq hr h
  rcases List.mem_append.1 hr with hr | hr
  swap
  · exact works_termName hr h
  rcases List.mem_append.1 hr with hr | hr
  swap
  · exact works_termNumberDecimal hr h
  rcases List.mem_append.1 hr with hr | hr
  swap
  · exact works_termNumber hr h
  rcases List.mem_append.1 hr with hr | hr
  swap
  · exact works_termGrouped hr h
  rcases List.mem_append.1 hr with hr | hr
  swap
  · exact works_termHash hr h
  rcases List.mem_append.1 hr with hr | hr
  swap
  · exact works_termUnary hr h
  rcases List.mem_append.1 hr with hr | hr
  swap
  · exact works_expressionTerm hr h
  rcases List.mem_append.1 hr with hr | hr
  swap
  · exact works_bin (List.mem_append_right _ hr) h
  rcases List.mem_append.1 hr with hr | hr
  swap
  · exact works_dop hr h
  rcases List.mem_append.1 hr with hr | hr
  swap
  · exact works_bin (List.mem_append_left _ hr) h
  rcases List.mem_append.1 hr with hr | hr
  swap
  · exact works_funcnameDefParam hr h
  rcases List.mem_append.1 hr with hr | hr
  swap
  · exact works_funcnameDef (List.mem_append_right _ hr) h
  rcases List.mem_append.1 hr with hr | hr
  swap
  · exact works_funcnameDef (List.mem_append_left _ hr) h
  rcases List.mem_append.1 hr with hr | hr
  swap
  · exact works_strvarInstring hr h
  rcases List.mem_append.1 hr with hr | hr
  swap
  · exact works_stringInstring hr h
  rcases List.mem_append.1 hr with hr | hr
  swap
  · exact works_varName hr h
  rcases List.mem_append.1 hr with hr | hr
  swap
  · exact works_varAssign hr h
  rcases List.mem_append.1 hr with hr | hr
  swap
  · exact works_elif hr h
  rcases List.mem_append.1 hr with hr | hr
  swap
  · exact works_else hr h
  rcases List.mem_append.1 hr with hr | hr
  swap
  · exact works_if hr h
  rcases List.mem_append.1 hr with hr | hr
  swap
  · exact works_cond hr h
  rcases List.mem_append.1 hr with hr | hr
  swap
  · exact works_singleCode hr h
  rcases List.mem_append.1 hr with hr | hr
  swap
  · exact works_empty hr h
  rcases List.mem_append.1 hr with hr | hr
  swap
  · exact works_multilineCodeEmpty hr h
  exact works_multilineCode hr h

/-! ## Weights -/

/-- Weights of the symbols, for which the parser cannot go on without reading. -/
def wt : Sym → ℕ
  | .t _ => 6
  | .n .start => 0
  | .n .multilineCode => 1
  | .n .empty => 2
  | .n .singleCode => 2
  | .n .ifExpr => 3
  | .n .elseExpr => 1
  | .n .elseifExpr => 1
  | .n .varName => 5
  | .n .string => 5
  | .n .funcnameDef => 1
  | .n .expression => 3
  | .n .term => 4
  | .n .elements => 1
  | .n .element => 2
  | .n .range => 3
  | .n .callElements => 1

theorem wt_le (x : Sym) : wt x ≤ 6 := by
  cases x with
  | t k => exact Nat.le_refl _
  | n x => cases x <;> decide

/-- The sum of weights. -/
def wts (xs : List Sym) : ℕ := (xs.map wt).sum

theorem wts_rules : ∀ r ∈ rules, r.rhs = [] ∧ (r.lhs = .funcnameDef ∧ r.func = .funcnameDefImpossibletocall ∨ r.lhs = .empty) ∨ wt (.n r.lhs) < wts r.rhs := by decide

/-- A program can begin in the state. -/
def opens (s : ℕ) : Bool := (gotoOn s (ntCode .multilineCode)).isSome

theorem opens_of_empty : ∀ s < 183, (gotoOn s (ntCode .empty)).isSome = true → opens s = true := by decide +kernel

theorem not_opens_goto' : ∀ s < 183, ∀ e ∈ gotoData.getD s [], opens e.2 = false := by decide +kernel

theorem not_opens_goto {s x j : ℕ} (h : gotoOn s x = some j) : opens j = false :=
  not_opens_goto' s (gotoOn_lt h) (x, j) (by unfold gotoOn at h; exact assoc_mem h)

/-- What a state adds. -/
def bonus (s : ℕ) : ℕ := if opens s then 3 else 0

theorem bonus_le (s : ℕ) : bonus s ≤ 3 := by unfold bonus; split <;> simp

/-- The weight of a stack. -/
inductive Weigh : List (ℕ × Val) → ℕ → Prop
  | nil : Weigh [] 0
  | push {st : List (ℕ × Val)} {n : ℕ} {x : Sym} {j : ℕ} {v : Val} (h : Weigh st n) (hn : nextState (top st) x = some j) :
      Weigh ((j, v) :: st) (n + wt x)

theorem Weigh.pop {lhs : ℕ} (xs : List Sym) : ∀ {st : List (ℕ × Val)} {n : ℕ}, Weigh st n →
    spells lhs (xs.map Sym.code).reverse (top st) = true → ∃ m, Weigh (st.drop xs.length) m ∧ n = m + wts xs := by
  induction xs using List.reverseRecOn with
  | nil => intro st n h _; exact ⟨n, by simpa using h, by simp [wts]⟩
  | append_singleton xs x ih =>
    intro st n h hs
    rw [List.map_append, List.reverse_append] at hs
    simp only [List.map_cons, List.map_nil, List.reverse_cons, List.reverse_nil, List.nil_append, List.singleton_append, spells,
      Bool.and_eq_true, List.all_eq_true, List.mem_filter] at hs
    obtain ⟨h0, hall⟩ := hs
    cases h with
    | nil => simp [top] at h0
    | @push st' n' y j v hst hn =>
      have hm := hall _ ⟨mem_transitions hn, by simp [top]⟩
      have hy : y = x := code_inj (Nat.eq_of_beq_eq_true hm.1)
      subst hy
      obtain ⟨m, hm1, rfl⟩ := ih hst hm.2
      exact ⟨m, by simpa using hm1, by simp [wts]; omega⟩

/-- The weight of a configuration. -/
def weight (n : ℕ) (c : Config) : ℕ := 10 * c.input.length + n + bonus (top c.stack)

/-! ## Two failures -/

/-- The two places in which an action fails. -/
def emptySigOK (s : ℕ) : Bool :=
  (actionData.getD s []).all fun e =>
    match e.2 with
    | .reduce p =>
      match rules[p - 1]? with
      | some r =>
        if r.lhs = .funcnameDef ∧ r.rhs = [] then
          Nat.beq e.1 (2 ^ kindCode .lbrace) && spells (ntCode .singleCode) [kindCode .colon, kindCode .function] s
        else true
      | none => true
    | _ => true

theorem emptySigOK_all : ∀ s < 183, emptySigOK s = true := by decide +kernel

theorem callStates : gotoOn 0 (ntCode .callElements) = none ∧
    ∀ e ∈ transitions, (gotoOn e.2.2 (ntCode .callElements)).isSome = true → e.2.1 = kindCode .lbracket := by decide +kernel

/-- The tokens with which an action fails. -/
def Trap (ts : List Token) : Prop := NamelessFunction ts ∨ CallOfCall ts

theorem Trap.extend {ts : List Token} (h : Trap ts) (a b : List Token) : Trap (a ++ ts ++ b) := by
  rcases h with ⟨a', b', f, c, l, rfl, h⟩ | ⟨a', b', l, m, rfl, h⟩
  · exact .inl ⟨a ++ a', b' ++ b, f, c, l, by simp, h⟩
  · exact .inr ⟨a ++ a', b' ++ b, l, m, by simp, h⟩

/-! ## The turns -/

/-- The end of the input is not shifted. -/
def noShiftEnd (s : ℕ) : Bool :=
  match act s endCode with
  | some (.shift _) => false
  | _ => true

theorem noShiftEnd_all : ∀ s < 183, noShiftEnd s = true := by decide +kernel

theorem no_shift_end (s j : ℕ) : act s endCode ≠ some (.shift j) := by
  intro h
  have := noShiftEnd_all s (act_lt h)
  simp [noShiftEnd, h] at this

/-- A turn of the loop: reading on, the end, a syntax error, or one of the two failures. -/
inductive Turn (T : Tables) (c : Config) (ts : List Token) (n : ℕ) : Prop
  | more (d : Config) (ts' : List Token) (n' : ℕ) (hs : step T c = .more d) (hst : Stack d.stack ts' d.input) (hw : Weigh d.stack n')
      (ht : ts' ++ d.input = ts ++ c.input) (hlt : weight n' d < weight n c)
  | done (v : Val) (hs : step T c = .done v) (hi : c.input = []) (hd : Derives 0 (.n .multilineCode) v ts [])
  | syntaxError (hs : step T c = .fail .syntaxError) (ha : act (top c.stack) (ahead c.input) = none)
  | action (hs : step T c = .fail .indexError) (ht : Trap (ts ++ c.input))

variable {T : Tables} (hT : IsTable T)

include hT in
theorem turn {c : Config} {ts : List Token} {n : ℕ} (hst : Stack c.stack ts c.input) (hw : Weigh c.stack n)
    (hok : ∀ t ∈ ts ++ c.input, TokenOK t) : Turn T c ts n := by
  obtain ⟨st, input⟩ := c
  have ha : action T (top st) (ahead input) = act (top st) (ahead input) := hT.ahead _ _
  cases hact : act (top st) (ahead input) with
  | none => exact .syntaxError (by simp [step, ha, hact]) hact
  | some x =>
    cases x with
    | shift j =>
      cases input with
      | nil => exact absurd hact (no_shift_end _ _)
      | cons t rest =>
        have hn : nextState (top st) (.t t.kind) = some j := by
          have : act (top st) (kindCode t.kind) = some (.shift j) := hact
          simp [nextState, this]
        refine .more ⟨(j, .text t.value) :: st, rest⟩ (ts ++ [t]) (n + 6) (by simp [step, ha, hact])
          (Stack.push (ts' := [t]) (by simpa using hst) (.tok (top st) t rest) hn) (Weigh.push hw hn) (by simp) ?_
        have := bonus_le j
        simp only [weight, List.length_cons, top]
        omega
    | reduce p =>
      obtain ⟨r, hr, hsp⟩ := spells_of_act hact
      obtain ⟨ts0, ts1, vs, rfl, hst0, hl, hvs, hg⟩ := Stack.pop r.rhs hst hsp
      obtain ⟨m, hm, rfl⟩ := Weigh.pop r.rhs hw hsp
      have hgood := hl.good fun t ht => hok t (by simp [ht])
      have hmem : r ∈ rules := List.mem_of_getElem? hr
      obtain ⟨j, hj⟩ := Option.isSome_iff_exists.1 hg
      have hg' : goto T (top (st.drop r.rhs.length)) r.lhs = some j := by rw [hT.goto]; exact hj
      rcases works hmem hgood.fits with ⟨v, hv⟩ | ⟨hv, hbad⟩
      · have hd : Derives (top (st.drop r.rhs.length)) (.n r.lhs) v ts1 input := .node hr hl hact hv
        refine .more ⟨(j, v) :: st.drop r.rhs.length, input⟩ (ts0 ++ ts1) (m + wt (.n r.lhs)) ?_ (Stack.push hst0 hd hj)
          (Weigh.push hm hj) (by simp) ?_
        · simp only [step, ha, hact, hr, Yacc.reduce, hvs, hv, hg']
        · have hb : bonus j = 0 := by simp [bonus, not_opens_goto hj]
          show 10 * input.length + (m + wt (.n r.lhs)) + bonus j < 10 * input.length + (m + wts r.rhs) + bonus (top st)
          rw [hb]
          rcases wts_rules r hmem with ⟨he, hlhs | hlhs⟩ | h
          · exfalso
            rw [he] at hgood
            rw [hgood.1, hlhs.2] at hv
            cases hv
          · have hop : bonus (top st) = 3 := by
              have h1 : gotoOn (top st) (ntCode .empty) = some j := by
                rw [he, hlhs] at hj; exact hj
              simp [bonus, opens_of_empty _ (gotoOn_lt h1) (by simp [h1])]
            rw [hlhs, he, hop]
            simp only [wts, wt, List.map_nil, List.sum_nil]
            omega
          · omega
      · refine .action (by simp only [step, ha, hact, hr, Yacc.reduce, hvs, hv]) ?_
        rcases hbad with ⟨he, hlhs⟩ | ⟨hlhs, hrhs, cs, hcs⟩
        · refine .inl ?_
          have hok' := emptySigOK_all _ (act_lt hact)
          have hact' := hact
          unfold act at hact'
          obtain ⟨mask, hmask, hb⟩ := rowAction_mem' hact'
          have h1 := List.all_eq_true.1 hok' _ hmask
          simp only [hr, hlhs, he, and_self, if_true, Bool.and_eq_true] at h1
          obtain ⟨hm1, hm2⟩ := h1
          rw [Nat.eq_of_beq_eq_true hm1] at hb
          obtain ⟨t0, t1, vs', heq, _, hl', _, _⟩ := Stack.pop [.t .function, .t .colon] hst (by simpa [Sym.code] using hm2)
          obtain ⟨l, rest, rfl, hlk⟩ : ∃ l rest, input = l :: rest ∧ l.kind = .lbrace := by
            cases input with
            | nil => exact absurd hb (by decide)
            | cons l rest =>
              refine ⟨l, rest, rfl, ?_⟩
              have hk : ∀ k : Kind, (2 ^ kindCode .lbrace).testBit (kindCode k) = true → k = .lbrace := by intro k; cases k <;> decide
              exact hk _ hb
          have hgl := hl'.good fun t ht => hok t (List.mem_append_left _ (by rw [heq]; exact List.mem_append_right _ ht))
          obtain ⟨_, _, _, _, _, _, e1, ⟨w1, _, rfl, _⟩, _, _, _, _, _, _, _, e2, ⟨w2, _, rfl, _⟩, _, _, e3, _⟩ := hgl
          subst e3
          subst e2
          subst e1
          refine ⟨t0, rest, ⟨.function, w1⟩, ⟨.colon, w2⟩, l, ?_, rfl, rfl, hlk⟩
          rw [heq]
          simp
        · refine .inr ?_
          rw [hrhs] at hgood hst0 hj
          rw [hlhs] at hj
          rw [hcs] at hgood
          obtain ⟨_, _, t1, t2, _, e0, e1, ⟨e, he, ht1, _⟩, _, _, e3, _⟩ := hgood
          cases e0
          cases he
          subst e3
          rw [ht1, List.append_nil] at e1
          rw [e1] at hst0 ⊢
          generalize hst' : List.drop 1 st = st' at *
          cases hst0 with
          | nil =>
            rw [show top [] = 0 from rfl, callStates.1] at hj
            cases hj
          | @push st2 x v k tsa tsb _ hs hd hn =>
            have hx : x = .t .lbracket := code_inj (callStates.2 _ (mem_transitions hn) (by
              rw [show top ((k, v) :: st2) = k from rfl] at hj; simp [hj]))
            subst hx
            obtain ⟨w, _, ht, _⟩ := hd.good fun t ht => hok t (by simp [ht])
            refine ⟨tsa, callToks cs ++ [tok .rbracket "]"] ++ input, ⟨.lbracket, w⟩, tok .lbracket "[", ?_, rfl, rfl⟩
            rw [ht]
            simp [exprToks]
    | accept =>
      have hs := act_lt hact
      have hok := acceptOK_all _ hs
      have hact' := hact
      unfold act at hact'
      obtain ⟨m, hm, hb⟩ := rowAction_mem' hact'
      have h1 := List.all_eq_true.1 hok _ hm
      simp only [Bool.and_eq_true, List.all_eq_true, List.mem_filter] at h1
      obtain ⟨⟨h0, hmask⟩, hall⟩ := h1
      have hend : input = [] := by
        cases input with
        | nil => rfl
        | cons t rest =>
          exfalso
          rw [Nat.eq_of_beq_eq_true hmask] at hb
          have : ∀ k : Kind, (2 ^ endCode).testBit (kindCode k) = false := by intro k; cases k <;> decide
          have hk := this t.kind
          rw [show ahead (t :: rest) = kindCode t.kind from rfl, hk] at hb
          cases hb
      subst hend
      obtain ⟨v, hv⟩ : ∃ v, step T ⟨st, []⟩ = .done v := by
        cases st with
        | nil => simp [top] at h0
        | cons e st => exact ⟨e.2, by simp [step, ha, hact]⟩
      refine .done v hv rfl ?_
      have := derives_of_run hT 1 ⟨st, []⟩ ts v hst (by simp [Yacc.run, hv])
      simpa using this

/-! ## The loop -/

theorem loop_bad {T : Tables} (n : ℕ) : ∀ {c : Config} {k : ℕ} {bad : List (List Token)} {p : Parsed}, loop T n c k bad = some p → bad <+: p.illegal := by
  induction n with
  | zero => intro c k bad p h; cases h
  | succ n ih =>
    intro c k bad p h
    simp only [loop] at h
    split at h
    · cases h; exact List.prefix_rfl
    · exact ih h
    · split at h
      · cases h; exact List.prefix_rfl
      · refine List.IsPrefix.trans ?_ (ih h)
        split
        · exact List.prefix_append _ _
        · exact List.prefix_rfl
    · cases h; exact List.prefix_rfl

/-- Without a syntax error the loop does what `run` does. -/
theorem loop_ok {T : Tables} (n : ℕ) : ∀ (c : Config) (v : Val), loop T n c 0 [] = some ⟨.ok (some v), []⟩ ↔ run T n c = some (.ok v) := by
  induction n with
  | zero => intro c v; simp [loop, run]
  | succ n ih =>
    intro c v
    simp only [loop, run]
    cases hs : step T c with
    | done w => simp
    | more d =>
      simp only [Nat.zero_sub, ite_self]
      exact ih d v
    | fail e =>
      cases e with
      | syntaxError =>
        cases hc : c.input with
        | nil => simp
        | cons t ts =>
          simp only [if_true, List.nil_append]
          constructor
          · intro h
            have := loop_bad n h
            simp at this
          · intro h; cases h
      | indexError => simp
      | internal => simp

/-- What the loop ends with. -/
def Ends (all : List Token) (p : Parsed) : Prop :=
  (∀ e, p.result = .error e → e = .indexError ∧ Trap all) ∧ ∀ v, p.result = .ok (some v) → ∃ b, v = .block b

include hT in
theorem loop_ends (all : List Token) (hok : ∀ t ∈ all, TokenOK t) (f : ℕ) : ∀ (c : Config) (k : ℕ) (bad : List (List Token)) (pre ts : List Token) (n : ℕ),
    all = pre ++ (ts ++ c.input) → Stack c.stack ts c.input → Weigh c.stack n → weight n c < f →
    ∃ p, loop T f c k bad = some p ∧ Ends all p := by
  induction f with
  | zero => intro c k bad pre ts n _ _ _ h; omega
  | succ f ih =>
    intro c k bad pre ts n hall hst hw hlt
    have hok' : ∀ t ∈ ts ++ c.input, TokenOK t := fun t ht => hok t (by rw [hall]; exact List.mem_append_right _ ht)
    cases turn hT hst hw hok' with
    | more d ts' n' hs hst' hw' ht hlt' =>
      simp only [loop, hs]
      exact ih d _ _ pre ts' n' (by rw [ht]; exact hall) hst' hw' (by omega)
    | done v hs hi hd =>
      refine ⟨⟨.ok (some v), bad⟩, by simp only [loop, hs], ?_, ?_⟩
      · intro e h; cases h
      · intro w h
        cases h
        obtain ⟨b, hb, _⟩ := written_of_derives hd fun t ht => hok' t (by simp [ht])
        exact ⟨b, hb⟩
    | syntaxError hs ha =>
      simp only [loop, hs]
      cases hc : c.input with
      | nil => refine ⟨_, rfl, ?_, ?_⟩ <;> intro _ h <;> cases h
      | cons t rest =>
        refine ih ⟨[], rest⟩ 3 _ (pre ++ (ts ++ [t])) [] 0 (by rw [hall, hc]; simp) (.nil _) .nil ?_
        have hb : bonus 0 ≤ 3 := bonus_le 0
        simp only [weight, hc, List.length_cons, top] at hlt ⊢
        omega
    | action hs ht =>
      refine ⟨⟨.error .indexError, bad⟩, by simp only [loop, hs], ?_, ?_⟩
      · intro e h
        cases h
        refine ⟨rfl, ?_⟩
        have := ht.extend pre []
        rw [hall]
        simpa using this
      · intro v h; cases h

include hT in
/-- The parser ends on every list of tokens, within the number of turns given to it. -/
theorem parse_ends {ts : List Token} (hok : ∀ t ∈ ts, TokenOK t) : ∃ p, parse T ts = some p ∧ Ends ts p := by
  refine loop_ends hT ts hok _ (start ts) 0 [] [] [] 0 (by simp [start]) (.nil _) .nil ?_
  have hb : bonus 0 ≤ 3 := bonus_le 0
  simp only [weight, start, top]
  omega

/-! ## The first syntax error -/

/-- A turn looks at one token. -/
theorem step_more {st : List (ℕ × Val)} {i : List Token} {d : Config} (h : step T ⟨st, i⟩ = .more d) :
    (∃ t, i = t :: d.input ∧ ∀ r, step T ⟨st, t :: r⟩ = .more ⟨d.stack, r⟩) ∨
      d.input = i ∧ ∀ i', ahead i' = ahead i → step T ⟨st, i'⟩ = .more ⟨d.stack, i'⟩ := by
  unfold step at h
  simp only at h
  cases hact : action T (top st) (ahead i) with
  | none => simp [hact] at h
  | some x =>
    cases x with
    | shift j =>
      cases i with
      | nil => simp [hact] at h
      | cons t rest =>
        simp only [hact] at h
        cases h
        refine .inl ⟨t, rfl, fun r => ?_⟩
        have : action T (top st) (ahead (t :: r)) = some (.shift j) := hact
        simp [step, this]
    | reduce p =>
      simp only [hact] at h
      cases hr : rules[p - 1]? with
      | none => simp [hr] at h
      | some r =>
        simp only [hr, Yacc.reduce] at h
        cases hv : r.func.run ((st.take r.rhs.length).reverse.map Prod.snd) with
        | error e => simp only [hv, reduceCtorEq] at h
        | ok v =>
          simp only [hv] at h
          cases hg : goto T (top (st.drop r.rhs.length)) r.lhs with
          | none => simp [hg] at h
          | some j =>
            simp only [hg] at h
            cases h
            refine .inr ⟨rfl, fun i' hi => ?_⟩
            simp only [step, hi, hact, hr, Yacc.reduce, hv, hg]
    | accept =>
      cases st with
      | nil => simp [hact] at h
      | cons e st => simp [hact] at h

include hT in
theorem first_error (f : ℕ) : ∀ (c : Config) (ts : List Token) (n : ℕ) (p : Parsed) (t : Token) (rest : List Token) (l : List (List Token)),
    Stack c.stack ts c.input → Weigh c.stack n → (∀ t ∈ ts ++ c.input, TokenOK t) → loop T f c 0 [] = some p → p.illegal = (t :: rest) :: l →
    ∃ xs, c.input = xs ++ t :: rest ∧ ∀ zs m v, run T m ⟨c.stack, xs ++ t :: zs⟩ ≠ some (.ok v) := by
  induction f with
  | zero => intro c ts n p t rest l _ _ _ h; cases h
  | succ f ih =>
    intro c ts n p t rest l hst hw hok h hp
    cases turn hT hst hw hok with
    | more d ts' n' hs hst' hw' ht hlt' =>
      simp only [loop, hs, Nat.zero_sub, ite_self] at h
      obtain ⟨xs, hxs, hno⟩ := ih d ts' n' p t rest l hst' hw' (by rw [ht]; exact hok) h hp
      rcases step_more hs with ⟨u, hu, hall⟩ | ⟨hi, hall⟩
      · refine ⟨u :: xs, by rw [hu, hxs]; rfl, fun zs m v => ?_⟩
        cases m with
        | zero => simp [run]
        | succ m =>
          simp only [run, List.cons_append, hall]
          exact hno zs m v
      · refine ⟨xs, by rw [← hi, hxs], fun zs m v => ?_⟩
        cases m with
        | zero => simp [run]
        | succ m =>
          have : ahead (xs ++ t :: zs) = ahead c.input := by
            rw [← hi, hxs]
            cases xs <;> rfl
          simp only [run, hall _ this]
          exact hno zs m v
    | done v hs hi hd =>
      simp only [loop, hs, Option.some.injEq] at h
      subst h
      cases hp
    | syntaxError hs ha =>
      cases hc : c.input with
      | nil =>
        simp only [loop, hs, hc, Option.some.injEq] at h
        subst h
        cases hp
      | cons u us =>
        simp only [loop, hs, hc, if_true, List.nil_append] at h
        have hb := loop_bad f h
        rw [hp] at hb
        have : u :: us = t :: rest := by
          obtain ⟨l', hl'⟩ := hb
          simpa using (List.cons.inj hl').1
        cases this
        refine ⟨[], rfl, fun zs m v => ?_⟩
        cases m with
        | zero => simp [run]
        | succ m =>
          have ha' : action T (top c.stack) (ahead (t :: zs)) = none := by
            rw [hT.ahead]
            rw [hc] at ha
            exact ha
          simp [run, step, ha']
    | action hs ht =>
      simp only [loop, hs, Option.some.injEq] at h
      subst h
      cases hp

/-- The tokens recorded are those from a token of the input on, one after the other. -/
theorem loop_suffix (f : ℕ) : ∀ (c : Config) (k : ℕ) (bad : List (List Token)) (p : Parsed), loop T f c k bad = some p →
    ∃ l, p.illegal = bad ++ l ∧ ∀ x ∈ l, x ≠ [] ∧ x <:+ c.input := by
  induction f with
  | zero => intro c k bad p h; cases h
  | succ f ih =>
    intro c k bad p h
    simp only [loop] at h
    split at h
    · cases h; exact ⟨[], by simp, by simp⟩
    · rename_i d hs
      obtain ⟨l, hl, hx⟩ := ih _ _ _ _ h
      refine ⟨l, hl, fun x hm => ⟨(hx x hm).1, (hx x hm).2.trans ?_⟩⟩
      obtain ⟨st, i⟩ := c
      rcases step_more hs with ⟨t, ht, _⟩ | ⟨hi, _⟩
      · show d.input <:+ i
        rw [ht]
        exact List.suffix_cons _ _
      · show d.input <:+ i
        rw [hi]
        exact List.suffix_rfl
    · split at h
      · cases h; exact ⟨[], by simp, by simp⟩
      · rename_i t rest hc
        obtain ⟨l, hl, hx⟩ := ih _ _ _ _ h
        split at hl
        · refine ⟨(t :: rest) :: l, by simpa using hl, fun x hm => ?_⟩
          rcases List.mem_cons.1 hm with rfl | hm
          · exact ⟨by simp, by rw [hc]; exact List.suffix_rfl⟩
          · exact ⟨(hx x hm).1, (hx x hm).2.trans (by rw [hc]; exact List.suffix_cons _ _)⟩
        · exact ⟨l, hl, fun x hm => ⟨(hx x hm).1, (hx x hm).2.trans (by rw [hc]; exact List.suffix_cons _ _)⟩⟩
    · cases h; exact ⟨[], by simp, by simp⟩

end PythonDice.Yacc
