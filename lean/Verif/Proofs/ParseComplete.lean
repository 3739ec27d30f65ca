import Verif.Proofs.ParseSoundS

/-!
# From trees as they are written to derivations
-/

namespace PythonDice.Yacc

open Lexer (Kind Token)
open Compiler Spec

/-! ## What the tables provide -/

/-- The tokens a state is prepared for. -/
def follow (j : ℕ) : List ℕ := (List.range 43).filter fun a => (act j a).isSome

theorem mem_follow {j : ℕ} {rest : List Token} (h : (act j (ahead rest)).isSome = true) : ahead rest ∈ follow j :=
  List.mem_filter.2 ⟨List.mem_range.2 (by have := (ahead_bounds rest).2; omega), h⟩

/-- The rules without conflicts. -/
def plainRule (r : Rule) : Bool :=
  match r.func with
  | .expressionBinop => false
  | .expressionComparison => false
  | .expressionTerm => false
  | .strElement => false
  | .callElementsExpr => false
  | _ => !r.rhs.isEmpty

/-- From a state the right side of a rule leads to its reduction, before the given tokens. -/
def leads (s : ℕ) (r : Rule) (as : List ℕ) : Bool :=
  match walkTo s r.rhs with
  | some j => as.all fun a => reduceRule j a == some r
  | none => false

/-- All rules without conflicts can be used where their left sides can be. -/
def plainOK (s : ℕ) : Bool :=
  rules.all fun r => !plainRule r ||
    match gotoOn s (ntCode r.lhs) with
    | some j => leads s r (follow j)
    | none => true

theorem plainOK_all : ∀ s < 183, plainOK s = true := by decide +kernel

/-- The lookaheads for the other rules. -/
def specialOK (s : ℕ) : Bool :=
  rules.all fun r => plainRule r ||
    match gotoOn s (ntCode r.lhs) with
    | some j =>
      match r.func with
      | .expressionTerm => leads s r ((follow j).filter fun a => a != kindCode .dOp)
      | .callElementsExpr => leads s r ((follow j).filter fun a => a != kindCode .plus && a != kindCode .minus)
      | _ => true
    | none => true

theorem specialOK_all : ∀ s < 183, specialOK s = true := by decide +kernel

/-- The rules for operators. -/
def binOK (s : ℕ) : Bool :=
  match gotoOn s (ntCode .expression) with
  | some j => rules.all fun r =>
      match binOps.find? fun op => r.rhs == opRhs op with
      | some op => !shifts j (kindCode (opFirst op)) ||
          leads s r ((follow j).filter fun a => binOps.all fun op2 => a != kindCode (opFirst op2) || Nat.ble (opLevel op2) (opLevel op))
      | none => true
  | none => true

theorem binOK_all : ∀ s < 183, binOK s = true := by decide +kernel

/-- The rule for literals. -/
def strRule : Option Rule := rules.find? fun r => r.func == .strElement

/-- A literal is taken for a term. -/
def strFine (s a : ℕ) : Bool :=
  match gotoOn s (ntCode .string) with
  | some j => reduceRule j a == strRule
  | none => false

/-- Literals are taken for terms before all tokens. -/
def fine (s : ℕ) : Bool :=
  match gotoOn s (ntCode .term) with
  | some j => (follow j).all fun a => literalKinds.any (fun q => a == kindCode q) || strFine s a
  | none => true

/-- All operators are shifted after an expression. -/
def opensExpr (s : ℕ) : Bool :=
  match gotoOn s (ntCode .expression) with
  | some j => binOps.all fun op => shifts j (kindCode (opFirst op))
  | none => true

/-- The tokens before expressions, operators apart. -/
def openers : List Kind := [.output, .colon, .over, .if_, .to, .lparen, .lbrace, .lbracket, .comma, .doubleDot]

/-- Where expressions and terms start. -/
def contextsOK (s : ℕ) : Bool :=
  (kinds.all fun k =>
    match nextState s (.t k) with
    | some j => (k == .to || fine j) && (!openers.contains k || opensExpr j)
    | none => true) &&
  (match gotoOn s (ntCode .callElements) with
    | some j => fine j && opensExpr j && (gotoOn j (ntCode .expression)).isSome
    | none => true)

theorem contextsOK_all : ∀ s < 183, contextsOK s = true := by decide +kernel

/-- The tokens expressions start with. -/
def exprFirst : List Kind :=
  [.plus, .minus, .exclamation, .hash, .lparen, .lbrace, .lbracket, .number, .uppername, .dOp, .instringAny, .instringVar, .instringNonvar]

/-- The tokens statements start with. -/
def stmtFirst : List Kind := [.output, .function, .loop, .result, .set, .if_, .uppername]

/-- Where expressions and statements can start, their first tokens are expected. -/
def firstsOK (s : ℕ) : Bool :=
  ((gotoOn s (ntCode .expression)).isNone || exprFirst.all fun k => (act s (kindCode k)).isSome) &&
  ((gotoOn s (ntCode .singleCode)).isNone || stmtFirst.all fun k => (act s (kindCode k)).isSome) &&
  ((gotoOn s (ntCode .term)).isNone ||
    (strFine s (kindCode .dOp) && binOps.all fun op => strFine s (kindCode (opFirst op)))) &&
  ((gotoOn s (ntCode .expression)).isNone || ((gotoOn s (ntCode .term)).isSome && (gotoOn s (ntCode .string)).isSome)) &&
  ((gotoOn s (ntCode .term)).isNone || (gotoOn s (ntCode .string)).isSome)

theorem firstsOK_all : ∀ s < 183, firstsOK s = true := by decide +kernel

/-! ## Rules -/

theorem walkTo_cons {s j : ℕ} {x : Sym} {xs : List Sym} : walkTo s (x :: xs) = some j ↔ ∃ t, nextState s x = some t ∧ walkTo t xs = some j := by
  simp only [walkTo]
  cases nextState s x <;> simp

theorem walkTo_nil {s j : ℕ} : walkTo s [] = some j ↔ s = j := by simp [walkTo]

theorem derives_mk {s j : ℕ} {r : Rule} {vs : List Val} {v : Val} {ts rest : List Token} (hr : reduceRule j (ahead rest) = some r)
    (hl : DerivesL s r.rhs vs ts rest j) (hv : r.func.run vs = .ok v) : Derives s (.n r.lhs) v ts rest := by
  unfold reduceRule at hr
  split at hr
  · rename_i p hp
    exact .node hr hl hp hv
  · cases hr

theorem isSome_of_next {s j : ℕ} {k : Kind} (h : nextState s (.t k) = some j) : (act s (kindCode k)).isSome = true := by
  simp only [nextState] at h
  split at h
  · rename_i i hk; rw [hk]; rfl
  · cases h

theorem isSome_of_reduce {s a : ℕ} {r : Rule} (h : reduceRule s a = some r) : (act s a).isSome = true := by
  unfold reduceRule at h
  split at h
  · rename_i p hp; rw [hp]; rfl
  · cases h

/-- There is a rule. -/
def hasRule (x : NT) (xs : List Sym) (f : Func) (q : Rule → Bool) : Bool :=
  rules.any fun r => r.lhs == x && r.rhs == xs && r.func == f && q r

/-- A rule leads to its reduction. -/
structure Uses (s j : ℕ) (x : NT) (xs : List Sym) (f : Func) (P : ℕ → Prop) : Prop where
  walk : walkTo s xs = some j
  some : ∀ rest, P (ahead rest) → (act j (ahead rest)).isSome = true
  make : ∀ {rest vs v ts}, P (ahead rest) → DerivesL s xs vs ts rest j → f.run vs = .ok v → Derives s (.n x) v ts rest

theorem uses_of_leads {s : ℕ} {x : NT} {xs : List Sym} {f : Func} {q : Rule → Bool} (hr : hasRule x xs f q = true) {as : List ℕ}
    (h : ∀ r ∈ rules, r.lhs = x → r.rhs = xs → r.func = f → q r = true → leads s r as = true) :
    ∃ j, Uses s j x xs f (· ∈ as) := by
  simp only [hasRule, List.any_eq_true, Bool.and_eq_true, beq_iff_eq] at hr
  obtain ⟨r, hm, ⟨⟨h1, h2⟩, h3⟩, h4⟩ := hr
  have := h r hm h1 h2 h3 h4
  unfold leads at this
  split at this
  · rename_i j hj
    simp only [List.all_eq_true, beq_iff_eq] at this
    refine ⟨j, h2 ▸ hj, fun rest ha => isSome_of_reduce (this _ ha), fun {rest vs v ts} ha hl hv => ?_⟩
    rw [← h1]
    exact derives_mk (this _ ha) (by rw [h2]; exact hl) (by rw [h3]; exact hv)
  · cases this

/-- A rule without conflicts. -/
theorem uses_plain {x : NT} {xs : List Sym} {f : Func} (hr : hasRule x xs f plainRule = true) {s i : ℕ}
    (hg : gotoOn s (ntCode x) = some i) : ∃ j, Uses s j x xs f fun a => a ∈ follow i := by
  refine uses_of_leads hr fun r hm h1 h2 h3 h4 => ?_
  have h := plainOK_all s (gotoOn_lt hg)
  simp only [plainOK, List.all_eq_true] at h
  have h' := h r hm
  rw [h4, h1, hg] at h'
  simpa using h'

theorem uses_term {s i : ℕ} (hg : gotoOn s (ntCode .expression) = some i) :
    ∃ j, Uses s j .expression [.n .term] .expressionTerm fun a => a ∈ (follow i).filter fun a => a != kindCode .dOp := by
  refine uses_of_leads (q := fun r => !plainRule r) (by decide +kernel) fun r hm h1 h2 h3 h4 => ?_
  have h := specialOK_all s (gotoOn_lt hg)
  simp only [specialOK, List.all_eq_true] at h
  have h' := h r hm
  rw [h1, hg, h3, show plainRule r = false by simpa using h4] at h'
  simpa using h'

theorem uses_arg {xs : List Sym} (hr : hasRule .callElements xs .callElementsExpr (fun r => !plainRule r) = true) {s i : ℕ}
    (hg : gotoOn s (ntCode .callElements) = some i) :
    ∃ j, Uses s j .callElements xs .callElementsExpr
      fun a => a ∈ (follow i).filter fun a => a != kindCode .plus && a != kindCode .minus := by
  refine uses_of_leads hr fun r hm h1 h2 h3 h4 => ?_
  have h := specialOK_all s (gotoOn_lt hg)
  simp only [specialOK, List.all_eq_true] at h
  have h' := h r hm
  rw [h1, hg, h3, show plainRule r = false by simpa using h4] at h'
  simpa using h'

theorem find_opRhs (op : BinOp) : (binOps.find? fun op' => opRhs op == opRhs op') = some op := by cases op <;> decide +kernel

/-- The function of an operator. -/
def opFunc (op : BinOp) : Func :=
  match op with
  | .lt | .gt | .eq | .ne | .le | .ge => .expressionComparison
  | _ => .expressionBinop

theorem uses_bin (op : BinOp) {s i : ℕ} (hg : gotoOn s (ntCode .expression) = some i) (hs : shifts i (kindCode (opFirst op)) = true) :
    ∃ j, Uses s j .expression (opRhs op) (opFunc op)
      fun a => a ∈ (follow i).filter fun a => binOps.all fun op2 => a != kindCode (opFirst op2) || Nat.ble (opLevel op2) (opLevel op) := by
  refine uses_of_leads (q := fun _ => true) (by cases op <;> decide +kernel) fun r hm h1 h2 h3 h4 => ?_
  have h := binOK_all s (gotoOn_lt hg)
  unfold binOK at h
  rw [hg] at h
  simp only [List.all_eq_true] at h
  have h' := h r hm
  rw [h2, find_opRhs op] at h'
  simpa [hs] using h'

/-! ## Contexts -/

theorem fine_after {s j : ℕ} {k : Kind} (h : nextState s (.t k) = some j) (hk : k ≠ .to) : fine j = true := by
  have hc := contextsOK_all s (nextState_lt h)
  simp only [contextsOK, Bool.and_eq_true, List.all_eq_true] at hc
  have := hc.1 k (by cases k <;> decide)
  rw [h] at this
  simp only [Bool.and_eq_true, Bool.or_eq_true, beq_iff_eq] at this
  exact this.1.resolve_left hk

theorem opens_after {s j : ℕ} {k : Kind} (h : nextState s (.t k) = some j) (hk : k ∈ openers) : opensExpr j = true := by
  have hc := contextsOK_all s (nextState_lt h)
  simp only [contextsOK, Bool.and_eq_true, List.all_eq_true] at hc
  have := hc.1 k (by cases k <;> decide)
  rw [h] at this
  simp only [Bool.and_eq_true, Bool.or_eq_true, Bool.not_eq_true', List.contains_eq_mem, decide_eq_false_iff_not] at this
  exact this.2.resolve_left (fun h => h hk)

theorem call_context {s j : ℕ} (h : gotoOn s (ntCode .callElements) = some j) :
    fine j = true ∧ opensExpr j = true ∧ ∃ i, gotoOn j (ntCode .expression) = some i := by
  have hc := contextsOK_all s (gotoOn_lt h)
  simp only [contextsOK, Bool.and_eq_true] at hc
  have := hc.2
  rw [h] at this
  simp only [Bool.and_eq_true] at this
  exact ⟨this.1.1, this.1.2, Option.isSome_iff_exists.1 this.2⟩

theorem goto_term {s i : ℕ} (h : gotoOn s (ntCode .expression) = some i) : ∃ j, gotoOn s (ntCode .term) = some j := by
  have hc := firstsOK_all s (gotoOn_lt h)
  simp only [firstsOK, Bool.and_eq_true, h] at hc
  have := hc.1.2
  simp only [Option.isNone_some, Bool.false_or, Bool.and_eq_true] at this
  exact Option.isSome_iff_exists.1 this.1

theorem goto_string {s i : ℕ} (h : gotoOn s (ntCode .term) = some i) : ∃ j, gotoOn s (ntCode .string) = some j := by
  have hc := firstsOK_all s (gotoOn_lt h)
  simp only [firstsOK, Bool.and_eq_true, h] at hc
  have := hc.2
  simp only [Option.isNone_some, Bool.false_or] at this
  exact Option.isSome_iff_exists.1 this

theorem first_expr {s i : ℕ} (h : gotoOn s (ntCode .expression) = some i) {k : Kind} (hk : k ∈ exprFirst) :
    (act s (kindCode k)).isSome = true := by
  have hc := firstsOK_all s (gotoOn_lt h)
  simp only [firstsOK, Bool.and_eq_true, h] at hc
  have := hc.1.1.1.1
  simp only [Option.isNone_some, Bool.false_or, List.all_eq_true] at this
  exact this k hk

theorem first_stmt {s i : ℕ} (h : gotoOn s (ntCode .singleCode) = some i) {k : Kind} (hk : k ∈ stmtFirst) :
    (act s (kindCode k)).isSome = true := by
  have hc := firstsOK_all s (gotoOn_lt h)
  simp only [firstsOK, Bool.and_eq_true, h] at hc
  have := hc.1.1.1.2
  simp only [Option.isNone_some, Bool.false_or, List.all_eq_true] at this
  exact this k hk

theorem strFine_op {s i : ℕ} (h : gotoOn s (ntCode .term) = some i) (op : BinOp) : strFine s (kindCode (opFirst op)) = true := by
  have hc := firstsOK_all s (gotoOn_lt h)
  simp only [firstsOK, Bool.and_eq_true, h] at hc
  have := hc.1.1.2
  simp only [Option.isNone_some, Bool.false_or, Bool.and_eq_true, List.all_eq_true] at this
  exact this.2 op (mem_binOps op)

theorem strFine_d {s i : ℕ} (h : gotoOn s (ntCode .term) = some i) : strFine s (kindCode .dOp) = true := by
  have hc := firstsOK_all s (gotoOn_lt h)
  simp only [firstsOK, Bool.and_eq_true, h] at hc
  have := hc.1.1.2
  simp only [Option.isNone_some, Bool.false_or, Bool.and_eq_true] at this
  exact this.1

theorem strFine_of_fine {s i : ℕ} (hf : fine s = true) (h : gotoOn s (ntCode .term) = some i) {rest : List Token}
    (ha : (act i (ahead rest)).isSome = true) (hl : ∀ q ∈ literalKinds, ahead rest ≠ kindCode q) : strFine s (ahead rest) = true := by
  unfold fine at hf
  rw [h] at hf
  simp only [List.all_eq_true, Bool.or_eq_true, List.any_eq_true, beq_iff_eq] at hf
  rcases hf _ (mem_follow ha) with ⟨q, hq, e⟩ | h
  · exact absurd e (hl q hq)
  · exact h

theorem shifts_of_opens {s i : ℕ} (ho : opensExpr s = true) (h : gotoOn s (ntCode .expression) = some i) (op : BinOp) :
    shifts i (kindCode (opFirst op)) = true := by
  unfold opensExpr at ho
  rw [h] at ho
  exact List.all_eq_true.1 ho op (mem_binOps op)

end PythonDice.Yacc
