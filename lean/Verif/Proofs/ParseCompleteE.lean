import Verif.Proofs.ParseComplete

/-!
# From trees as they are written to derivations: expressions
-/

namespace PythonDice.Yacc

open Lexer (Kind Token)
open Compiler Spec

/-! ## Pieces -/

theorem derives_tok (s : ℕ) (k : Kind) (w : List Char) (rest : List Token) : Derives s (.t k) (.text w) [⟨k, w⟩] rest := .tok s ⟨k, w⟩ rest

/-- A list of one symbol. -/
theorem derivesL_one {s j : ℕ} {x : Sym} {v : Val} {ts rest : List Token} (h : Derives s x v ts rest) (hn : nextState s x = some j) :
    DerivesL s [x] [v] ts rest j := by
  have := DerivesL.cons (ts' := []) (rest := rest) (by simpa using h) hn (.nil j rest)
  simpa using this

/-- A list that starts with a token. -/
theorem derivesL_tok {s t j : ℕ} {k : Kind} {w : List Char} {xs : List Sym} {vs : List Val} {ts rest : List Token}
    (hn : nextState s (.t k) = some t) (hl : DerivesL t xs vs ts rest j) :
    DerivesL s (.t k :: xs) (.text w :: vs) (⟨k, w⟩ :: ts) rest j :=
  DerivesL.cons (ts := [⟨k, w⟩]) (derives_tok s k w _) hn hl

/-- A list that ends with a token. -/
theorem derivesL_last {s j : ℕ} {k : Kind} {w : List Char} {rest : List Token} (hn : nextState s (.t k) = some j) :
    DerivesL s [.t k] [.text w] [⟨k, w⟩] rest j := derivesL_one (derives_tok s k w rest) hn

/-! ## Names and literals -/

theorem derives_varName {s i : ℕ} (hg : gotoOn s (ntCode .varName) = some i) (x : List Char) {rest : List Token}
    (ha : (act i (ahead rest)).isSome = true) : Derives s (.n .varName) (.text x) [varTok x] rest := by
  obtain ⟨j, hu⟩ := uses_plain (xs := [.t .uppername]) (f := .varName) (by decide +kernel) hg
  have hw := hu.walk
  simp only [walkTo_cons, walkTo_nil] at hw
  obtain ⟨_, h1, rfl⟩ := hw
  exact hu.make (mem_follow ha) (derivesL_last h1) rfl

/-- The type of a part of a literal. -/
def partKind (p : StrPart) : Kind := (strTok p).kind

theorem partKind_mem (p : StrPart) : partKind p ∈ literalKinds := by
  cases p with
  | text s => simp only [partKind, strTok]; split <;> simp [literalKinds]
  | var x => simp [partKind, strTok, literalKinds]

/-- The function for a part of a literal. -/
def partFunc (p : StrPart) : Func :=
  match p with
  | .text _ => .stringInstring
  | .var _ => .strvarInstring

theorem uses_part {xs : List Sym} (p : StrPart) (hxs : xs = [.t (partKind p)] ∨ xs = [.n .string, .t (partKind p)]) {s i : ℕ}
    (hg : gotoOn s (ntCode .string) = some i) : ∃ j, Uses s j .string xs (partFunc p) fun a => a ∈ follow i := by
  have h : partKind p = .instringVar ∧ partFunc p = .strvarInstring ∨
      (partKind p = .instringAny ∨ partKind p = .instringNonvar) ∧ partFunc p = .stringInstring := by
    cases p with
    | text s => simp only [partKind, strTok, partFunc]; split <;> simp
    | var x => simp [partKind, strTok, partFunc]
  rcases h with ⟨h1, h2⟩ | ⟨h1 | h1, h2⟩ <;> rw [h1] at hxs <;> rw [h2] <;> rcases hxs with rfl | rfl <;>
    exact uses_plain (by decide +kernel) hg

theorem partFunc_one (p : StrPart) : (partFunc p).run [.text (strTok p).value] = .ok (.str [p]) := by
  cases p with
  | text s => simp only [strTok]; split <;> rfl
  | var x => simp [strTok, partFunc, Func.run, pStrvarInstring]

theorem partFunc_two (p : StrPart) (ps : List StrPart) : (partFunc p).run [.str ps, .text (strTok p).value] = .ok (.str (ps ++ [p])) := by
  cases p with
  | text s => simp only [strTok]; split <;> rfl
  | var x => simp [strTok, partFunc, Func.run, pStrvarInstring]

theorem derives_string_more {s i : ℕ} (hg : gotoOn s (ntCode .string) = some i) {rest : List Token}
    (ha : (act i (ahead rest)).isSome = true) (qs : List StrPart) : ∀ (ps : List StrPart) (ts : List Token),
    Derives s (.n .string) (.str ps) ts (strToks qs ++ rest) → Derives s (.n .string) (.str (ps ++ qs)) (ts ++ strToks qs) rest := by
  have hlit : ∀ (q : StrPart) ts, (act i (ahead (strTok q :: ts))).isSome = true := by
    intro q ts
    obtain ⟨j, hu⟩ := uses_part q (.inr rfl) hg
    have hw := hu.walk
    simp only [walkTo_cons, walkTo_nil] at hw
    obtain ⟨t, h1, u, h2, rfl⟩ := hw
    have : t = i := Option.some.inj (h1.symm.trans hg)
    subst this
    exact isSome_of_next h2
  induction qs with
  | nil => intro ps ts h; simpa [strToks] using h
  | cons q qs ih =>
    intro ps ts h
    obtain ⟨j, hu⟩ := uses_part q (.inr rfl) hg
    have hw := hu.walk
    simp only [walkTo_cons, walkTo_nil] at hw
    obtain ⟨t, h1, u, h2, rfl⟩ := hw
    have hnext : (act i (ahead (strToks qs ++ rest))).isSome = true := by
      cases qs with
      | nil => simpa [strToks] using ha
      | cons q' qs => exact hlit q' _
    have hd : Derives s (.n .string) (.str (ps ++ [q])) (ts ++ [strTok q]) (strToks qs ++ rest) := by
      refine hu.make (mem_follow hnext) (vs := [.str ps, .text (strTok q).value]) ?_ (partFunc_two q ps)
      refine .cons (ts' := [strTok q]) (by simpa [strToks] using h) h1 ?_
      exact derivesL_last (w := (strTok q).value) h2
    simpa [strToks] using ih _ _ hd

theorem derives_string {s i : ℕ} (hg : gotoOn s (ntCode .string) = some i) {rest : List Token}
    (ha : (act i (ahead rest)).isSome = true) {ps : List StrPart} (hne : ps ≠ []) :
    Derives s (.n .string) (.str ps) (strToks ps) rest := by
  cases ps with
  | nil => exact absurd rfl hne
  | cons p ps =>
    obtain ⟨j, hu⟩ := uses_part p (.inl rfl) hg
    have hw := hu.walk
    simp only [walkTo_cons, walkTo_nil] at hw
    obtain ⟨t, h1, rfl⟩ := hw
    have hnext : (act i (ahead (strToks ps ++ rest))).isSome = true := by
      cases ps with
      | nil => simpa [strToks] using ha
      | cons q ps =>
        obtain ⟨j, hu⟩ := uses_part q (.inr rfl) hg
        have hw := hu.walk
        simp only [walkTo_cons, walkTo_nil] at hw
        obtain ⟨t, h1, u, h2, rfl⟩ := hw
        have : t = i := Option.some.inj (h1.symm.trans hg)
        subst this
        exact isSome_of_next h2
    have hd : Derives s (.n .string) (.str [p]) [strTok p] (strToks ps ++ rest) :=
      hu.make (mem_follow hnext) (derivesL_last (w := (strTok p).value) h1) (partFunc_one p)
    simpa [strToks] using derives_string_more hg ha ps [p] [strTok p] hd

/-! ## First tokens -/

theorem ahead_expr (e : Expr) (hw : Written e) : ∃ k ∈ exprFirst, ∀ rest, ahead (exprToks e ++ rest) = kindCode k :=
  match e with
  | .num _ => ⟨.number, by decide, fun _ => rfl⟩
  | .dec _ _ => ⟨.number, by decide, fun _ => rfl⟩
  | .var _ => ⟨.uppername, by decide, fun _ => rfl⟩
  | .str [] => absurd rfl hw
  | .str (p :: ps) => ⟨partKind p, by have := partKind_mem p; revert this; generalize partKind p = k; cases k <;> decide, fun _ => rfl⟩
  | .group _ => ⟨.lparen, by decide, fun _ => rfl⟩
  | .bin op l r => by
    obtain ⟨k, hk, h⟩ := ahead_expr l hw.2.2.1
    exact ⟨k, hk, fun rest => by simpa [exprToks] using h (opTokens op ++ (exprToks r ++ rest))⟩
  | .ndm l r => by
    obtain ⟨k, hk, h⟩ := ahead_expr l hw.2.2.1
    exact ⟨k, hk, fun rest => by simpa [exprToks] using h (tok .dOp "d" :: (exprToks r ++ rest))⟩
  | .dm _ => ⟨.dOp, by decide, fun _ => rfl⟩
  | .unary .plus _ => ⟨.plus, by decide, fun _ => rfl⟩
  | .unary .minus _ => ⟨.minus, by decide, fun _ => rfl⟩
  | .unary .not_ _ => ⟨.exclamation, by decide, fun _ => rfl⟩
  | .hash _ => ⟨.hash, by decide, fun _ => rfl⟩
  | .seq _ => ⟨.lbrace, by decide, fun _ => rfl⟩
  | .call _ => ⟨.lbracket, by decide, fun _ => rfl⟩

/-! ## Claims -/

/-- No token of a literal follows. -/
def NoLiteral (a : ℕ) : Prop := ∀ q ∈ literalKinds, a ≠ kindCode q

/-- The outermost operator of an expression fits its surroundings. -/
def RootFits (i a : ℕ) : Expr → Prop
  | .bin op _ _ => (∀ op2, a = kindCode (opFirst op2) → opLevel op2 ≤ opLevel op) ∧ shifts i (kindCode (opFirst op)) = true
  | _ => True

/-- Wherever an expression can be read and what follows fits, it is. -/
def ExprClaim (e : Expr) : Prop :=
  ∀ {s i : ℕ} {rest : List Token}, gotoOn s (ntCode .expression) = some i → (act i (ahead rest)).isSome = true → RootFits i (ahead rest) e →
    (opensDie e = true → ahead rest ≠ kindCode .dOp) → (endsLiteral e = true → NoLiteral (ahead rest)) →
    ((∃ ps, e = .str ps) → strFine s (ahead rest) = true) → Derives s (.n .expression) (.expr e) (exprToks e) rest

/-- The same of terms. -/
def TermClaim (e : Expr) : Prop :=
  ∀ {s i : ℕ} {rest : List Token}, gotoOn s (ntCode .term) = some i → (act i (ahead rest)).isSome = true →
    (endsLiteral e = true → NoLiteral (ahead rest)) → ((∃ ps, e = .str ps) → strFine s (ahead rest) = true) →
    Derives s (.n .term) (.expr e) (exprToks e) rest

theorem expr_of_term {e : Expr} (hd : opensDie e = true) (h : TermClaim e) : ExprClaim e := by
  intro s i rest hg ha _ hdie hlit hstr
  obtain ⟨t, ht⟩ := goto_term hg
  obtain ⟨j, hu⟩ := uses_term hg
  have hw := hu.walk
  simp only [walkTo_cons, walkTo_nil] at hw
  obtain ⟨_, h1, rfl⟩ := hw
  have e1 := Option.some.inj (h1.symm.trans ht)
  subst e1
  have hm : ahead rest ∈ (follow i).filter fun a => a != kindCode .dOp :=
    List.mem_filter.2 ⟨mem_follow ha, by simpa using hdie hd⟩
  exact hu.make hm (derivesL_one (h ht (hu.some _ hm) hlit hstr) h1) rfl

theorem both_of_term {e : Expr} (hd : opensDie e = true) (h : TermClaim e) : ExprClaim e ∧ (level e = 9 → TermClaim e) :=
  ⟨expr_of_term hd h, fun _ => h⟩

/-- An expression between tokens that leave no choice. -/
theorem ExprClaim.between {e : Expr} (h : ExprClaim e) {s j i : ℕ} {k : Kind} (hk : k ∈ openers) (hto : k ≠ .to)
    (hn : nextState s (.t k) = some j) (hg : gotoOn j (ntCode .expression) = some i) {rest : List Token}
    (ha : (act i (ahead rest)).isSome = true) (hop : ∀ op2, ahead rest ≠ kindCode (opFirst op2)) (hdie : ahead rest ≠ kindCode .dOp)
    (hlit : NoLiteral (ahead rest)) : Derives j (.n .expression) (.expr e) (exprToks e) rest := by
  obtain ⟨t, ht⟩ := goto_term hg
  refine h hg ha ?_ (fun _ => hdie) (fun _ => hlit) fun _ => ?_
  · cases e <;> first | trivial | exact ⟨fun op2 h => absurd h (hop op2), shifts_of_opens (opens_after hn hk) hg _⟩
  · obtain ⟨j', hu⟩ := uses_term hg
    have hw := hu.walk
    simp only [walkTo_cons, walkTo_nil] at hw
    obtain ⟨_, h1, rfl⟩ := hw
    have e1 := Option.some.inj (h1.symm.trans ht)
    subst e1
    exact strFine_of_fine (fine_after hn hto) ht
      (hu.some _ (List.mem_filter.2 ⟨mem_follow ha, by simpa using hdie⟩)) hlit

/-- Nothing that could belong to an expression. -/
def Closes (a : ℕ) : Prop := (∀ op2, a ≠ kindCode (opFirst op2)) ∧ a ≠ kindCode .dOp ∧ NoLiteral a

theorem opFirst_mem (op : BinOp) :
    opFirst op ∈ [Kind.plus, .minus, .times, .divide, .power, .at_, .and_, .or_, .less, .greater, .equals, .notequals] := by
  cases op <;> decide

theorem closes_of {a : ℕ} (h : ∀ k ∈ [Kind.plus, .minus, .times, .divide, .power, .at_, .and_, .or_, .less, .greater, .equals, .notequals,
    .dOp, .instringAny, .instringVar, .instringNonvar], a ≠ kindCode k) : Closes a := by
  refine ⟨fun op2 => h _ ?_, h _ (by simp), fun q hq => h _ ?_⟩
  · have := opFirst_mem op2
    revert this
    generalize opFirst op2 = k
    cases k <;> decide
  · revert hq; cases q <;> decide

/-! ## Terms -/

theorem term_num (n : List Char) : TermClaim (.num n) := by
  intro s i rest hg ha _ _
  obtain ⟨j, hu⟩ := uses_plain (xs := [.t .number]) (f := .termNumber) (by decide +kernel) hg
  have hw := hu.walk
  simp only [walkTo_cons, walkTo_nil] at hw
  obtain ⟨_, h1, rfl⟩ := hw
  exact hu.make (mem_follow ha) (derivesL_last h1) rfl

theorem term_dec (a b : List Char) : TermClaim (.dec a b) := by
  intro s i rest hg ha _ _
  obtain ⟨j, hu⟩ := uses_plain (xs := [.t .number, .t .dot, .t .number]) (f := .termNumberDecimal) (by decide +kernel) hg
  have hw := hu.walk
  simp only [walkTo_cons, walkTo_nil] at hw
  obtain ⟨_, h1, _, h2, _, h3, rfl⟩ := hw
  exact hu.make (mem_follow ha) (derivesL_tok h1 (derivesL_tok h2 (derivesL_last h3))) rfl

theorem term_var (x : List Char) : TermClaim (.var x) := by
  intro s i rest hg ha _ _
  obtain ⟨j, hu⟩ := uses_plain (xs := [.n .varName]) (f := .termName) (by decide +kernel) hg
  have hw := hu.walk
  simp only [walkTo_cons, walkTo_nil] at hw
  obtain ⟨_, h1, rfl⟩ := hw
  exact hu.make (mem_follow ha) (derivesL_one (derives_varName h1 x (hu.some _ (mem_follow ha))) h1) rfl

theorem strRule_shape : strRule.all (fun r => r.lhs == .term && r.rhs == [.n .string] && r.func == .strElement) = true ∧ strRule.isSome = true := by
  decide +kernel

theorem term_str {ps : List StrPart} (hne : ps ≠ []) : TermClaim (.str ps) := by
  intro s i rest hg _ _ hstr
  have hf := hstr ⟨ps, rfl⟩
  unfold strFine at hf
  split at hf
  · rename_i j hj
    obtain ⟨r, hr⟩ := Option.isSome_iff_exists.1 strRule_shape.2
    have hs := strRule_shape.1
    rw [hr] at hs
    simp only [Option.all_some, Bool.and_eq_true, beq_iff_eq] at hs
    rw [hr] at hf
    have hred : reduceRule j (ahead rest) = some r := by simpa using hf
    have := derives_mk (s := s) (ts := strToks ps) (vs := [.str ps]) (v := .expr (.str ps)) hred
      (by rw [hs.1.2]; exact derivesL_one (derives_string hj (isSome_of_reduce hred) hne) hj) (by rw [hs.2]; rfl)
    rw [hs.1.1] at this
    simpa [exprToks] using this
  · cases hf

theorem term_group {e : Expr} (h : ExprClaim e) : TermClaim (.group e) := by
  intro s i rest hg ha _ _
  obtain ⟨j, hu⟩ := uses_plain (xs := [.t .lparen, .n .expression, .t .rparen]) (f := .termGrouped) (by decide +kernel) hg
  have hw := hu.walk
  simp only [walkTo_cons, walkTo_nil] at hw
  obtain ⟨_, h1, _, h2, _, h3, rfl⟩ := hw
  have hc : Closes (kindCode .rparen) := closes_of (by decide)
  have he := h.between (by decide) (by decide) h1 h2 (rest := tok .rparen ")" :: rest) (isSome_of_next h3) hc.1 hc.2.1 hc.2.2
  exact hu.make (mem_follow ha) (derivesL_tok h1 (.cons he h2 (derivesL_last h3))) rfl

theorem term_unary {e : Expr} {op : UnOp} (h : TermClaim e) : TermClaim (.unary op e) := by
  intro s i rest hg ha hlit _
  have core : ∀ (k : Kind) (c : String), unTok op = tok k c → unOpOf c.toList = some op → k ≠ .to →
      hasRule .term [.t k, .n .term] .termUnary plainRule = true → Derives s (.n .term) (.expr (.unary op e)) (exprToks (.unary op e)) rest := by
    intro k c ht ho hk hr
    obtain ⟨j, hu⟩ := uses_plain hr hg
    have hw := hu.walk
    simp only [walkTo_cons, walkTo_nil] at hw
    obtain ⟨_, h1, _, h2, rfl⟩ := hw
    have hs := hu.some _ (mem_follow ha)
    have hl : endsLiteral e = true → NoLiteral (ahead rest) := fun he => hlit he
    have he := h h2 hs hl fun hst => by
      obtain ⟨ps, rfl⟩ := hst
      exact strFine_of_fine (fine_after h1 hk) h2 hs (hl rfl)
    simp only [exprToks, ht]
    refine hu.make (mem_follow ha) (derivesL_tok h1 (derivesL_one he h2)) ?_
    simp only [Func.run, ho, Option.map_some, orInternal]
  cases op with
  | plus => exact core .plus "+" rfl (by decide +kernel) (by decide) (by decide +kernel)
  | minus => exact core .minus "-" rfl (by decide +kernel) (by decide) (by decide +kernel)
  | not_ => exact core .exclamation "!" rfl (by decide +kernel) (by decide) (by decide +kernel)

theorem term_hash {e : Expr} (h : TermClaim e) : TermClaim (.hash e) := by
  intro s i rest hg ha hlit _
  obtain ⟨j, hu⟩ := uses_plain (xs := [.t .hash, .n .term]) (f := .termHash) (by decide +kernel) hg
  have hw := hu.walk
  simp only [walkTo_cons, walkTo_nil] at hw
  obtain ⟨_, h1, _, h2, rfl⟩ := hw
  have hs := hu.some _ (mem_follow ha)
  have hl : endsLiteral e = true → NoLiteral (ahead rest) := fun he => hlit he
  have he := h h2 hs hl fun hst => by
    obtain ⟨ps, rfl⟩ := hst
    exact strFine_of_fine (fine_after h1 (by decide)) h2 hs (hl rfl)
  exact hu.make (mem_follow ha) (derivesL_tok h1 (derivesL_one he h2)) rfl

/-! ## Dice and operators -/

theorem expr_dm {e : Expr} (h : TermClaim e) : ExprClaim (.dm e) := by
  intro s i rest hg ha _ _ hlit _
  obtain ⟨j, hu⟩ := uses_plain (xs := [.t .dOp, .n .term]) (f := .expressionDop) (by decide +kernel) hg
  have hw := hu.walk
  simp only [walkTo_cons, walkTo_nil] at hw
  obtain ⟨_, h1, _, h2, rfl⟩ := hw
  have hs := hu.some _ (mem_follow ha)
  have hl : endsLiteral e = true → NoLiteral (ahead rest) := fun he => hlit he
  have he := h h2 hs hl fun hst => by
    obtain ⟨ps, rfl⟩ := hst
    exact strFine_of_fine (fine_after h1 (by decide)) h2 hs (hl rfl)
  exact hu.make (mem_follow ha) (derivesL_tok h1 (derivesL_one he h2)) rfl

theorem noLiteral_d : NoLiteral (kindCode .dOp) := by unfold NoLiteral; decide

theorem expr_ndm {l e : Expr} (hl : TermClaim l) (h : TermClaim e) : ExprClaim (.ndm l e) := by
  intro s i rest hg ha _ _ hlit _
  obtain ⟨j, hu⟩ := uses_plain (xs := [.n .term, .t .dOp, .n .term]) (f := .expressionDop) (by decide +kernel) hg
  have hw := hu.walk
  simp only [walkTo_cons, walkTo_nil] at hw
  obtain ⟨_, h0, _, h1, _, h2, rfl⟩ := hw
  have hs := hu.some _ (mem_follow ha)
  have hl' : endsLiteral e = true → NoLiteral (ahead rest) := fun he => hlit he
  have he := h h2 hs hl' fun hst => by
    obtain ⟨ps, rfl⟩ := hst
    exact strFine_of_fine (fine_after h1 (by decide)) h2 hs (hl' rfl)
  have hll := hl (rest := tok .dOp "d" :: (exprToks e ++ rest)) h0 (isSome_of_next h1) (fun _ => noLiteral_d) fun _ => strFine_d h0
  exact hu.make (mem_follow ha) (.cons (by simpa using hll) h0 (derivesL_tok h1 (derivesL_one he h2))) rfl

theorem noLiteral_op (op : BinOp) : NoLiteral (kindCode (opFirst op)) := by unfold NoLiteral; cases op <;> decide

theorem dOp_ne_op (op : BinOp) : kindCode (opFirst op) ≠ kindCode .dOp := by cases op <;> decide

/-- Operators that bind tighter than one that is shifted are shifted, too. -/
def shiftsMono (s : ℕ) : Bool :=
  match gotoOn s (ntCode .expression) with
  | some i => binOps.all fun op => !shifts i (kindCode (opFirst op)) ||
      binOps.all fun op2 => Nat.blt (opLevel op2) (opLevel op) || shifts i (kindCode (opFirst op2))
  | none => true

theorem shiftsMono_all : ∀ s < 183, shiftsMono s = true := by decide +kernel

theorem shifts_mono {s i : ℕ} (hg : gotoOn s (ntCode .expression) = some i) {op op2 : BinOp} (h : shifts i (kindCode (opFirst op)) = true)
    (hl : opLevel op ≤ opLevel op2) : shifts i (kindCode (opFirst op2)) = true := by
  have hm := shiftsMono_all s (gotoOn_lt hg)
  unfold shiftsMono at hm
  rw [hg] at hm
  simp only [List.all_eq_true] at hm
  have h1 := hm op (mem_binOps op)
  simp only [h, Bool.not_true, Bool.false_or, List.all_eq_true, Bool.or_eq_true] at h1
  rcases h1 op2 (mem_binOps op2) with h2 | h2
  · have : opLevel op2 < opLevel op := by simpa [Nat.blt_eq] using h2
    omega
  · exact h2

theorem shifts_after {s i : ℕ} {op op2 : BinOp} (hs : s < 183) (hw : walkTo s ((opKinds op).map .t ++ [.n .expression]) = some i)
    (hl : opLevel op < opLevel op2) : shifts i (kindCode (opFirst op2)) = true := by
  have h1 := shiftsByLevel_all s hs
  simp only [shiftsByLevel, List.all_eq_true] at h1
  have h2 := h1 op (mem_binOps op)
  rw [hw] at h2
  simp only [List.all_eq_true] at h2
  have h3 := h2 op2 (mem_binOps op2)
  rw [beq_iff_eq.1 h3]
  exact Nat.ble_eq_true_of_le hl

theorem isSome_of_shifts {s a : ℕ} (h : shifts s a = true) : (act s a).isSome = true := by
  unfold shifts at h
  split at h
  · rename_i j hj; rw [hj]; rfl
  · cases h

theorem expr_bin {op : BinOp} {l e : Expr} (hll : opLevel op ≤ level l) (hle : opLevel op < level e) (hl : ExprClaim l) (h : ExprClaim e) :
    ExprClaim (.bin op l e) := by
  intro s i rest hg ha hroot hdie hlit _
  obtain ⟨hop, hsh⟩ := hroot
  obtain ⟨j, hu⟩ := uses_bin op hg hsh
  have hm : ahead rest ∈ (follow i).filter fun a =>
      binOps.all fun op2 => a != kindCode (opFirst op2) || Nat.ble (opLevel op2) (opLevel op) := by
    refine List.mem_filter.2 ⟨mem_follow ha, List.all_eq_true.2 fun op2 _ => ?_⟩
    by_cases he : ahead rest = kindCode (opFirst op2)
    · simp [hop op2 he]
    · simp [he]
  have hs := hu.some _ hm
  obtain ⟨t, ht⟩ := goto_term hg
  -- the left operand
  have hleft : Derives s (.n .expression) (.expr l) (exprToks l) (opTokens op ++ (exprToks e ++ rest)) := by
    have ha' := ahead_opTokens op (exprToks e ++ rest)
    refine hl hg (by rw [ha']; exact isSome_of_shifts hsh) ?_ (by rw [ha']; exact fun _ => dOp_ne_op op)
      (by rw [ha']; exact fun _ => noLiteral_op op) (by rw [ha']; exact fun _ => strFine_op ht op)
    rw [ha']
    cases l with
    | bin op' l1 l2 =>
      refine ⟨fun op2 h2 => ?_, shifts_mono hg hsh hll⟩
      have hk : opFirst op = opFirst op2 := kindCode_inj h2
      have : opLevel op = opLevel op2 := by revert hk; cases op <;> cases op2 <;> decide
      rw [← this]; exact hll
    | _ => trivial
  -- the right operand
  have hright : ∀ {s1 j' : ℕ} {k : Kind}, nextState s1 (.t k) = some j' → k ≠ .to → gotoOn j' (ntCode .expression) = some j →
      (∀ op2 : BinOp, opLevel op < opLevel op2 → shifts j (kindCode (opFirst op2)) = true) →
      Derives j' (.n .expression) (.expr e) (exprToks e) rest := by
    intro s1 j' k h1 hk h2 hops
    refine h h2 hs ?_ hdie hlit fun hst => ?_
    · cases e with
      | bin op' e1 e2 => exact ⟨fun op2 h2 => Nat.le_trans (hop op2 h2) (Nat.le_of_lt hle), hops op' hle⟩
      | _ => trivial
    · obtain ⟨ps, rfl⟩ := hst
      obtain ⟨t', ht'⟩ := goto_term h2
      obtain ⟨j'', hu'⟩ := uses_term h2
      have hw := hu'.walk
      simp only [walkTo_cons, walkTo_nil] at hw
      obtain ⟨_, h3, rfl⟩ := hw
      have e1 := Option.some.inj (h3.symm.trans ht')
      subst e1
      exact strFine_of_fine (fine_after h1 hk) ht'
        (hu'.some _ (List.mem_filter.2 ⟨mem_follow hs, by simpa using hdie rfl⟩)) (hlit rfl)
  have hw := hu.walk
  have single : ∀ (k : Kind) (c : String), opTokens op = [tok k c] → k ≠ .to → (opFunc op).run [.expr l, .text c.toList, .expr e] = .ok (.expr (.bin op l e)) →
      Derives s (.n .expression) (.expr (.bin op l e)) (exprToks (.bin op l e)) rest := by
    intro k c ho hk hrun
    have hks : opKinds op = [k] := by simp [opKinds, ho, tok]
    have hx : opRhs op = [.n .expression, .t k, .n .expression] := by simp [opRhs, hks]
    rw [hx] at hw hu
    simp only [walkTo_cons, walkTo_nil] at hw
    obtain ⟨_, h0, _, h1, _, h2, rfl⟩ := hw
    have hr := hright h1 hk h2 fun op2 hlt => shifts_after (s := _) (nextState_lt h1)
      (by rw [hks]; simp only [List.map_cons, List.map_nil, List.cons_append, List.nil_append, walkTo_cons, walkTo_nil]; exact ⟨_, h1, _, h2, rfl⟩) hlt
    simp only [exprToks, ho] at hleft ⊢
    exact hu.make hm (.cons (by simpa using hleft) h0 (derivesL_tok h1 (derivesL_one hr h2))) hrun
  have double : ∀ (k k' : Kind) (c c' : String), opTokens op = [tok k c, tok k' c'] → k' ≠ .to →
      (opFunc op).run [.expr l, .text c.toList, .text c'.toList, .expr e] = .ok (.expr (.bin op l e)) →
      Derives s (.n .expression) (.expr (.bin op l e)) (exprToks (.bin op l e)) rest := by
    intro k k' c c' ho hk hrun
    have hks : opKinds op = [k, k'] := by simp [opKinds, ho, tok]
    have hx : opRhs op = [.n .expression, .t k, .t k', .n .expression] := by simp [opRhs, hks]
    rw [hx] at hw hu
    simp only [walkTo_cons, walkTo_nil] at hw
    obtain ⟨_, h0, _, h1, _, h1', _, h2, rfl⟩ := hw
    have hr := hright h1' hk h2 fun op2 hlt => shifts_after (s := _) (nextState_lt h1)
      (by rw [hks]; simp only [List.map_cons, List.map_nil, List.cons_append, List.nil_append, walkTo_cons, walkTo_nil]; exact ⟨_, h1, _, h1', _, h2, rfl⟩) hlt
    simp only [exprToks, ho] at hleft ⊢
    exact hu.make hm (.cons (by simpa using hleft) h0 (derivesL_tok h1 (derivesL_tok h1' (derivesL_one hr h2)))) hrun
  cases op with
  | le => exact double .less .equals "<" "=" rfl (by decide) rfl
  | ge => exact double .greater .equals ">" "=" rfl (by decide) rfl
  | add => exact single .plus "+" rfl (by decide) rfl
  | sub => exact single .minus "-" rfl (by decide) rfl
  | mul => exact single .times "*" rfl (by decide) rfl
  | div => exact single .divide "/" rfl (by decide) rfl
  | pow => exact single .power "^" rfl (by decide) rfl
  | at_ => exact single .at_ "@" rfl (by decide) rfl
  | and_ => exact single .and_ "&" rfl (by decide) rfl
  | or_ => exact single .or_ "|" rfl (by decide) rfl
  | lt => exact single .less "<" rfl (by decide) rfl
  | gt => exact single .greater ">" rfl (by decide) rfl
  | eq => exact single .equals "=" rfl (by decide) rfl
  | ne => exact single .notequals "!=" rfl (by decide) rfl

end PythonDice.Yacc
