import Verif.Proofs.ParseFacts

/-!
# From derivations to trees as they are written
-/

namespace PythonDice.Yacc

open Lexer (Kind Token)
open Compiler Spec

/-! ## What the symbols stand for -/

/-- The tokens of an `else if`. -/
def elifToks (x : Expr × Block) : List Token :=
  tok .else_ "else" :: tok .if_ "if" :: exprToks x.1 ++ tok .lbrace "{" :: blockToks x.2 ++ [tok .rbrace "}"]

/-- The last argument is told apart from what follows. -/
def LastOK : CallParts → ℕ → Prop
  | .nil, _ => True
  | .word _ cs, a => LastOK cs a
  | .arg e .nil, a => a ≠ kindCode .plus ∧ a ≠ kindCode .minus ∧ (opensDie e = true → a ≠ kindCode .dOp) ∧
      (endsLiteral e = true → ∀ q ∈ literalKinds, a ≠ kindCode q)
  | .arg _ cs, a => LastOK cs a

/-- The outermost operator of an expression in its surroundings. -/
def RootOK (s : ℕ) (a : ℕ) : Expr → Prop
  | .bin op _ _ => (∀ op2, a = kindCode (opFirst op2) → opLevel op2 ≤ opLevel op) ∧
      ∃ s', gotoOn s (ntCode .expression) = some s' ∧ shifts s' (kindCode (opFirst op)) = true
  | _ => True

/-- An expression with its tokens. -/
def GoodE (s : ℕ) (v : Val) (ts : List Token) (a : ℕ) : Prop :=
  ∃ e, v = .expr e ∧ ts = exprToks e ∧ Written e ∧ RootOK s a e ∧ (opensDie e = true → a ≠ kindCode .dOp) ∧
    (endsLiteral e = true → ∀ q ∈ literalKinds, a ≠ kindCode q)

/-- A term with its tokens. -/
def GoodT (v : Val) (ts : List Token) (a : ℕ) : Prop :=
  ∃ e, v = .expr e ∧ ts = exprToks e ∧ Written e ∧ level e = 9 ∧ (endsLiteral e = true → ∀ q ∈ literalKinds, a ≠ kindCode q)

/-- What is known of a symbol with its value and its tokens. -/
def Good (s : ℕ) (x : Sym) (v : Val) (ts : List Token) (a : ℕ) : Prop :=
  match x with
  | .t k => ∃ w, v = .text w ∧ ts = [⟨k, w⟩] ∧ TokenOK ⟨k, w⟩
  | .n .start => True
  | .n .multilineCode => ∃ b, v = .block b ∧ ts = blockToks b ∧ WrittenB b
  | .n .empty => ts = []
  | .n .singleCode => ∃ st, v = .stmt st ∧ ts = stmtToks st ∧ WrittenS st
  | .n .ifExpr => ∃ c b, v = .branches [.if_ c b] ∧
      ts = tok .if_ "if" :: exprToks c ++ tok .lbrace "{" :: blockToks b ++ [tok .rbrace "}"] ∧ Written c ∧ WrittenB b
  | .n .elseExpr => ∃ b, v = .branches [.else_ b] ∧
      ts = tok .else_ "else" :: tok .lbrace "{" :: blockToks b ++ [tok .rbrace "}"] ∧ WrittenB b
  | .n .elseifExpr => ∃ xs : List (Expr × Block), v = .branches (xs.map fun x => .elseif x.1 x.2) ∧ ts = xs.flatMap elifToks ∧
      ∀ x ∈ xs, Written x.1 ∧ WrittenB x.2
  | .n .varName => ∃ x, v = .text x ∧ ts = [varTok x]
  | .n .string => ∃ ps, v = .str ps ∧ ts = strToks ps ∧ ps ≠ []
  | .n .funcnameDef => ∃ ds, v = .sig ds ∧ ts = sigToks ds ∧ ds ≠ [] ∧ ∀ d ∈ ds, TypeOK d
  | .n .expression => GoodE s v ts a
  | .n .term => GoodT v ts a
  | .n .elements => ∃ es, v = .elems es ∧ ts = elemToks es ∧ WrittenE es ∧ es ≠ .nil
  | .n .element => (∃ e, v = .expr e ∧ ts = exprToks e ∧ Written e) ∨
      ∃ l r, v = .range l r ∧ ts = exprToks l ++ tok .doubleDot ".." :: exprToks r ∧ Written l ∧ Written r
  | .n .range => ∃ l r, v = .range l r ∧ ts = exprToks l ++ tok .doubleDot ".." :: exprToks r ∧ Written l ∧ Written r
  | .n .callElements => ∃ cs, v = .call cs ∧ ts = callToks cs ∧ FirstOK cs ∧ WrittenC cs ∧ LastOK cs a

/-- The same of lists of symbols. -/
def GoodL : ℕ → List Sym → List Val → List Token → List Token → ℕ → Prop
  | s, [], vs, ts, _, j => vs = [] ∧ ts = [] ∧ j = s
  | s, x :: xs, vs, ts, rest, j => ∃ v vs' t1 t2 s', vs = v :: vs' ∧ ts = t1 ++ t2 ∧ Good s x v t1 (ahead (t2 ++ rest)) ∧
      nextState s x = some s' ∧ GoodL s' xs vs' t2 rest j

/-! ## Tokens -/

theorem symbol_texts : ∀ p ∈ symbolText, symbolText.lookup p.1 = some p.2 := by decide +kernel

/-- Symbols have one text. -/
theorem tokenOK_symbol {k : Kind} {w : List Char} {c : List Char} (h : TokenOK ⟨k, w⟩) (hk : symbolText.lookup k = some c) : w = c := by
  have : (k, w) ∈ symbolText := by
    cases k <;> first | exact h | cases hk
  have := symbol_texts _ this
  rw [hk] at this
  exact (Option.some.inj this).symm

/-- Keywords have one text. -/
theorem tokenOK_keyword {k : Kind} {w : List Char} (h : TokenOK ⟨k, w⟩) (hk : k ∈ keywords.map Prod.snd) : (w, k) ∈ keywords := by
  cases k <;> first | exact h | exact absurd hk (by decide)

theorem keyword_texts : ∀ p ∈ keywords, (keywords.map Prod.swap).lookup p.2 = some p.1 := by decide +kernel

theorem keyword_text {k : Kind} {w c : List Char} (h : (w, k) ∈ keywords) (hc : (keywords.map Prod.swap).lookup k = some c) : w = c := by
  have := keyword_texts _ h
  rw [hc] at this
  exact (Option.some.inj this).symm

theorem wordKind_keywords : ∀ p ∈ keywords, wordKind p.1 = p.2 := by decide +kernel

theorem wordKind_keyword {k : Kind} {w : List Char} (h : (w, k) ∈ keywords) : wordKind w = k := wordKind_keywords _ h

/-- The types of words. -/
def wordKinds : List Kind := [.lowername, .output, .function, .loop, .over, .named, .set, .to, .if_, .else_, .result]

/-- Words are tokens of their type. -/
theorem tokenOK_word {k : Kind} {w : List Char} (h : TokenOK ⟨k, w⟩) (hk : k ∈ wordKinds ∨ k = .dOp) : (⟨k, w⟩ : Token) = wordTok w := by
  have : wordKind w = k := by
    by_cases hl : k = .lowername
    · subst hl; exact h
    · apply wordKind_keyword
      apply tokenOK_keyword h
      revert hl hk
      cases k <;> decide
  simp [wordTok, this]

theorem word_ne_d {k : Kind} {w : List Char} (h : TokenOK ⟨k, w⟩) (hk : k ∈ wordKinds) : w ≠ "d".toList := by
  rintro rfl
  have h1 := tokenOK_word h (.inl hk)
  have h2 : k = wordKind "d".toList := congrArg Token.kind h1
  rw [show wordKind "d".toList = .dOp by decide +kernel] at h2
  subst h2
  revert hk
  decide

theorem good_symbol {s : ℕ} {k : Kind} {v : Val} {ts : List Token} {a : ℕ} {c : String} (h : Good s (.t k) v ts a)
    (hk : symbolText.lookup k = some c.toList) : v = .text c.toList ∧ ts = [tok k c] := by
  obtain ⟨w, rfl, rfl, ho⟩ := h
  rw [tokenOK_symbol ho hk]
  exact ⟨rfl, rfl⟩

theorem good_keyword {s : ℕ} {k : Kind} {v : Val} {ts : List Token} {a : ℕ} {c : String} (h : Good s (.t k) v ts a)
    (hk : (keywords.map Prod.swap).lookup k = some c.toList) : v = .text c.toList ∧ ts = [tok k c] := by
  obtain ⟨w, rfl, rfl, ho⟩ := h
  have hm : k ∈ keywords.map Prod.snd := by revert hk; cases k <;> first | exact fun _ => by decide | (intro h; cases h)
  rw [keyword_text (tokenOK_keyword ho hm) hk]
  exact ⟨rfl, rfl⟩

theorem exprToks_ne_nil (e : Expr) (hw : Written e) : exprToks e ≠ [] := by
  cases e with
  | str ps => simpa [exprToks, strToks, Written] using hw
  | bin op l r => cases op <;> simp [exprToks, opTokens]
  | _ => simp [exprToks]

/-! ## Literals and names -/

theorem good_varName {s j : ℕ} {r : Rule} {vs : List Val} {v : Val} {ts rest : List Token} (hr : r ∈ varNameRules)
    (hl : GoodL s r.rhs vs ts rest j) (hv : r.func.run vs = .ok v) : Good s (.n r.lhs) v ts (ahead rest) := by
  simp only [varNameRules, List.mem_cons, List.not_mem_nil, or_false] at hr
  subst hr
  obtain ⟨v1, vs', t1, t2, s', rfl, rfl, ⟨w, rfl, rfl, _⟩, _, rfl, rfl, _⟩ := hl
  cases hv
  exact ⟨w, rfl, rfl⟩

theorem strTok_text {k : Kind} {w : List Char} (hk : k = .instringAny ∨ k = .instringNonvar) (h : TokenOK ⟨k, w⟩) :
    strTok (.text w) = ⟨k, w⟩ := by
  rcases hk with rfl | rfl
  · have : w.head? ≠ some '[' := h
    simp [strTok, this]
  · have : w.head? = some '[' := h
    simp [strTok, this]

theorem good_stringInstring {s j : ℕ} {r : Rule} {vs : List Val} {v : Val} {ts rest : List Token} (hr : r ∈ stringInstringRules)
    (hl : GoodL s r.rhs vs ts rest j) (hv : r.func.run vs = .ok v) : Good s (.n r.lhs) v ts (ahead rest) := by
  have one : ∀ k, (k = .instringAny ∨ k = .instringNonvar) → ∀ {s j vs v ts}, GoodL s [.t k] vs ts rest j →
      pStringInstring vs = .ok v → ∃ ps, v = .str ps ∧ ts = strToks ps ∧ ps ≠ [] := by
    rintro k hk s j vs v ts ⟨v1, vs', t1, t2, s', rfl, rfl, ⟨w, rfl, rfl, ho⟩, _, rfl, rfl, _⟩ hv
    cases hv
    exact ⟨_, rfl, by simp [strToks, strTok_text hk ho], by simp⟩
  have two : ∀ k, (k = .instringAny ∨ k = .instringNonvar) → ∀ {s j vs v ts}, GoodL s [.n .string, .t k] vs ts rest j →
      pStringInstring vs = .ok v → ∃ ps, v = .str ps ∧ ts = strToks ps ∧ ps ≠ [] := by
    rintro k hk s j vs v ts ⟨v1, vs', t1, t2, s', rfl, rfl, ⟨ps, rfl, rfl, _⟩, _, v2, vs'', t3, t4, s'', rfl, rfl,
      ⟨w, rfl, rfl, ho⟩, _, rfl, rfl, _⟩ hv
    cases hv
    exact ⟨_, rfl, by simp [strToks, strTok_text hk ho], by simp⟩
  simp only [stringInstringRules, List.mem_cons, List.not_mem_nil, or_false] at hr
  rcases hr with rfl | rfl | rfl | rfl
  · exact one _ (.inl rfl) hl hv
  · exact one _ (.inr rfl) hl hv
  · exact two _ (.inl rfl) hl hv
  · exact two _ (.inr rfl) hl hv

theorem strTok_var {w : List Char} (h : TokenOK ⟨.instringVar, w⟩) : strTok (.var w.tail.dropLast) = ⟨.instringVar, w⟩ := by
  obtain ⟨x, hx⟩ : ∃ x, w = '[' :: x ++ [']'] := h
  subst hx
  simp [strTok]

theorem good_strvarInstring {s j : ℕ} {r : Rule} {vs : List Val} {v : Val} {ts rest : List Token} (hr : r ∈ strvarInstringRules)
    (hl : GoodL s r.rhs vs ts rest j) (hv : r.func.run vs = .ok v) : Good s (.n r.lhs) v ts (ahead rest) := by
  simp only [strvarInstringRules, List.mem_cons, List.not_mem_nil, or_false] at hr
  rcases hr with rfl | rfl
  · obtain ⟨v1, vs', t1, t2, s', rfl, rfl, ⟨w, rfl, rfl, ho⟩, _, rfl, rfl, _⟩ := hl
    cases hv
    exact ⟨_, rfl, by simp [strToks, strTok_var ho], by simp⟩
  · obtain ⟨v1, vs', t1, t2, s', rfl, rfl, ⟨ps, rfl, rfl, _⟩, _, v2, vs'', t3, t4, s'', rfl, rfl, ⟨w, rfl, rfl, ho⟩, _, rfl, rfl, _⟩ := hl
    cases hv
    exact ⟨_, rfl, by simp [strToks, strTok_var ho], by simp⟩

/-! ## Names of functions -/

theorem good_sigWord {k : Kind} (hk : k ∈ wordKinds ∨ k = .dOp) {s j : ℕ} {vs : List Val} {v : Val} {ts rest : List Token}
    (hl : GoodL s [.t k] vs ts rest j) (hv : pFuncnameDef vs = .ok v) : Good s (.n .funcnameDef) v ts (ahead rest) := by
  obtain ⟨v1, vs', t1, t2, s', rfl, rfl, ⟨w, rfl, rfl, ho⟩, _, rfl, rfl, _⟩ := hl
  cases hv
  exact ⟨_, rfl, by simp [sigToks, defToks, tokenOK_word ho hk], by simp, by simp [TypeOK]⟩

theorem good_sigWord2 {k : Kind} (hk : k ∈ wordKinds ∨ k = .dOp) {s j : ℕ} {vs : List Val} {v : Val} {ts rest : List Token}
    (hl : GoodL s [.n .funcnameDef, .t k] vs ts rest j) (hv : pFuncnameDef vs = .ok v) : Good s (.n .funcnameDef) v ts (ahead rest) := by
  obtain ⟨v1, vs', t1, t2, s', rfl, rfl, ⟨ds, rfl, rfl, _, hd⟩, _, v2, vs'', t3, t4, s'', rfl, rfl, ⟨w, rfl, rfl, ho⟩, _, rfl, rfl, _⟩ := hl
  cases hv
  refine ⟨_, rfl, by simp [sigToks, defToks, tokenOK_word ho hk], by simp, ?_⟩
  intro d hd'
  rcases List.mem_append.1 hd' with h | h
  · exact hd d h
  · simp only [List.mem_singleton] at h; subst h; trivial

theorem good_funcnameDef {s j : ℕ} {r : Rule} {vs : List Val} {v : Val} {ts rest : List Token} (hr : r ∈ funcnameDefRules)
    (hl : GoodL s r.rhs vs ts rest j) (hv : r.func.run vs = .ok v) : Good s (.n r.lhs) v ts (ahead rest) := by
  have shape : ∀ r ∈ funcnameDefRules, r.lhs = .funcnameDef ∧ r.func = .funcnameDef ∧
      ∃ k ∈ wordKinds, r.rhs = [.t k] ∨ r.rhs = [.n .funcnameDef, .t k] := by decide +kernel
  obtain ⟨h1, h2, k, hk, h3 | h3⟩ := shape r hr <;> rw [h3] at hl <;> rw [h2] at hv <;> rw [h1]
  · exact good_sigWord (.inl hk) hl hv
  · exact good_sigWord2 (.inl hk) hl hv

theorem good_funcnameDefImpossibletocall {s j : ℕ} {r : Rule} {vs : List Val} {v : Val} {ts rest : List Token}
    (hr : r ∈ funcnameDefImpossibletocallRules) (hl : GoodL s r.rhs vs ts rest j) (hv : r.func.run vs = .ok v) :
    Good s (.n r.lhs) v ts (ahead rest) := by
  simp only [funcnameDefImpossibletocallRules, List.mem_cons, List.not_mem_nil, or_false] at hr
  rcases hr with rfl | rfl | rfl
  · obtain ⟨rfl, rfl, _⟩ := hl
    cases hv
  · exact good_sigWord (.inr rfl) hl hv
  · exact good_sigWord2 (.inr rfl) hl hv

/-- The types of the types of parameters. -/
def typeKinds : List Kind := [.dOp, .lowername]

theorem tokenOK_type {k : Kind} {w : List Char} (h : TokenOK ⟨k, w⟩) (hk : k ∈ typeKinds) :
    (⟨k, w⟩ : Token) = wordTok w ∧ (w = "d".toList ∨ wordKind w = .lowername) := by
  have h1 := tokenOK_word h (by revert hk; cases k <;> decide)
  refine ⟨h1, ?_⟩
  simp only [typeKinds, List.mem_cons, List.not_mem_nil, or_false] at hk
  rcases hk with rfl | rfl
  · exact .inl (keyword_text (tokenOK_keyword h (by decide)) (by decide +kernel))
  · exact .inr h

theorem good_funcnameDefParam {s j : ℕ} {r : Rule} {vs : List Val} {v : Val} {ts rest : List Token} (hr : r ∈ funcnameDefParamRules)
    (hl : GoodL s r.rhs vs ts rest j) (hv : r.func.run vs = .ok v) : Good s (.n r.lhs) v ts (ahead rest) := by
  have shape : ∀ r ∈ funcnameDefParamRules, r.lhs = .funcnameDef ∧ r.func = .funcnameDefParam ∧
      (r.rhs = [.n .varName] ∨ r.rhs = [.n .funcnameDef, .n .varName] ∨
        ∃ k ∈ typeKinds, r.rhs = [.n .varName, .t .colon, .t k] ∨ r.rhs = [.n .funcnameDef, .n .varName, .t .colon, .t k]) := by
    decide +kernel
  have snoc : ∀ (ds : List DefPart) (d : DefPart), (∀ d ∈ ds, TypeOK d) → TypeOK d → ∀ d' ∈ ds ++ [d], TypeOK d' := by
    intro ds d h1 h2 d' hd
    rcases List.mem_append.1 hd with h | h
    · exact h1 _ h
    · simp only [List.mem_singleton] at h; subst h; exact h2
  obtain ⟨h1, h2, h3 | h3 | ⟨k, hk, h3 | h3⟩⟩ := shape r hr <;> rw [h3] at hl <;> rw [h2] at hv <;> rw [h1] <;>
    replace hv : pFuncnameDefParam vs = .ok v := hv
  · obtain ⟨_, _, _, _, _, rfl, rfl, ⟨x, rfl, rfl⟩, _, rfl, rfl, _⟩ := hl
    cases hv
    exact ⟨_, rfl, by simp [sigToks, defToks], by simp, by simp [TypeOK]⟩
  · obtain ⟨_, _, _, _, _, rfl, rfl, ⟨ds, rfl, rfl, _, hd⟩, _, _, _, _, _, _, rfl, rfl, ⟨x, rfl, rfl⟩, _, rfl, rfl, _⟩ := hl
    cases hv
    exact ⟨_, rfl, by simp [sigToks, defToks], by simp, snoc _ _ hd trivial⟩
  · obtain ⟨_, _, _, _, _, rfl, rfl, ⟨x, rfl, rfl⟩, _, _, _, _, _, _, rfl, rfl, hc, _, _, _, _, _, _, rfl, rfl, ⟨w, rfl, rfl, ho⟩, _,
      rfl, rfl, _⟩ := hl
    obtain ⟨rfl, rfl⟩ := good_symbol (c := ":") hc (by decide +kernel)
    cases hv
    obtain ⟨e, he⟩ := tokenOK_type ho hk
    exact ⟨_, rfl, by simp [sigToks, defToks, e], by simp, by simpa [TypeOK] using he⟩
  · obtain ⟨_, _, _, _, _, rfl, rfl, ⟨ds, rfl, rfl, _, hd⟩, _, _, _, _, _, _, rfl, rfl, ⟨x, rfl, rfl⟩, _, _, _, _, _, _, rfl, rfl, hc, _,
      _, _, _, _, _, rfl, rfl, ⟨w, rfl, rfl, ho⟩, _, rfl, rfl, _⟩ := hl
    obtain ⟨rfl, rfl⟩ := good_symbol (c := ":") hc (by decide +kernel)
    cases hv
    obtain ⟨e, he⟩ := tokenOK_type ho hk
    exact ⟨_, rfl, by simp [sigToks, defToks, e], by simp, snoc _ _ hd he⟩

end PythonDice.Yacc
