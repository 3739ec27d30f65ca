import Verif.Proofs.ParseCompleteE

/-!
# From trees as they are written to derivations: sequences and calls
-/

namespace PythonDice.Yacc

open Lexer (Kind Token)
open Compiler Spec

/-! ## Elements -/

/-- One list of elements after the other. -/
def appE : Elems → Elems → Elems
  | .nil, es => es
  | .expr e as, es => .expr e (appE as es)
  | .range l r as, es => .range l r (appE as es)

theorem addElem_expr (as : Elems) (e : Expr) : addElem as (.expr e) = some (appE as (.expr e .nil)) := by
  induction as using Elems.listInduction with
  | nil => rfl
  | expr _ _ ih => simp [addElem, appE, ih]
  | range _ _ _ ih => simp [addElem, appE, ih]

theorem addElem_range (as : Elems) (l r : Expr) : addElem as (.range l r) = some (appE as (.range l r .nil)) := by
  induction as using Elems.listInduction with
  | nil => rfl
  | expr _ _ ih => simp [addElem, appE, ih]
  | range _ _ _ ih => simp [addElem, appE, ih]

theorem appE_assoc (as bs cs : Elems) : appE (appE as bs) cs = appE as (appE bs cs) := by
  induction as using Elems.listInduction with
  | nil => rfl
  | expr _ _ ih => simp [appE, ih]
  | range _ _ _ ih => simp [appE, ih]

theorem appE_nil (as : Elems) : appE as .nil = as := by
  induction as using Elems.listInduction with
  | nil => rfl
  | expr _ _ ih => simp [appE, ih]
  | range _ _ _ ih => simp [appE, ih]

/-- An element that is an expression. -/
theorem element_expr {e : Expr} (h : ExprClaim e) {s j i : ℕ} {k : Kind} (hk : k ∈ openers) (hto : k ≠ .to) (hn : nextState s (.t k) = some j)
    (hg : gotoOn j (ntCode .element) = some i) {rest : List Token} (ha : (act i (ahead rest)).isSome = true) (hc : Closes (ahead rest)) :
    Derives j (.n .element) (.expr e) (exprToks e) rest := by
  obtain ⟨_, hu⟩ := uses_plain (xs := [.n .expression]) (f := .element) (by decide +kernel) hg
  have hw := hu.walk
  simp only [walkTo_cons, walkTo_nil] at hw
  obtain ⟨_, h1, rfl⟩ := hw
  exact hu.make (mem_follow ha) (derivesL_one (h.between hk hto hn h1 (hu.some _ (mem_follow ha)) hc.1 hc.2.1 hc.2.2) h1) rfl

/-- An element that is a range. -/
theorem element_range {l e : Expr} (hl : ExprClaim l) (h : ExprClaim e) {s j i : ℕ} {k : Kind} (hk : k ∈ openers) (hto : k ≠ .to)
    (hn : nextState s (.t k) = some j) (hg : gotoOn j (ntCode .element) = some i) {rest : List Token}
    (ha : (act i (ahead rest)).isSome = true) (hc : Closes (ahead rest)) :
    Derives j (.n .element) (.range l e) (exprToks l ++ tok .doubleDot ".." :: exprToks e) rest := by
  obtain ⟨_, hu⟩ := uses_plain (xs := [.n .range]) (f := .element) (by decide +kernel) hg
  have hw := hu.walk
  simp only [walkTo_cons, walkTo_nil] at hw
  obtain ⟨_, h1, rfl⟩ := hw
  have hs := hu.some _ (mem_follow ha)
  refine hu.make (mem_follow ha) (derivesL_one ?_ h1) rfl
  obtain ⟨_, hv⟩ := uses_plain (xs := [.n .expression, .t .doubleDot, .n .expression]) (f := .range) (by decide +kernel) h1
  have hw := hv.walk
  simp only [walkTo_cons, walkTo_nil] at hw
  obtain ⟨_, h2, _, h3, _, h4, rfl⟩ := hw
  have hd : Closes (kindCode .doubleDot) := closes_of (by decide)
  have d1 := hl.between hk hto hn h2 (rest := tok .doubleDot ".." :: (exprToks e ++ rest)) (isSome_of_next h3) hd.1 hd.2.1 hd.2.2
  have d2 := h.between (by decide) (by decide) h3 h4 (hv.some _ (mem_follow hs)) hc.1 hc.2.1 hc.2.2
  exact hv.make (mem_follow hs) (.cons (by simpa using d1) h2 (derivesL_tok h3 (derivesL_one d2 h4))) rfl

/-- The elements of a sequence, all or those after some. -/
def ElemsClaim (es : Elems) : Prop :=
  ∀ {s j i : ℕ}, nextState s (.t .lbrace) = some j → gotoOn j (ntCode .elements) = some i → ∀ {rest : List Token},
    ahead rest = kindCode .rbrace → (act i (ahead rest)).isSome = true →
    (∀ (as : Elems) (ts : List Token), Derives j (.n .elements) (.elems as) ts (moreToks es ++ rest) →
      Derives j (.n .elements) (.elems (appE as es)) (ts ++ moreToks es) rest) ∧
    (es ≠ .nil → Derives j (.n .elements) (.elems es) (elemToks es) rest)

theorem ahead_more (es : Elems) (rest : List Token) (h : ahead rest = kindCode .rbrace) :
    ahead (moreToks es ++ rest) = kindCode .rbrace ∨ ahead (moreToks es ++ rest) = kindCode .comma := by
  cases es with
  | nil => exact .inl h
  | expr => exact .inr rfl
  | range => exact .inr rfl

theorem closes_more {es : Elems} {rest : List Token} (h : ahead rest = kindCode .rbrace) : Closes (ahead (moreToks es ++ rest)) := by
  rcases ahead_more es rest h with h | h <;> rw [h] <;> exact closes_of (by decide)

theorem elems_nil : ElemsClaim .nil := by
  intro s j i _ _ rest _ _
  exact ⟨fun as ts h => by simpa [moreToks, appE_nil] using h, fun h => absurd rfl h⟩

theorem isSome_more {i : ℕ} {es : Elems} {rest : List Token} {s' t : ℕ} (hc : nextState i (.t .comma) = some t)
    (ha : (act i (ahead rest)).isSome = true) (h : ahead rest = kindCode .rbrace) (_ : s' = i) :
    (act i (ahead (moreToks es ++ rest))).isSome = true := by
  rcases ahead_more es rest h with e | e
  · rw [e, ← h]; exact ha
  · rw [e]; exact isSome_of_next hc

/-- An element and those after it. -/
theorem elems_cons {es : Elems} {v : Val} {vt : List Token} {es' : Elems} (hes : ElemsClaim es)
    (hadd : ∀ as : Elems, ∃ bs, addElem as v = some bs ∧ appE bs es = appE as es') (hmore : moreToks es' = tok .comma "," :: vt ++ moreToks es)
    (helem : elemToks es' = vt ++ moreToks es)
    (hv : ∀ {s j i : ℕ} {k : Kind}, k ∈ openers → k ≠ .to → nextState s (.t k) = some j → gotoOn j (ntCode .element) = some i →
      ∀ {rest : List Token}, (act i (ahead rest)).isSome = true → Closes (ahead rest) → Derives j (.n .element) v vt rest) : ElemsClaim es' := by
  intro s j i hn hg rest hr ha
  obtain ⟨_, hu⟩ := uses_plain (xs := [.n .elements, .t .comma, .n .element]) (f := .elements) (by decide +kernel) hg
  have hw := hu.walk
  simp only [walkTo_cons, walkTo_nil] at hw
  obtain ⟨i', h1, c, h2, _, h3, rfl⟩ := hw
  have e1 := Option.some.inj (h1.symm.trans hg)
  subst e1
  have hmoreSome : (act i' (ahead (moreToks es ++ rest))).isSome = true := isSome_more h2 ha hr rfl
  have hclose : Closes (ahead (moreToks es ++ rest)) := closes_more hr
  obtain ⟨ih, _⟩ := hes hn hg hr ha
  constructor
  · intro as ts h
    obtain ⟨bs, hb, happ⟩ := hadd as
    have d := hv (by decide) (by decide) h2 h3 (rest := moreToks es ++ rest) (hu.some _ (mem_follow hmoreSome)) hclose
    have := hu.make (rest := moreToks es ++ rest) (v := .elems bs) (mem_follow hmoreSome)
      (.cons (ts' := tok .comma "," :: vt) (by rw [hmore] at h; simpa using h) h1 (derivesL_tok (w := ",".toList) h2 (derivesL_one d h3)))
      (by simp only [Func.run, pElements, hb, Option.map_some, orInternal])
    have := ih _ _ this
    rw [happ] at this
    rw [hmore]
    simpa using this
  · intro _
    obtain ⟨bs, hb, happ⟩ := hadd .nil
    obtain ⟨_, hu'⟩ := uses_plain (xs := [.n .element]) (f := .elements) (by decide +kernel) hg
    have hw := hu'.walk
    simp only [walkTo_cons, walkTo_nil] at hw
    obtain ⟨_, h4, rfl⟩ := hw
    have d := hv (by decide) (by decide) hn h4 (rest := moreToks es ++ rest) (hu'.some _ (mem_follow hmoreSome)) hclose
    have := hu'.make (rest := moreToks es ++ rest) (v := .elems bs) (mem_follow hmoreSome) (derivesL_one d h4)
      (by
        have : pElements [v] = .ok (.elems bs) := by
          cases v <;> simp only [pElements, hb, Option.map_some, orInternal]
        exact this)
    have := ih _ _ this
    rw [happ] at this
    rw [helem]
    simpa [appE] using this

theorem term_seq {es : Elems} (h : ElemsClaim es) : TermClaim (.seq es) := by
  intro s i rest hg ha _ _
  by_cases hne : es = .nil
  · subst hne
    obtain ⟨_, hu⟩ := uses_plain (xs := [.t .lbrace, .t .rbrace]) (f := .termSeq) (by decide +kernel) hg
    have hw := hu.walk
    simp only [walkTo_cons, walkTo_nil] at hw
    obtain ⟨_, h1, _, h2, rfl⟩ := hw
    exact hu.make (mem_follow ha) (derivesL_tok h1 (derivesL_last h2)) rfl
  · obtain ⟨_, hu⟩ := uses_plain (xs := [.t .lbrace, .n .elements, .t .rbrace]) (f := .termSeq) (by decide +kernel) hg
    have hw := hu.walk
    simp only [walkTo_cons, walkTo_nil] at hw
    obtain ⟨_, h1, _, h2, _, h3, rfl⟩ := hw
    have d := (h h1 h2 (rest := tok .rbrace "}" :: rest) rfl (isSome_of_next h3)).2 hne
    exact hu.make (mem_follow ha) (derivesL_tok h1 (.cons d h2 (derivesL_last h3))) rfl

/-! ## Calls -/

/-- One list of parts after the other. -/
def appC : CallParts → CallParts → CallParts
  | .nil, cs => cs
  | .word w as, cs => .word w (appC as cs)
  | .arg e as, cs => .arg e (appC as cs)

theorem addWord_eq (as : CallParts) (w : List Char) : addWord as w = appC as (.word w .nil) := by
  induction as using CallParts.listInduction with
  | nil => rfl
  | word _ _ ih => simp [addWord, appC, ih]
  | arg _ _ ih => simp [addWord, appC, ih]

theorem addArg_eq (as : CallParts) (e : Expr) : addArg as e = appC as (.arg e .nil) := by
  induction as using CallParts.listInduction with
  | nil => rfl
  | word _ _ ih => simp [addArg, appC, ih]
  | arg _ _ ih => simp [addArg, appC, ih]

theorem appC_assoc (as bs cs : CallParts) : appC (appC as bs) cs = appC as (appC bs cs) := by
  induction as using CallParts.listInduction with
  | nil => rfl
  | word _ _ ih => simp [appC, ih]
  | arg _ _ ih => simp [appC, ih]

theorem appC_nil (as : CallParts) : appC as .nil = as := by
  induction as using CallParts.listInduction with
  | nil => rfl
  | word _ _ ih => simp [appC, ih]
  | arg _ _ ih => simp [appC, ih]

/-- The parts of a call, all or those after some. -/
def CallClaim (cs : CallParts) : Prop :=
  ∀ {s j i : ℕ}, nextState s (.t .lbracket) = some j → gotoOn j (ntCode .callElements) = some i → ∀ {rest : List Token},
    ahead rest = kindCode .rbracket → (act i (ahead rest)).isSome = true →
    (∀ (as : CallParts) (ts : List Token), Derives j (.n .callElements) (.call as) ts (callToks cs ++ rest) →
      Derives j (.n .callElements) (.call (appC as cs)) (ts ++ callToks cs) rest) ∧
    (FirstOK cs → Derives j (.n .callElements) (.call cs) (callToks cs) rest)

theorem wordKind_mem {w : List Char} (h : w ≠ "d".toList) : wordKind w ∈ wordKinds := by
  unfold wordKind
  cases hl : keywords.lookup w with
  | none => decide
  | some k =>
    have hm : ∃ p ∈ keywords, p.1 = w ∧ p.2 = k := by
      clear h
      generalize keywords = l at hl
      induction l with
      | nil => cases hl
      | cons p l ih =>
        obtain ⟨a, b⟩ := p
        rw [List.lookup_cons] at hl
        split at hl
        · rename_i hb
          exact ⟨(a, b), by simp, (beq_iff_eq.1 hb).symm, Option.some.inj hl⟩
        · obtain ⟨p, hp, h⟩ := ih hl
          exact ⟨p, by simp [hp], h⟩
    obtain ⟨p, hp, rfl, rfl⟩ := hm
    have : ∀ p ∈ keywords, p.1 = "d".toList ∨ p.2 ∈ wordKinds := by decide +kernel
    exact (this p hp).resolve_left h

theorem uses_word {xs : List Sym} {k : Kind} (hk : k ∈ wordKinds) (hxs : xs = [.t k] ∨ xs = [.n .callElements, .t k]) {s i : ℕ}
    (hg : gotoOn s (ntCode .callElements) = some i) : ∃ j, Uses s j .callElements xs .callElements fun a => a ∈ follow i := by
  have h1 : ∀ k ∈ wordKinds, hasRule .callElements [.t k] .callElements plainRule = true := by decide +kernel
  have h2 : ∀ k ∈ wordKinds, hasRule .callElements [.n .callElements, .t k] .callElements plainRule = true := by decide +kernel
  rcases hxs with rfl | rfl
  · exact uses_plain (h1 k hk) hg
  · exact uses_plain (h2 k hk) hg

/-- What can follow a part of a call. -/
theorem isSome_call {cs : CallParts} (hw : WrittenC cs) {j i : ℕ} (hg : gotoOn j (ntCode .callElements) = some i) {rest : List Token}
    (ha : (act i (ahead rest)).isSome = true) : (act i (ahead (callToks cs ++ rest))).isSome = true := by
  cases cs with
  | nil => exact ha
  | word w cs =>
    obtain ⟨_, hu⟩ := uses_word (wordKind_mem hw.1) (.inr rfl) hg
    have h := hu.walk
    simp only [walkTo_cons, walkTo_nil] at h
    obtain ⟨i', h1, _, h2, rfl⟩ := h
    have e1 := Option.some.inj (h1.symm.trans hg)
    subst e1
    exact isSome_of_next h2
  | arg e cs =>
    obtain ⟨k, hk, he⟩ := ahead_expr e hw.1
    obtain ⟨_, _, _, hx⟩ := call_context hg
    simp only [callToks, List.append_assoc, he]
    exact first_expr hx hk

/-- An argument is told apart from what follows. -/
theorem separate_ahead {e : Expr} {cs : CallParts} (hw : WrittenC (.arg e cs)) {rest : List Token} (hr : ahead rest = kindCode .rbracket) :
    ahead (callToks cs ++ rest) ≠ kindCode .plus ∧ ahead (callToks cs ++ rest) ≠ kindCode .minus ∧
      (opensDie e = true → ahead (callToks cs ++ rest) ≠ kindCode .dOp) ∧ (endsLiteral e = true → NoLiteral (ahead (callToks cs ++ rest))) ∧
      ∀ op, ahead (callToks cs ++ rest) ≠ kindCode (opFirst op) := by
  obtain ⟨_, hsep, hcs⟩ := hw
  have closed : ∀ k : Kind, Closes (kindCode k) → ahead (callToks cs ++ rest) = kindCode k →
      ahead (callToks cs ++ rest) ≠ kindCode .plus ∧ ahead (callToks cs ++ rest) ≠ kindCode .minus ∧
      (opensDie e = true → ahead (callToks cs ++ rest) ≠ kindCode .dOp) ∧ (endsLiteral e = true → NoLiteral (ahead (callToks cs ++ rest))) ∧
      ∀ op, ahead (callToks cs ++ rest) ≠ kindCode (opFirst op) := by
    intro k hc hk
    rw [hk]
    exact ⟨hc.1 .add, hc.1 .sub, fun _ => hc.2.1, fun _ => hc.2.2, hc.1⟩
  cases cs with
  | nil => exact closed .rbracket (closes_of (by decide)) hr
  | word w cs =>
    refine closed (wordKind w) (closes_of ?_) rfl
    have := wordKind_mem hcs.1
    revert this
    generalize wordKind w = k
    cases k <;> decide
  | arg f cs =>
    obtain ⟨k, hk, hf⟩ := ahead_expr f hcs.1
    have hfirst : firstKind f = some k := by
      have h1 := hf []
      unfold firstKind
      cases ht : exprToks f with
      | nil => exact absurd ht (exprToks_ne_nil f hcs.1)
      | cons t ts =>
        rw [ht] at h1
        simp only [List.head?_cons, Option.map_some]
        exact congrArg some (kindCode_inj h1)
    obtain ⟨h1, h2, h3, h4⟩ : Separate e (firstKind f) := hsep
    rw [hfirst] at h1 h2 h3 h4
    simp only [callToks, List.append_assoc, hf]
    have hne : ∀ {q : Kind}, (some k : Option Kind) ≠ some q → kindCode k ≠ kindCode q := fun h e => h (congrArg some (kindCode_inj e))
    refine ⟨hne h1, hne h2, fun hd => hne (h3 hd), fun hd q hq => hne (h4 hd q hq), fun op hop => ?_⟩
    have hk' := kindCode_inj hop
    subst hk'
    revert hk h1 h2
    cases op <;> decide

theorem call_nil : CallClaim .nil := by
  intro s j i _ _ rest _ _
  exact ⟨fun as ts h => by simpa [callToks, appC_nil] using h, fun h => h.elim⟩

theorem call_word {w : List Char} {cs : CallParts} (hw : WrittenC (.word w cs)) (h : CallClaim cs) : CallClaim (.word w cs) := by
  intro s j i hn hg rest hr ha
  have hk := wordKind_mem hw.1
  obtain ⟨ih, _⟩ := h hn hg hr ha
  have hs := isSome_call hw.2 hg ha
  constructor
  · intro as ts hd
    obtain ⟨_, hu⟩ := uses_word hk (.inr rfl) hg
    have hwalk := hu.walk
    simp only [walkTo_cons, walkTo_nil] at hwalk
    obtain ⟨_, h1, _, h2, rfl⟩ := hwalk
    have := hu.make (rest := callToks cs ++ rest) (v := .call (addWord as w)) (mem_follow hs)
      (.cons (ts' := [wordTok w]) (by simpa [callToks] using hd) h1 (derivesL_last (w := w) h2)) rfl
    have := ih _ _ this
    rw [addWord_eq, appC_assoc] at this
    simpa [callToks, appC] using this
  · intro _
    obtain ⟨_, hu⟩ := uses_word hk (.inl rfl) hg
    have hwalk := hu.walk
    simp only [walkTo_cons, walkTo_nil] at hwalk
    obtain ⟨_, h1, rfl⟩ := hwalk
    have := hu.make (rest := callToks cs ++ rest) (v := .call (.word w .nil)) (mem_follow hs) (derivesL_last (w := w) h1) rfl
    have := ih _ _ this
    simpa [callToks, appC, wordTok] using this

theorem arg_first {e : Expr} (h : FirstOK (.arg e .nil)) : pCallElementsExpr [.expr e] = .ok (.call (.arg e .nil)) := by
  cases e <;> first | rfl | exact absurd h id

theorem call_arg {e : Expr} {cs : CallParts} (hw : WrittenC (.arg e cs)) (he : ExprClaim e) (h : CallClaim cs) : CallClaim (.arg e cs) := by
  intro s j i hn hg rest hr ha
  obtain ⟨ih, _⟩ := h hn hg hr ha
  have hs := isSome_call hw.2.2 hg ha
  obtain ⟨a1, a2, a3, a4, a5⟩ := separate_ahead hw hr
  have hm : ahead (callToks cs ++ rest) ∈ (follow i).filter fun a => a != kindCode .plus && a != kindCode .minus :=
    List.mem_filter.2 ⟨mem_follow hs, by simp [a1, a2]⟩
  -- the argument, in any state where parts are read
  have harg : ∀ {s' i' : ℕ}, fine s' = true → opensExpr s' = true → gotoOn s' (ntCode .expression) = some i' →
      (act i' (ahead (callToks cs ++ rest))).isSome = true → Derives s' (.n .expression) (.expr e) (exprToks e) (callToks cs ++ rest) := by
    intro s' i' hf ho hx hsome
    obtain ⟨t, ht⟩ := goto_term hx
    refine he hx hsome ?_ a3 a4 fun hst => ?_
    · cases e <;> first | trivial | exact ⟨fun op2 h => absurd h (a5 op2), shifts_of_opens ho hx _⟩
    · obtain ⟨ps, rfl⟩ := hst
      obtain ⟨_, hu⟩ := uses_term hx
      have hwalk := hu.walk
      simp only [walkTo_cons, walkTo_nil] at hwalk
      obtain ⟨_, h1, rfl⟩ := hwalk
      have e1 := Option.some.inj (h1.symm.trans ht)
      subst e1
      exact strFine_of_fine hf ht (hu.some _ (List.mem_filter.2 ⟨mem_follow hsome, by simpa using a3 rfl⟩)) (a4 rfl)
  constructor
  · intro as ts hd
    obtain ⟨_, hu⟩ := uses_arg (xs := [.n .callElements, .n .expression]) (by decide +kernel) hg
    have hwalk := hu.walk
    simp only [walkTo_cons, walkTo_nil] at hwalk
    obtain ⟨i', h1, _, h2, rfl⟩ := hwalk
    have e1 := Option.some.inj (h1.symm.trans hg)
    subst e1
    obtain ⟨hf, ho, _⟩ := call_context hg
    have d := harg hf ho h2 (hu.some _ hm)
    have := hu.make (rest := callToks cs ++ rest) (v := .call (addArg as e)) hm
      (.cons (ts' := exprToks e) (by simpa [callToks] using hd) h1 (derivesL_one d h2)) rfl
    have := ih _ _ this
    rw [addArg_eq, appC_assoc] at this
    simpa [callToks, appC] using this
  · intro hfirst
    obtain ⟨_, hu⟩ := uses_arg (xs := [.n .expression]) (by decide +kernel) hg
    have hwalk := hu.walk
    simp only [walkTo_cons, walkTo_nil] at hwalk
    obtain ⟨_, h2, rfl⟩ := hwalk
    have d := harg (fine_after hn (by decide)) (opens_after hn (by decide)) h2 (hu.some _ hm)
    have hf : FirstOK (.arg e .nil) := by cases e <;> trivial
    have := hu.make (rest := callToks cs ++ rest) (v := .call (.arg e .nil)) hm (derivesL_one d h2) (arg_first hf)
    have := ih _ _ this
    simpa [callToks, appC] using this

theorem term_call {cs : CallParts} (hf : FirstOK cs) (h : CallClaim cs) : TermClaim (.call cs) := by
  intro s i rest hg ha _ _
  obtain ⟨_, hu⟩ := uses_plain (xs := [.t .lbracket, .n .callElements, .t .rbracket]) (f := .termCall) (by decide +kernel) hg
  have hw := hu.walk
  simp only [walkTo_cons, walkTo_nil] at hw
  obtain ⟨_, h1, _, h2, _, h3, rfl⟩ := hw
  have d := (h h1 h2 (rest := tok .rbracket "]" :: rest) rfl (isSome_of_next h3)).2 hf
  exact hu.make (mem_follow ha) (derivesL_tok h1 (.cons d h2 (derivesL_last h3))) rfl

/-! ## All expressions -/

mutual

theorem expr_claims (e : Expr) (hw : Written e) : ExprClaim e ∧ (level e = 9 → TermClaim e) :=
  match e with
  | .num n => both_of_term rfl (term_num n)
  | .dec a b => both_of_term rfl (term_dec a b)
  | .var x => both_of_term rfl (term_var x)
  | .str _ => both_of_term rfl (term_str hw)
  | .group e => both_of_term rfl (term_group (expr_claims e hw).1)
  | .bin op l r => ⟨expr_bin hw.1 hw.2.1 (expr_claims l hw.2.2.1).1 (expr_claims r hw.2.2.2).1, fun h => by cases op <;> cases h⟩
  | .ndm l r => ⟨expr_ndm ((expr_claims l hw.2.2.1).2 hw.1) ((expr_claims r hw.2.2.2).2 hw.2.1), fun h => by cases h⟩
  | .dm r => ⟨expr_dm ((expr_claims r hw.2).2 hw.1), fun h => by cases h⟩
  | .unary _ e => both_of_term rfl (term_unary ((expr_claims e hw.2).2 hw.1))
  | .hash e => both_of_term rfl (term_hash ((expr_claims e hw.2).2 hw.1))
  | .seq es => both_of_term rfl (term_seq (elems_claims es hw))
  | .call cs => both_of_term rfl (term_call hw.1 (call_claims cs hw.2))

theorem elems_claims (es : Elems) (hw : WrittenE es) : ElemsClaim es :=
  match es with
  | .nil => elems_nil
  | .expr e es => elems_cons (v := .expr e) (vt := exprToks e) (elems_claims es hw.2)
      (fun as => ⟨_, addElem_expr as e, by rw [appE_assoc]; rfl⟩) (by simp [moreToks]) (by simp [elemToks])
      (element_expr (expr_claims e hw.1).1)
  | .range l r es => elems_cons (v := .range l r) (vt := exprToks l ++ tok .doubleDot ".." :: exprToks r) (elems_claims es hw.2.2)
      (fun as => ⟨_, addElem_range as l r, by rw [appE_assoc]; rfl⟩) (by simp [moreToks]) (by simp [elemToks])
      (element_range (expr_claims l hw.1).1 (expr_claims r hw.2.1).1)

theorem call_claims (cs : CallParts) (hw : WrittenC cs) : CallClaim cs :=
  match cs with
  | .nil => call_nil
  | .word _ cs => call_word hw (call_claims cs hw.2)
  | .arg e cs => call_arg hw (expr_claims e hw.1).1 (call_claims cs hw.2.2)

end

end PythonDice.Yacc
