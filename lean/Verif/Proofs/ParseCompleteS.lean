import Verif.Proofs.ParseCompleteC

/-!
# From trees as they are written to derivations: statements
-/

namespace PythonDice.Yacc

open Lexer (Kind Token)
open Compiler Spec

/-! ## Names of functions -/

/-- A part of the name of a function, with its rule. -/
theorem sig_part (d : DefPart) (ht : TypeOK d) {s i : ℕ} (hg : gotoOn s (ntCode .funcnameDef) = some i) {rest : List Token}
    (ha : (act i (ahead rest)).isSome = true) :
    Derives s (.n .funcnameDef) (.sig [d]) (defToks d) rest ∧
      ∀ (ds : List DefPart) (ts : List Token), Derives s (.n .funcnameDef) (.sig ds) ts (defToks d ++ rest) →
        Derives s (.n .funcnameDef) (.sig (ds ++ [d])) (ts ++ defToks d) rest := by
  cases d with
  | word w =>
    have hk : ∃ k f, wordTok w = ⟨k, w⟩ ∧ hasRule .funcnameDef [.t k] f plainRule = true ∧
        hasRule .funcnameDef [.n .funcnameDef, .t k] f plainRule = true ∧ f.run = pFuncnameDef := by
      by_cases hd : w = "d".toList
      · subst hd
        exact ⟨.dOp, .funcnameDefImpossibletocall, by decide +kernel, by decide +kernel, by decide +kernel, rfl⟩
      · have h1 : ∀ k ∈ wordKinds, hasRule .funcnameDef [.t k] .funcnameDef plainRule = true := by decide +kernel
        have h2 : ∀ k ∈ wordKinds, hasRule .funcnameDef [.n .funcnameDef, .t k] .funcnameDef plainRule = true := by decide +kernel
        exact ⟨wordKind w, .funcnameDef, rfl, h1 _ (wordKind_mem hd), h2 _ (wordKind_mem hd), rfl⟩
    obtain ⟨k, f, hw, r1, r2, hrun⟩ := hk
    simp only [defToks, hw]
    constructor
    · obtain ⟨_, hu⟩ := uses_plain r1 hg
      have hwalk := hu.walk
      simp only [walkTo_cons, walkTo_nil] at hwalk
      obtain ⟨_, h1, rfl⟩ := hwalk
      exact hu.make (mem_follow ha) (derivesL_last (w := w) h1) (by rw [hrun]; rfl)
    · intro ds ts hd
      obtain ⟨_, hu⟩ := uses_plain r2 hg
      have hwalk := hu.walk
      simp only [walkTo_cons, walkTo_nil] at hwalk
      obtain ⟨_, h1, _, h2, rfl⟩ := hwalk
      exact hu.make (mem_follow ha) (.cons hd h1 (derivesL_last (w := w) h2)) (by rw [hrun]; rfl)
  | param x =>
    simp only [defToks]
    constructor
    · obtain ⟨_, hu⟩ := uses_plain (xs := [.n .varName]) (f := .funcnameDefParam) (by decide +kernel) hg
      have hwalk := hu.walk
      simp only [walkTo_cons, walkTo_nil] at hwalk
      obtain ⟨_, h1, rfl⟩ := hwalk
      exact hu.make (mem_follow ha) (derivesL_one (derives_varName h1 x (hu.some _ (mem_follow ha))) h1) rfl
    · intro ds ts hd
      obtain ⟨_, hu⟩ := uses_plain (xs := [.n .funcnameDef, .n .varName]) (f := .funcnameDefParam) (by decide +kernel) hg
      have hwalk := hu.walk
      simp only [walkTo_cons, walkTo_nil] at hwalk
      obtain ⟨_, h1, _, h2, rfl⟩ := hwalk
      exact hu.make (mem_follow ha) (.cons hd h1 (derivesL_one (derives_varName h2 x (hu.some _ (mem_follow ha))) h2)) rfl
  | typed x t =>
    have hk : ∃ k, wordTok t = ⟨k, t⟩ ∧ hasRule .funcnameDef [.n .varName, .t .colon, .t k] .funcnameDefParam plainRule = true ∧
        hasRule .funcnameDef [.n .funcnameDef, .n .varName, .t .colon, .t k] .funcnameDefParam plainRule = true := by
      rcases ht with rfl | h
      · exact ⟨.dOp, by decide +kernel, by decide +kernel, by decide +kernel⟩
      · exact ⟨.lowername, by simp [wordTok, h], by decide +kernel, by decide +kernel⟩
    obtain ⟨k, hw, r1, r2⟩ := hk
    simp only [defToks, hw]
    constructor
    · obtain ⟨_, hu⟩ := uses_plain r1 hg
      have hwalk := hu.walk
      simp only [walkTo_cons, walkTo_nil] at hwalk
      obtain ⟨_, h1, _, h2, _, h3, rfl⟩ := hwalk
      have d := derives_varName h1 x (rest := tok .colon ":" :: ⟨k, t⟩ :: rest) (isSome_of_next h2)
      exact hu.make (mem_follow ha) (.cons (ts := [varTok x]) (ts' := [tok .colon ":", ⟨k, t⟩]) (by simpa using d) h1
        (derivesL_tok (w := ":".toList) h2 (derivesL_last (w := t) h3))) rfl
    · intro ds ts hd
      obtain ⟨_, hu⟩ := uses_plain r2 hg
      have hwalk := hu.walk
      simp only [walkTo_cons, walkTo_nil] at hwalk
      obtain ⟨_, h0, _, h1, _, h2, _, h3, rfl⟩ := hwalk
      have d := derives_varName h1 x (rest := tok .colon ":" :: ⟨k, t⟩ :: rest) (isSome_of_next h2)
      exact hu.make (mem_follow ha)
        (.cons hd h0 (.cons (ts := [varTok x]) (ts' := [tok .colon ":", ⟨k, t⟩]) (by simpa using d) h1
          (derivesL_tok (w := ":".toList) h2 (derivesL_last (w := t) h3)))) rfl

/-- What can follow a part of a name. -/
theorem isSome_sig (ds : List DefPart) {s i : ℕ} (hg : gotoOn s (ntCode .funcnameDef) = some i) {rest : List Token}
    (ha : (act i (ahead rest)).isSome = true) : (act i (ahead (sigToks ds ++ rest))).isSome = true := by
  have hvar : (act i (kindCode .uppername)).isSome = true := by
    obtain ⟨_, hu⟩ := uses_plain (xs := [.n .funcnameDef, .n .varName]) (f := .funcnameDefParam) (by decide +kernel) hg
    have hwalk := hu.walk
    simp only [walkTo_cons, walkTo_nil] at hwalk
    obtain ⟨_, h1, _, h2, rfl⟩ := hwalk
    have e1 := Option.some.inj (h1.symm.trans hg)
    subst e1
    obtain ⟨_, hu⟩ := uses_plain (xs := [.t .uppername]) (f := .varName) (by decide +kernel) h2
    have hwalk := hu.walk
    simp only [walkTo_cons, walkTo_nil] at hwalk
    obtain ⟨_, h3, rfl⟩ := hwalk
    exact isSome_of_next h3
  cases ds with
  | nil => exact ha
  | cons d ds =>
    cases d with
    | word w =>
      have h1 : ∀ k ∈ wordKinds, hasRule .funcnameDef [.n .funcnameDef, .t k] .funcnameDef plainRule = true := by decide +kernel
      have core : ∀ k f, hasRule .funcnameDef [.n .funcnameDef, .t k] f plainRule = true → (act i (kindCode k)).isSome = true := by
        intro k f hr
        obtain ⟨_, hu⟩ := uses_plain hr hg
        have hwalk := hu.walk
        simp only [walkTo_cons, walkTo_nil] at hwalk
        obtain ⟨_, h1, _, h2, rfl⟩ := hwalk
        have e1 := Option.some.inj (h1.symm.trans hg)
        subst e1
        exact isSome_of_next h2
      by_cases hd : w = "d".toList
      · subst hd
        have : wordKind "d".toList = .dOp := by decide +kernel
        have h := core .dOp .funcnameDefImpossibletocall (by decide +kernel)
        rw [← this] at h
        exact h
      · exact core (wordKind w) .funcnameDef (h1 _ (wordKind_mem hd))
    | param x => exact hvar
    | typed x t => exact hvar

theorem derives_sig_more {s i : ℕ} (hg : gotoOn s (ntCode .funcnameDef) = some i) {rest : List Token}
    (ha : (act i (ahead rest)).isSome = true) (es : List DefPart) : ∀ (ds : List DefPart) (ts : List Token), (∀ d ∈ es, TypeOK d) →
    Derives s (.n .funcnameDef) (.sig ds) ts (sigToks es ++ rest) → Derives s (.n .funcnameDef) (.sig (ds ++ es)) (ts ++ sigToks es) rest := by
  induction es with
  | nil => intro ds ts _ h; simpa [sigToks] using h
  | cons e es ih =>
    intro ds ts ht h
    have h2 := (sig_part e (ht e (by simp)) hg (isSome_sig es hg ha)).2 ds ts (by simpa [sigToks] using h)
    simpa [sigToks] using ih _ _ (fun d hd => ht d (by simp [hd])) h2

theorem derives_sig {s i : ℕ} (hg : gotoOn s (ntCode .funcnameDef) = some i) {rest : List Token}
    (ha : (act i (ahead rest)).isSome = true) {ds : List DefPart} (hne : ds ≠ []) (ht : ∀ d ∈ ds, TypeOK d) :
    Derives s (.n .funcnameDef) (.sig ds) (sigToks ds) rest := by
  cases ds with
  | nil => exact absurd rfl hne
  | cons d ds =>
    have h := (sig_part d (ht d (by simp)) hg (isSome_sig ds hg ha)).1
    simpa [sigToks] using derives_sig_more hg ha ds [d] (defToks d) (fun d hd => ht d (by simp [hd])) h

/-! ## Statements -/

/-- What follows a statement. -/
def EndsStmt (a : ℕ) : Prop := a = endCode ∨ a = kindCode .rbrace ∨ ∃ k ∈ stmtFirst, a = kindCode k

theorem EndsStmt.closes {a : ℕ} (h : EndsStmt a) : Closes a := by
  rcases h with rfl | rfl | ⟨k, hk, rfl⟩
  · exact closes_of (by decide)
  · exact closes_of (by decide)
  · refine closes_of ?_
    revert hk
    cases k <;> decide

/-- After a statement its ends are expected. -/
def endsOK (s : ℕ) : Bool :=
  match gotoOn s (ntCode .singleCode) with
  | some i => (act i endCode).isSome && (act i (kindCode .rbrace)).isSome && stmtFirst.all fun k => (act i (kindCode k)).isSome
  | none => true

theorem endsOK_all : ∀ s < 183, endsOK s = true := by decide +kernel

theorem isSome_ends {s i : ℕ} (hg : gotoOn s (ntCode .singleCode) = some i) {a : ℕ} (h : EndsStmt a) : (act i a).isSome = true := by
  have hc := endsOK_all s (gotoOn_lt hg)
  unfold endsOK at hc
  rw [hg] at hc
  simp only [Bool.and_eq_true, List.all_eq_true] at hc
  rcases h with rfl | rfl | ⟨k, hk, rfl⟩
  · exact hc.1.1
  · exact hc.1.2
  · exact hc.2 k hk

/-- A statement where one can be. -/
def StmtClaim (st : Stmt) : Prop :=
  ∀ {s i : ℕ} {rest : List Token}, gotoOn s (ntCode .singleCode) = some i → EndsStmt (ahead rest) →
    Derives s (.n .singleCode) (.stmt st) (stmtToks st) rest

/-- An expression before the end of a statement. -/
theorem expr_end {e : Expr} (hw : Written e) {s j i : ℕ} {k : Kind} (hk : k ∈ openers) (hto : k ≠ .to) (hn : nextState s (.t k) = some j)
    (hg : gotoOn j (ntCode .expression) = some i) {rest : List Token} (ha : (act i (ahead rest)).isSome = true) (hc : Closes (ahead rest)) :
    Derives j (.n .expression) (.expr e) (exprToks e) rest :=
  ExprClaim.between (expr_claims e hw).1 hk hto hn hg ha hc.1 hc.2.1 hc.2.2

theorem stmt_output {e : Expr} (hw : Written e) : StmtClaim (.output e) := by
  intro s i rest hg he
  have ha := mem_follow (isSome_ends hg he)
  obtain ⟨_, hu⟩ := uses_plain (xs := [.t .output, .n .expression]) (f := .singleCode) (by decide +kernel) hg
  have hwalk := hu.walk
  simp only [walkTo_cons, walkTo_nil] at hwalk
  obtain ⟨_, h1, _, h2, rfl⟩ := hwalk
  exact hu.make ha (derivesL_tok h1 (derivesL_one (expr_end hw (by decide) (by decide) h1 h2 (hu.some _ ha) he.closes) h2)) rfl

theorem stmt_outputNamed {e : Expr} {n : List StrPart} (hw : Written e) (hn : n ≠ []) : StmtClaim (.outputNamed e n) := by
  intro s i rest hg he
  have ha := mem_follow (isSome_ends hg he)
  obtain ⟨_, hu⟩ := uses_plain (xs := [.t .output, .n .expression, .t .named, .n .string]) (f := .singleCode) (by decide +kernel) hg
  have hwalk := hu.walk
  simp only [walkTo_cons, walkTo_nil] at hwalk
  obtain ⟨_, h1, _, h2, _, h3, _, h4, rfl⟩ := hwalk
  have d1 := expr_end hw (by decide) (by decide) h1 h2 (rest := tok .named "named" :: (strToks n ++ rest)) (isSome_of_next h3)
    (closes_of (by decide : ∀ k ∈ _, kindCode .named ≠ _))
  have d2 := derives_string h4 (hu.some _ ha) hn
  exact hu.make ha (derivesL_tok h1 (.cons (by simpa using d1) h2 (derivesL_tok h3 (derivesL_one d2 h4)))) rfl

theorem stmt_result {e : Expr} (hw : Written e) : StmtClaim (.result e) := by
  intro s i rest hg he
  have ha := mem_follow (isSome_ends hg he)
  obtain ⟨_, hu⟩ := uses_plain (xs := [.t .result, .t .colon, .n .expression]) (f := .singleCode) (by decide +kernel) hg
  have hwalk := hu.walk
  simp only [walkTo_cons, walkTo_nil] at hwalk
  obtain ⟨_, h1, _, h2, _, h3, rfl⟩ := hwalk
  exact hu.make ha
    (derivesL_tok h1 (derivesL_tok h2 (derivesL_one (expr_end hw (by decide) (by decide) h2 h3 (hu.some _ ha) he.closes) h3))) rfl

theorem stmt_assign {x : List Char} {e : Expr} (hw : Written e) : StmtClaim (.assign x e) := by
  intro s i rest hg he
  have ha := mem_follow (isSome_ends hg he)
  obtain ⟨_, hu⟩ := uses_plain (xs := [.n .varName, .t .colon, .n .expression]) (f := .varAssign) (by decide +kernel) hg
  have hwalk := hu.walk
  simp only [walkTo_cons, walkTo_nil] at hwalk
  obtain ⟨_, h1, _, h2, _, h3, rfl⟩ := hwalk
  have d1 := derives_varName h1 x (rest := tok .colon ":" :: (exprToks e ++ rest)) (isSome_of_next h2)
  exact hu.make ha
    (.cons (ts := [varTok x]) (by simpa using d1) h1
      (derivesL_tok h2 (derivesL_one (expr_end hw (by decide) (by decide) h2 h3 (hu.some _ ha) he.closes) h3))) rfl

theorem stmt_set {n : List StrPart} {v : Expr} (hn : n ≠ []) (hw : Written v) : StmtClaim (.set n v) := by
  intro s i rest hg he
  have ha := mem_follow (isSome_ends hg he)
  have hc := he.closes
  by_cases hs : ∃ ps, v = .str ps
  · obtain ⟨ps, rfl⟩ := hs
    obtain ⟨_, hu⟩ := uses_plain (xs := [.t .set, .n .string, .t .to, .n .string]) (f := .singleCode) (by decide +kernel) hg
    have hwalk := hu.walk
    simp only [walkTo_cons, walkTo_nil] at hwalk
    obtain ⟨_, h1, _, h2, _, h3, _, h4, rfl⟩ := hwalk
    have d1 := derives_string h2 (rest := tok .to "to" :: (strToks ps ++ rest)) (isSome_of_next h3) hn
    have d2 := derives_string h4 (hu.some _ ha) hw
    exact hu.make ha (derivesL_tok h1 (.cons (by simpa [exprToks] using d1) h2 (derivesL_tok h3 (derivesL_one d2 h4)))) rfl
  · obtain ⟨_, hu⟩ := uses_plain (xs := [.t .set, .n .string, .t .to, .n .expression]) (f := .singleCode) (by decide +kernel) hg
    have hwalk := hu.walk
    simp only [walkTo_cons, walkTo_nil] at hwalk
    obtain ⟨_, h1, _, h2, j, h3, _, h4, rfl⟩ := hwalk
    have d1 := derives_string h2 (rest := tok .to "to" :: (exprToks v ++ rest)) (isSome_of_next h3) hn
    have d2 : Derives j (.n .expression) (.expr v) (exprToks v) rest := by
      refine (expr_claims v hw).1 h4 (hu.some _ ha) ?_ (fun _ => hc.2.1) (fun _ => hc.2.2) fun h => absurd h hs
      cases v <;> first | trivial | exact ⟨fun op2 h => absurd h (hc.1 op2), shifts_of_opens (opens_after h3 (by decide)) h4 _⟩
    refine hu.make ha (derivesL_tok h1 (.cons (by simpa using d1) h2 (derivesL_tok h3 (derivesL_one d2 h4)))) ?_
    cases v <;> rfl

/-! ## Blocks -/

/-- One block after the other. -/
def appB : Block → Block → Block
  | .nil, b => b
  | .cons s a, b => .cons s (appB a b)

theorem addStmt_eq (a : Block) (s : Stmt) : addStmt a s = appB a (.cons s .nil) := by
  induction a using Block.listInduction with
  | nil => rfl
  | cons _ _ ih => simp [addStmt, appB, ih]

theorem appB_assoc (a b c : Block) : appB (appB a b) c = appB a (appB b c) := by
  induction a using Block.listInduction with
  | nil => rfl
  | cons _ _ ih => simp [appB, ih]

theorem appB_nil (a : Block) : appB a .nil = a := by
  induction a using Block.listInduction with
  | nil => rfl
  | cons _ _ ih => simp [appB, ih]

/-- What follows a block, where one can be. -/
def EndsBlock (s : ℕ) (a : ℕ) : Prop := a = endCode ∧ s = 0 ∨ a = kindCode .rbrace ∧ s ≠ 0

theorem EndsBlock.ends {s a : ℕ} (h : EndsBlock s a) : EndsStmt a := by
  rcases h with ⟨rfl, _⟩ | ⟨rfl, _⟩
  · exact .inl rfl
  · exact .inr (.inl rfl)

/-- The empty rule. -/
def emptyRule : Option Rule := rules.find? fun r => r.func == .empty

/-- Blocks can be empty, and go on. -/
def blocksOK (s : ℕ) : Bool :=
  match gotoOn s (ntCode .multilineCode) with
  | some i =>
    let a := if s = 0 then endCode else kindCode .rbrace
    (act i a).isSome && reduceRule s a == emptyRule && (stmtFirst.all fun k => (act i (kindCode k)).isSome) &&
      (match walkTo s [.n .empty] with
        | some j => (match reduceRule j a with
          | some r => r.func == .multilineCodeEmpty && r.lhs == .multilineCode && r.rhs == [.n .empty]
          | none => false)
        | none => false)
  | none => true

theorem blocksOK_all : ∀ s < 183, blocksOK s = true := by decide +kernel

theorem emptyRule_shape : emptyRule.all (fun r => r.lhs == .empty && r.rhs == [] && r.func == .empty) = true ∧ emptyRule.isSome = true := by
  decide +kernel

theorem block_empty {s i : ℕ} (hg : gotoOn s (ntCode .multilineCode) = some i) {rest : List Token} (he : EndsBlock s (ahead rest)) :
    Derives s (.n .multilineCode) (.block .nil) [] rest := by
  have hc := blocksOK_all s (gotoOn_lt hg)
  unfold blocksOK at hc
  rw [hg] at hc
  have ha : (if s = 0 then endCode else kindCode .rbrace) = ahead rest := by
    rcases he with ⟨h1, h2⟩ | ⟨h1, h2⟩
    · simp [h1, h2]
    · simp [h1, h2]
  simp only [ha, Bool.and_eq_true] at hc
  obtain ⟨⟨⟨_, h1⟩, _⟩, h2⟩ := hc
  obtain ⟨r, hr⟩ := Option.isSome_iff_exists.1 emptyRule_shape.2
  have hs := emptyRule_shape.1
  rw [hr] at hs h1
  simp only [Option.all_some, Bool.and_eq_true, beq_iff_eq] at hs h1
  have d1 : Derives s (.n .empty) .none [] rest := by
    have := derives_mk (s := s) (ts := []) (vs := []) (v := .none) h1 (by rw [hs.1.2]; exact .nil s rest) (by rw [hs.2]; rfl)
    rw [hs.1.1] at this
    exact this
  split at h2
  · rename_i j hj
    split at h2
    · rename_i r' hr'
      simp only [Bool.and_eq_true, beq_iff_eq] at h2
      have := derives_mk (s := s) (ts := []) (vs := [.none]) (v := .block .nil) hr'
        (by
          rw [h2.2]
          simp only [walkTo_cons, walkTo_nil] at hj
          obtain ⟨_, h3, rfl⟩ := hj
          exact derivesL_one d1 h3) (by rw [h2.1.1]; rfl)
      rw [h2.1.2] at this
      exact this
    · cases h2
  · cases h2

theorem first_block {s i : ℕ} (hg : gotoOn s (ntCode .multilineCode) = some i) {k : Kind} (hk : k ∈ stmtFirst) :
    (act i (kindCode k)).isSome = true := by
  have hc := blocksOK_all s (gotoOn_lt hg)
  unfold blocksOK at hc
  rw [hg] at hc
  simp only [Bool.and_eq_true, List.all_eq_true] at hc
  exact hc.1.2 k hk

theorem isSome_block {s i : ℕ} (hg : gotoOn s (ntCode .multilineCode) = some i) {a : ℕ} (he : EndsBlock s a) : (act i a).isSome = true := by
  have hc := blocksOK_all s (gotoOn_lt hg)
  unfold blocksOK at hc
  rw [hg] at hc
  simp only [Bool.and_eq_true] at hc
  have h := hc.1.1.1
  rcases he with ⟨rfl, h2⟩ | ⟨rfl, h2⟩ <;> simpa [h2] using h

/-- A block, all of it or what is after some statements. -/
def BlockClaim (b : Block) : Prop :=
  ∀ {s i : ℕ}, gotoOn s (ntCode .multilineCode) = some i → ∀ {rest : List Token}, EndsBlock s (ahead rest) →
    (∀ (a : Block) (ts : List Token), Derives s (.n .multilineCode) (.block a) ts (blockToks b ++ rest) →
      Derives s (.n .multilineCode) (.block (appB a b)) (ts ++ blockToks b) rest) ∧
    Derives s (.n .multilineCode) (.block b) (blockToks b) rest

theorem ahead_stmt (st : Stmt) : ∃ k ∈ stmtFirst, ∀ rest, ahead (stmtToks st ++ rest) = kindCode k := by
  cases st with
  | output => exact ⟨.output, by decide, fun _ => rfl⟩
  | outputNamed => exact ⟨.output, by decide, fun _ => rfl⟩
  | set => exact ⟨.set, by decide, fun _ => rfl⟩
  | function => exact ⟨.function, by decide, fun _ => rfl⟩
  | result => exact ⟨.result, by decide, fun _ => rfl⟩
  | cond => exact ⟨.if_, by decide, fun _ => rfl⟩
  | loop => exact ⟨.loop, by decide, fun _ => rfl⟩
  | assign => exact ⟨.uppername, by decide, fun _ => rfl⟩

theorem ends_block {s : ℕ} (b : Block) {rest : List Token} (he : EndsBlock s (ahead rest)) : EndsStmt (ahead (blockToks b ++ rest)) := by
  cases b with
  | nil => exact he.ends
  | cons st b =>
    obtain ⟨k, hk, h⟩ := ahead_stmt st
    exact .inr (.inr ⟨k, hk, by simp only [blockToks, List.append_assoc, h]⟩)

theorem some_block {s i : ℕ} (hg : gotoOn s (ntCode .multilineCode) = some i) (b : Block) {rest : List Token} (he : EndsBlock s (ahead rest)) :
    (act i (ahead (blockToks b ++ rest))).isSome = true := by
  cases b with
  | nil => exact isSome_block hg he
  | cons st b =>
    obtain ⟨k, hk, h⟩ := ahead_stmt st
    simp only [blockToks, List.append_assoc, h]
    exact first_block hg hk

theorem block_nil : BlockClaim .nil := by
  intro s i hg rest he
  exact ⟨fun a ts h => by simpa [blockToks, appB_nil] using h, block_empty hg he⟩

theorem block_cons {st : Stmt} {b : Block} (hs : StmtClaim st) (h : BlockClaim b) : BlockClaim (.cons st b) := by
  intro s i hg rest he
  obtain ⟨ih, _⟩ := h hg he
  have hf := mem_follow (some_block hg b he)
  constructor
  · intro a ts hd
    obtain ⟨_, hu⟩ := uses_plain (xs := [.n .multilineCode, .n .singleCode]) (f := .multilineCode) (by decide +kernel) hg
    have hwalk := hu.walk
    simp only [walkTo_cons, walkTo_nil] at hwalk
    obtain ⟨_, h1, _, h2, rfl⟩ := hwalk
    have d := hs h2 (ends_block b he)
    have := hu.make (rest := blockToks b ++ rest) (v := .block (addStmt a st)) hf
      (.cons (ts' := stmtToks st) (by simpa [blockToks] using hd) h1 (derivesL_one d h2)) rfl
    have := ih _ _ this
    rw [addStmt_eq, appB_assoc] at this
    simpa [blockToks, appB] using this
  · obtain ⟨_, hu⟩ := uses_plain (xs := [.n .singleCode]) (f := .multilineCode) (by decide +kernel) hg
    have hwalk := hu.walk
    simp only [walkTo_cons, walkTo_nil] at hwalk
    obtain ⟨_, h2, rfl⟩ := hwalk
    have d := hs h2 (ends_block b he)
    have := hu.make (rest := blockToks b ++ rest) (v := .block (.cons st .nil)) hf (derivesL_one d h2) rfl
    have := ih _ _ this
    simpa [blockToks, appB] using this

/-- No transition leads to the start. -/
theorem next_ne_zero {s j : ℕ} {x : Sym} (h : nextState s x = some j) : j ≠ 0 := no_transition_to_start _ (mem_transitions h)

/-- A block in braces. -/
theorem block_braces {b : Block} (h : BlockClaim b) {s j i : ℕ} (hn : nextState s (.t .lbrace) = some j)
    (hg : gotoOn j (ntCode .multilineCode) = some i) {rest : List Token} :
    Derives j (.n .multilineCode) (.block b) (blockToks b) (tok .rbrace "}" :: rest) :=
  (h hg (.inr ⟨rfl, next_ne_zero hn⟩)).2

theorem closes_lbrace : Closes (kindCode .lbrace) := closes_of (by decide)

theorem stmt_function {ds : List DefPart} {b : Block} (hd : ds ≠ []) (ht : ∀ d ∈ ds, TypeOK d) (h : BlockClaim b) :
    StmtClaim (.function ds b) := by
  intro s i rest hg he
  have ha := mem_follow (isSome_ends hg he)
  obtain ⟨_, hu⟩ := uses_plain (xs := [.t .function, .t .colon, .n .funcnameDef, .t .lbrace, .n .multilineCode, .t .rbrace])
    (f := .singleCode) (by decide +kernel) hg
  have hwalk := hu.walk
  simp only [walkTo_cons, walkTo_nil] at hwalk
  obtain ⟨_, h1, _, h2, _, h3, _, h4, _, h5, _, h6, rfl⟩ := hwalk
  have d1 := derives_sig h3 (rest := tok .lbrace "{" :: (blockToks b ++ tok .rbrace "}" :: rest)) (isSome_of_next h4) hd ht
  have d2 := block_braces h h4 h5 (rest := rest)
  have := hu.make ha (derivesL_tok (w := "function".toList) h1 (derivesL_tok (w := ":".toList) h2
    (.cons (ts := sigToks ds) (ts' := tok .lbrace "{" :: (blockToks b ++ [tok .rbrace "}"])) (by simpa using d1) h3
      (derivesL_tok (w := "{".toList) h4 (.cons d2 h5 (derivesL_last (w := "}".toList) h6)))))) (v := .stmt (.function ds b)) rfl
  simpa [stmtToks, tok] using this

theorem stmt_loop {x : List Char} {e : Expr} {b : Block} (hw : Written e) (h : BlockClaim b) : StmtClaim (.loop x e b) := by
  intro s i rest hg he
  have ha := mem_follow (isSome_ends hg he)
  obtain ⟨_, hu⟩ := uses_plain (xs := [.t .loop, .n .varName, .t .over, .n .expression, .t .lbrace, .n .multilineCode, .t .rbrace])
    (f := .singleCode) (by decide +kernel) hg
  have hwalk := hu.walk
  simp only [walkTo_cons, walkTo_nil] at hwalk
  obtain ⟨_, h1, _, h2, _, h3, _, h4, _, h5, _, h6, _, h7, rfl⟩ := hwalk
  have d1 := derives_varName h2 x (rest := tok .over "over" :: (exprToks e ++ tok .lbrace "{" :: (blockToks b ++ tok .rbrace "}" :: rest)))
    (isSome_of_next h3)
  have d2 := expr_end hw (by decide) (by decide) h3 h4 (rest := tok .lbrace "{" :: (blockToks b ++ tok .rbrace "}" :: rest)) (isSome_of_next h5)
    closes_lbrace
  have d3 := block_braces h h5 h6 (rest := rest)
  have := hu.make ha (derivesL_tok (w := "loop".toList) h1
    (.cons (ts := [varTok x]) (ts' := tok .over "over" :: (exprToks e ++ tok .lbrace "{" :: (blockToks b ++ [tok .rbrace "}"])))
      (by simpa using d1) h2 (derivesL_tok (w := "over".toList) h3
        (.cons (ts' := tok .lbrace "{" :: (blockToks b ++ [tok .rbrace "}"])) (by simpa using d2) h4
          (derivesL_tok (w := "{".toList) h5 (.cons d3 h6 (derivesL_last (w := "}".toList) h7))))))) (v := .stmt (.loop x e b)) rfl
  simpa [stmtToks, tok] using this

/-! ## Alternatives -/

/-- The tokens of an `if`. -/
def ifToks (c : Expr) (b : Block) : List Token := tok .if_ "if" :: exprToks c ++ tok .lbrace "{" :: blockToks b ++ [tok .rbrace "}"]

theorem derives_if {c : Expr} {b : Block} (hc : Written c) (h : BlockClaim b) {s i : ℕ} (hg : gotoOn s (ntCode .ifExpr) = some i)
    {rest : List Token} (ha : (act i (ahead rest)).isSome = true) : Derives s (.n .ifExpr) (.branches [.if_ c b]) (ifToks c b) rest := by
  obtain ⟨_, hu⟩ := uses_plain (xs := [.t .if_, .n .expression, .t .lbrace, .n .multilineCode, .t .rbrace]) (f := .if_) (by decide +kernel) hg
  have hwalk := hu.walk
  simp only [walkTo_cons, walkTo_nil] at hwalk
  obtain ⟨_, h1, _, h2, _, h3, _, h4, _, h5, rfl⟩ := hwalk
  have d2 := expr_end hc (by decide) (by decide) h1 h2 (rest := tok .lbrace "{" :: (blockToks b ++ tok .rbrace "}" :: rest)) (isSome_of_next h3)
    closes_lbrace
  have d3 := block_braces h h3 h4 (rest := rest)
  have := hu.make (mem_follow ha) (derivesL_tok (w := "if".toList) h1
    (.cons (ts' := tok .lbrace "{" :: (blockToks b ++ [tok .rbrace "}"])) (by simpa using d2) h2
      (derivesL_tok (w := "{".toList) h3 (.cons d3 h4 (derivesL_last (w := "}".toList) h5))))) (v := .branches [.if_ c b]) rfl
  simpa [ifToks, tok] using this

theorem derives_else {b : Block} (h : BlockClaim b) {s i : ℕ} (hg : gotoOn s (ntCode .elseExpr) = some i)
    {rest : List Token} (ha : (act i (ahead rest)).isSome = true) :
    Derives s (.n .elseExpr) (.branches [.else_ b]) (elseToks (.else_ b)) rest := by
  obtain ⟨_, hu⟩ := uses_plain (xs := [.t .else_, .t .lbrace, .n .multilineCode, .t .rbrace]) (f := .else_) (by decide +kernel) hg
  have hwalk := hu.walk
  simp only [walkTo_cons, walkTo_nil] at hwalk
  obtain ⟨_, h1, _, h3, _, h4, _, h5, rfl⟩ := hwalk
  have d3 := block_braces h h3 h4 (rest := rest)
  have := hu.make (mem_follow ha) (derivesL_tok (w := "else".toList) h1
      (derivesL_tok (w := "{".toList) h3 (.cons d3 h4 (derivesL_last (w := "}".toList) h5)))) (v := .branches [.else_ b]) rfl
  simpa [elseToks, tok] using this

theorem derives_elif {c : Expr} {b : Block} (hc : Written c) (h : BlockClaim b) {s i : ℕ} (hg : gotoOn s (ntCode .elseifExpr) = some i)
    {rest : List Token} (ha : (act i (ahead rest)).isSome = true) :
    Derives s (.n .elseifExpr) (.branches [.elseif c b]) (elifToks (c, b)) rest ∧
      ∀ (bs : List Branch) (ts : List Token), Derives s (.n .elseifExpr) (.branches bs) ts (elifToks (c, b) ++ rest) →
        Derives s (.n .elseifExpr) (.branches (bs ++ [.elseif c b])) (ts ++ elifToks (c, b)) rest := by
  constructor
  · obtain ⟨_, hu⟩ := uses_plain (xs := [.t .else_, .t .if_, .n .expression, .t .lbrace, .n .multilineCode, .t .rbrace]) (f := .elif)
      (by decide +kernel) hg
    have hwalk := hu.walk
    simp only [walkTo_cons, walkTo_nil] at hwalk
    obtain ⟨_, h0, _, h1, _, h2, _, h3, _, h4, _, h5, rfl⟩ := hwalk
    have d2 := expr_end hc (by decide) (by decide) h1 h2 (rest := tok .lbrace "{" :: (blockToks b ++ tok .rbrace "}" :: rest)) (isSome_of_next h3)
      closes_lbrace
    have d3 := block_braces h h3 h4 (rest := rest)
    have := hu.make (mem_follow ha) (derivesL_tok (w := "else".toList) h0 (derivesL_tok (w := "if".toList) h1
      (.cons (ts' := tok .lbrace "{" :: (blockToks b ++ [tok .rbrace "}"])) (by simpa using d2) h2
        (derivesL_tok (w := "{".toList) h3 (.cons d3 h4 (derivesL_last (w := "}".toList) h5)))))) (v := .branches [.elseif c b]) rfl
    simpa [elifToks, tok] using this
  · intro bs ts hd
    obtain ⟨_, hu⟩ := uses_plain (xs := [.n .elseifExpr, .t .else_, .t .if_, .n .expression, .t .lbrace, .n .multilineCode, .t .rbrace])
      (f := .elif) (by decide +kernel) hg
    have hwalk := hu.walk
    simp only [walkTo_cons, walkTo_nil] at hwalk
    obtain ⟨_, h0', _, h0, _, h1, _, h2, _, h3, _, h4, _, h5, rfl⟩ := hwalk
    have d2 := expr_end hc (by decide) (by decide) h1 h2 (rest := tok .lbrace "{" :: (blockToks b ++ tok .rbrace "}" :: rest)) (isSome_of_next h3)
      closes_lbrace
    have d3 := block_braces h h3 h4 (rest := rest)
    have hl := derivesL_tok (w := "else".toList) h0 (derivesL_tok (w := "if".toList) h1
      (.cons (ts' := tok .lbrace "{" :: (blockToks b ++ [tok .rbrace "}"])) (by simpa using d2) h2
        (derivesL_tok (w := "{".toList) h3 (.cons d3 h4 (derivesL_last (w := "}".toList) h5)))))
    have := hu.make (mem_follow ha) (.cons (ts := ts) (by simpa [elifToks, tok] using hd) h0' hl) (v := .branches (bs ++ [.elseif c b])) rfl
    simpa [elifToks, tok] using this

/-- The rest of a conditional, after the `if` and some `else if`s. -/
def ElseClaim (r : Else) : Prop :=
  ∀ {s i : ℕ} {rest : List Token}, gotoOn s (ntCode .singleCode) = some i → EndsStmt (ahead rest) → ∀ {t : ℕ},
    gotoOn s (ntCode .ifExpr) = some t → ∀ (c : Expr) (b : Block) (t0 : List Token) (xs : List (Expr × Block)) (ts : List Token),
    Derives s (.n .ifExpr) (.branches [.if_ c b]) t0 (ts ++ (elseToks r ++ rest)) →
    (xs = [] ∧ ts = [] ∨ Derives t (.n .elseifExpr) (.branches (xs.map fun x => .elseif x.1 x.2)) ts (elseToks r ++ rest)) →
    Derives s (.n .singleCode) (.stmt (.cond c b (elseChain xs r))) (t0 ++ (ts ++ elseToks r)) rest

theorem else_done : ElseClaim .done := by
  intro s i rest hg he t hi c b t0 xs ts hif hxs
  have ha := mem_follow (isSome_ends hg he)
  simp only [elseToks, List.nil_append, List.append_nil] at hif hxs ⊢
  rcases hxs with ⟨rfl, rfl⟩ | hx
  · obtain ⟨_, hu⟩ := uses_plain (xs := [.n .ifExpr]) (f := .singleCodeIfElseifElse) (by decide +kernel) hg
    have hwalk := hu.walk
    simp only [walkTo_cons, walkTo_nil] at hwalk
    obtain ⟨_, h1, rfl⟩ := hwalk
    simpa [elseChain] using hu.make ha (derivesL_one (by simpa using hif) h1) (v := .stmt (.cond c b .done)) rfl
  · obtain ⟨_, hu⟩ := uses_plain (xs := [.n .ifExpr, .n .elseifExpr]) (f := .singleCodeIfElseifElse) (by decide +kernel) hg
    have hwalk := hu.walk
    simp only [walkTo_cons, walkTo_nil] at hwalk
    obtain ⟨_, h1, _, h2, rfl⟩ := hwalk
    have e1 := Option.some.inj (h1.symm.trans hi)
    subst e1
    refine hu.make ha (.cons (ts' := ts) (by simpa using hif) h1 (derivesL_one hx h2)) ?_
    have e := elseOf_chain xs [] .done rfl
    simp only [List.append_nil] at e
    show orInternal ((condOf ([.if_ c b] ++ xs.map fun x => .elseif x.1 x.2)).map .stmt) = _
    simp only [List.cons_append, List.nil_append, condOf, e, Option.map_some, orInternal]

theorem else_else {b' : Block} (h : BlockClaim b') : ElseClaim (.else_ b') := by
  intro s i rest hg he t hi c b t0 xs ts hif hxs
  have ha := mem_follow (isSome_ends hg he)
  rcases hxs with ⟨rfl, rfl⟩ | hx
  · obtain ⟨_, hu⟩ := uses_plain (xs := [.n .ifExpr, .n .elseExpr]) (f := .singleCodeIfElseifElse) (by decide +kernel) hg
    have hwalk := hu.walk
    simp only [walkTo_cons, walkTo_nil] at hwalk
    obtain ⟨_, h1, _, h2, rfl⟩ := hwalk
    have d := derives_else h h2 (hu.some _ ha)
    exact hu.make ha (.cons (by simpa using hif) h1 (derivesL_one d h2)) (v := .stmt (.cond c b (.else_ b'))) rfl
  · obtain ⟨_, hu⟩ := uses_plain (xs := [.n .ifExpr, .n .elseifExpr, .n .elseExpr]) (f := .singleCodeIfElseifElse) (by decide +kernel) hg
    have hwalk := hu.walk
    simp only [walkTo_cons, walkTo_nil] at hwalk
    obtain ⟨_, h1, _, h2, _, h3, rfl⟩ := hwalk
    have e1 := Option.some.inj (h1.symm.trans hi)
    subst e1
    have d := derives_else h h3 (hu.some _ ha)
    refine hu.make ha (.cons (by simpa using hif) h1 (.cons hx h2 (derivesL_one d h3))) ?_
    have e := elseOf_chain xs [.else_ b'] (.else_ b') rfl
    show orInternal ((condOf ([.if_ c b] ++ xs.map (fun x => .elseif x.1 x.2) ++ [.else_ b'])).map .stmt) = _
    simp only [List.cons_append, List.nil_append, condOf, e, Option.map_some, orInternal]

/-- What can follow an `else if`. -/
theorem some_else {r : Else} {s i t : ℕ} {rest : List Token} (hg : gotoOn s (ntCode .singleCode) = some i)
    (he : EndsStmt (ahead rest)) (hi : gotoOn s (ntCode .ifExpr) = some t) {u : ℕ} (hu : gotoOn t (ntCode .elseifExpr) = some u) :
    (act u (ahead (elseToks r ++ rest))).isSome = true := by
  have ha := mem_follow (isSome_ends hg he)
  have helse : (act u (kindCode .else_)).isSome = true := by
    obtain ⟨_, hv⟩ := uses_plain (xs := [.n .elseifExpr, .t .else_, .t .if_, .n .expression, .t .lbrace, .n .multilineCode, .t .rbrace])
      (f := .elif) (by decide +kernel) hu
    have hwalk := hv.walk
    simp only [walkTo_cons, walkTo_nil] at hwalk
    obtain ⟨_, h0', _, h0, _⟩ := hwalk
    have e1 := Option.some.inj (h0'.symm.trans hu)
    subst e1
    exact isSome_of_next h0
  cases r with
  | done =>
    obtain ⟨_, hv⟩ := uses_plain (xs := [.n .ifExpr, .n .elseifExpr]) (f := .singleCodeIfElseifElse) (by decide +kernel) hg
    have hwalk := hv.walk
    simp only [walkTo_cons, walkTo_nil] at hwalk
    obtain ⟨_, h1, _, h2, rfl⟩ := hwalk
    have e1 := Option.some.inj (h1.symm.trans hi)
    subst e1
    have e2 := Option.some.inj (h2.symm.trans hu)
    subst e2
    exact hv.some _ ha
  | else_ b => exact helse
  | elif c b r => exact helse

theorem else_elif {c' : Expr} {b' : Block} {r : Else} (hc : Written c') (hb : BlockClaim b') (h : ElseClaim r) : ElseClaim (.elif c' b' r) := by
  intro s i rest hg he t hi c b t0 xs ts hif hxs
  have htoks : elseToks (.elif c' b' r) = elifToks (c', b') ++ elseToks r := by simp [elseToks, elifToks]
  obtain ⟨u, hu⟩ : ∃ u, gotoOn t (ntCode .elseifExpr) = some u := by
    obtain ⟨_, hv⟩ := uses_plain (xs := [.n .ifExpr, .n .elseifExpr]) (f := .singleCodeIfElseifElse) (by decide +kernel) hg
    have hwalk := hv.walk
    simp only [walkTo_cons, walkTo_nil] at hwalk
    obtain ⟨_, h1, _, h2, rfl⟩ := hwalk
    have e1 := Option.some.inj (h1.symm.trans hi)
    subst e1
    exact ⟨_, h2⟩
  have hd := derives_elif hc hb hu (some_else (r := r) hg he hi hu)
  have hchain : elseChain xs (.elif c' b' r) = elseChain (xs ++ [(c', b')]) r := by simp [elseChain]
  rw [htoks] at hif hxs
  rw [htoks, hchain]
  have step := h hg he hi c b t0 (xs ++ [(c', b')]) (ts ++ elifToks (c', b')) (by simpa using hif) (.inr ?_)
  · simpa using step
  · rcases hxs with ⟨rfl, rfl⟩ | hx
    · simpa using hd.1
    · simpa using hd.2 _ ts (by simpa using hx)

/-- What can follow an `if`. -/
theorem some_if {r : Else} {s i t : ℕ} {rest : List Token} (hg : gotoOn s (ntCode .singleCode) = some i)
    (he : EndsStmt (ahead rest)) (hi : gotoOn s (ntCode .ifExpr) = some t) : (act t (ahead (elseToks r ++ rest))).isSome = true := by
  have ha := mem_follow (isSome_ends hg he)
  have helse : (act t (kindCode .else_)).isSome = true := by
    obtain ⟨_, hv⟩ := uses_plain (xs := [.n .ifExpr, .n .elseExpr]) (f := .singleCodeIfElseifElse) (by decide +kernel) hg
    have hwalk := hv.walk
    simp only [walkTo_cons, walkTo_nil] at hwalk
    obtain ⟨_, h1, _, h2, rfl⟩ := hwalk
    have e1 := Option.some.inj (h1.symm.trans hi)
    subst e1
    obtain ⟨_, hv⟩ := uses_plain (xs := [.t .else_, .t .lbrace, .n .multilineCode, .t .rbrace]) (f := .else_) (by decide +kernel) h2
    have hwalk := hv.walk
    simp only [walkTo_cons, walkTo_nil] at hwalk
    obtain ⟨_, h3, _⟩ := hwalk
    exact isSome_of_next h3
  cases r with
  | done =>
    obtain ⟨_, hv⟩ := uses_plain (xs := [.n .ifExpr]) (f := .singleCodeIfElseifElse) (by decide +kernel) hg
    have hwalk := hv.walk
    simp only [walkTo_cons, walkTo_nil] at hwalk
    obtain ⟨_, h1, rfl⟩ := hwalk
    have e1 := Option.some.inj (h1.symm.trans hi)
    subst e1
    exact hv.some _ ha
  | else_ b => exact helse
  | elif c b r => exact helse

theorem stmt_cond {c : Expr} {b : Block} {r : Else} (hc : Written c) (hb : BlockClaim b) (h : ElseClaim r) : StmtClaim (.cond c b r) := by
  intro s i rest hg he
  obtain ⟨t, hi⟩ : ∃ t, gotoOn s (ntCode .ifExpr) = some t := by
    obtain ⟨_, hv⟩ := uses_plain (xs := [.n .ifExpr]) (f := .singleCodeIfElseifElse) (by decide +kernel) hg
    have hwalk := hv.walk
    simp only [walkTo_cons, walkTo_nil] at hwalk
    obtain ⟨_, h1, rfl⟩ := hwalk
    exact ⟨_, h1⟩
  have hif := derives_if hc hb hi (some_if (r := r) hg he hi)
  have := h hg he hi c b (ifToks c b) [] [] (by simpa using hif) (.inl ⟨rfl, rfl⟩)
  simpa [stmtToks, ifToks, elseChain] using this

/-! ## All programs -/

mutual

theorem stmt_claims (st : Stmt) (hw : WrittenS st) : StmtClaim st :=
  match st with
  | .output _ => stmt_output hw
  | .outputNamed _ _ => stmt_outputNamed hw.1 hw.2
  | .set _ _ => stmt_set hw.1 hw.2
  | .function _ b => stmt_function hw.1 hw.2.1 (block_claims b hw.2.2)
  | .result _ => stmt_result hw
  | .cond _ b r => stmt_cond hw.1 (block_claims b hw.2.1) (else_claims r hw.2.2)
  | .loop _ _ b => stmt_loop hw.1 (block_claims b hw.2)
  | .assign _ _ => stmt_assign hw

theorem block_claims (b : Block) (hw : WrittenB b) : BlockClaim b :=
  match b with
  | .nil => block_nil
  | .cons st b => block_cons (stmt_claims st hw.1) (block_claims b hw.2)

theorem else_claims (r : Else) (hw : WrittenR r) : ElseClaim r :=
  match r with
  | .done => else_done
  | .else_ b => else_else (block_claims b hw)
  | .elif _ b r => else_elif hw.1 (block_claims b hw.2.1) (else_claims r hw.2.2)

end

/-- Whatever is written is derived. -/
theorem derives_of_written {b : Block} (h : WrittenB b) : Derives 0 (.n .multilineCode) (.block b) (blockToks b) [] := by
  obtain ⟨i, hi⟩ : ∃ i, gotoOn 0 (ntCode .multilineCode) = some i := by
    have : (gotoOn 0 (ntCode .multilineCode)).isSome = true := by decide +kernel
    exact Option.isSome_iff_exists.1 this
  exact (block_claims b h hi (.inl ⟨rfl, rfl⟩)).2

end PythonDice.Yacc
