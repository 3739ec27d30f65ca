import Verif.Proofs.ParseSoundS
import Verif.Proofs.ParseCompleteS
import Verif.Proofs.Tables
import Verif.Props.Expressions
import Verif.Props.Names
import Verif.Props.Lexer

/-!
# C57, C58: what the parser accepts, and the tree it gives

`Yacc.Parses ts b` runs the LALR(1) tables that `build` computes from the grammar, with the actions of the functions `p_...`.  The
statements compare it with the way trees are written down (`Verif.Spec.Parse`).
-/

namespace PythonDice

open Spec Compiler
open Lexer (Kind Token tokens reports)

/-! ## Tokens as the lexer gives them -/

theorem lookup_keywords {w : List Char} (h : ∀ s ∈ reservedWords, w ≠ s.toList) : wordKind w = .lowername := by
  have : Spec.keywords.lookup w = none := by
    rw [List.lookup_eq_none_iff]
    intro p hp
    have hk : ∀ p ∈ Spec.keywords, ∃ s ∈ reservedWords, p.1 = s.toList := by decide +kernel
    obtain ⟨s, hs, e⟩ := hk p hp
    rw [e]
    simpa using h s hs
  simp [wordKind, this]

/-- What has the form of a token fits its type. -/
theorem tokenOK_of_form {dig : Char → Bool} {t : Token} (h : TokenForm dig t.kind t.value) : Spec.TokenOK t := by
  obtain ⟨k, v⟩ := t
  have hsp : ∀ k : Kind, ∀ w, spelling k = some w → Spec.TokenOK ⟨k, w.toList⟩ := by
    intro k w hw
    cases k <;> simp only [spelling, Option.some.injEq, reduceCtorEq] at hw <;> subst hw <;>
      simp only [Spec.TokenOK] <;> decide +kernel
  cases k
  case number => trivial
  case uppername => trivial
  case lowername => exact lookup_keywords h.2.2
  case instringVar => obtain ⟨n, e, _⟩ := h; exact ⟨n, e⟩
  case instringNonvar => obtain ⟨n, e, _⟩ := h; simp only [Spec.TokenOK]; simp only at e; rw [e]; rfl
  case instringAny =>
    simp only [Spec.TokenOK]
    intro hv
    cases v with
    | nil => cases hv
    | cons c v =>
      simp only [List.head?_cons, Option.some.injEq] at hv
      exact (h.2 c (by simp)).2.2 hv
  all_goals
    obtain ⟨w, hw, e⟩ := h
    simp only at e
    subst e
    exact hsp _ w hw

/-- The tokens of a text have the forms of tokens. -/
theorem form_of_tokens {dig : Char → Bool} {s : List Char} {t : Token} (h : t ∈ tokens dig s) : TokenForm dig t.kind t.value := by
  obtain ⟨p, hp, e⟩ := List.mem_filterMap.1 h
  have := (C42_lossless dig s).2 p hp
  cases p <;> simp only [Lexer.Piece.token?, Option.some.injEq, reduceCtorEq] at e
  subst e
  exact this

/-! ## C57 -/

/-- **C57** (src/parser/myparser.py:150-614 as run by src/parser/ply/yacc.py): the parser returns a tree for tokens exactly if the tree is
written as these tokens: binary operators associate to the left and bind as given by `opLevel`, and so on (`WrittenB`). -/
theorem C57_exactly {ts : List Token} (hts : ∀ t ∈ ts, Spec.TokenOK t) (b : Block) : Yacc.Parses ts b ↔ blockToks b = ts ∧ WrittenB b := by
  have hr := Yacc.run_iff_derives Yacc.isTable ts (.block b) ⟨b, rfl⟩
  unfold Yacc.Parses
  rw [Yacc.tables_eq, hr]
  constructor
  · intro h
    obtain ⟨c, e, h1, h2⟩ := Yacc.written_of_derives h hts
    cases e
    exact ⟨h1.symm, h2⟩
  · rintro ⟨rfl, h⟩
    exact Yacc.derives_of_written h

/-- **C57**: for every text, the parser returns a tree for its tokens exactly if the tree is written as these tokens. -/
theorem C57_source (dig : Char → Bool) (s : List Char) (b : Block) :
    Yacc.Parses (tokens dig s) b ↔ blockToks b = tokens dig s ∧ WrittenB b :=
  C57_exactly (fun _ ht => tokenOK_of_form (form_of_tokens ht)) b

/-- Every tree that is written according to the grammar is found again. -/
theorem parses_of_written {b : Block} (h : WrittenB b) : Yacc.Parses (blockToks b) b := by
  unfold Yacc.Parses
  rw [Yacc.tables_eq]
  exact (Yacc.run_iff_derives Yacc.isTable _ (.block b) ⟨b, rfl⟩).2 (Yacc.derives_of_written h)

/-- The parser is a function. -/
theorem run_mono {T : Yacc.Tables} {n : ℕ} : ∀ {c : Yacc.Config} {r}, Yacc.run T n c = some r → ∀ m, n ≤ m → Yacc.run T m c = some r := by
  induction n with
  | zero => intro c r h; cases h
  | succ n ih =>
    intro c r h m hm
    obtain ⟨m, rfl⟩ := Nat.exists_eq_add_of_le hm
    rw [Nat.add_right_comm]
    simp only [Yacc.run] at h ⊢
    split at h
    · exact h
    · exact h
    · rename_i c' hc
      exact ih h _ (Nat.le_add_right _ _)

theorem run_unique {T : Yacc.Tables} {m n : ℕ} {c : Yacc.Config} {r r'} (h : Yacc.run T m c = some r) (h' : Yacc.run T n c = some r') :
    r = r' := by
  have h1 := run_mono h _ (Nat.le_max_left m n)
  have h2 := run_mono h' _ (Nat.le_max_right m n)
  exact Option.some.inj (h1.symm.trans h2)

/-- **C57**: there is at most one tree. -/
theorem C57_unique {ts : List Token} {b c : Block} (hb : Yacc.Parses ts b) (hc : Yacc.Parses ts c) : b = c := by
  obtain ⟨_, hb⟩ := hb
  obtain ⟨_, hc⟩ := hc
  have := run_unique hb hc
  injection this with h
  injection h

/-- **C57**: no program can be read in two ways. -/
theorem C57_unambiguous {b c : Block} (hb : WrittenB b) (hc : WrittenB c) (h : blockToks b = blockToks c) : b = c :=
  C57_unique (parses_of_written hb) (h ▸ parses_of_written hc)

/-- A program with most kinds of statements. -/
def sampleText : List Char :=
  "function: twice A:n { result: A*2 } X: 3 loop I over {1..X, 5} { if I > 2 & X { output 2d6+-I named \"a[I]b\" } else { } } output [twice 4]".toList

/-- Its tree. -/
def sampleTree : Block :=
  .cons (.function [.word "twice".toList, .typed "A".toList "n".toList]
      (.cons (.result (.bin .mul (.var "A".toList) (.num "2".toList))) .nil))
    (.cons (.assign "X".toList (.num "3".toList))
    (.cons (.loop "I".toList (.seq (.range (.num "1".toList) (.var "X".toList) (.expr (.num "5".toList) .nil)))
      (.cons (.cond (.bin .and_ (.bin .gt (.var "I".toList) (.num "2".toList)) (.var "X".toList))
        (.cons (.outputNamed (.bin .add (.ndm (.num "2".toList) (.num "6".toList)) (.unary .minus (.var "I".toList)))
          [.text "a".toList, .var "I".toList, .text "b".toList]) .nil) (.else_ .nil)) .nil))
    (.cons (.output (.call (.word "twice".toList (.arg (.num "4".toList) .nil)))) .nil)))

theorem sampleTree_written : WrittenB sampleTree := by
  have h1 : ∀ d ∈ [DefPart.word "twice".toList, DefPart.typed "A".toList "n".toList], TypeOK d := by
    intro d hd
    simp only [List.mem_cons, List.not_mem_nil, or_false] at hd
    rcases hd with rfl | rfl
    · trivial
    · exact .inr (by decide +kernel)
  simp [sampleTree, WrittenB, WrittenS, WrittenR, Written, WrittenE, WrittenC, Spec.FirstOK, SeparateNext, level, opLevel, h1]

example : Yacc.Parses (tokens Char.isDigit sampleText) sampleTree :=
  (C57_source _ _ _).2 ⟨by decide +kernel, sampleTree_written⟩

/-- `2 3` after `output` is no program. -/
example : ¬ ∃ b, Yacc.Parses (tokens Char.isDigit "output 2 3".toList) b := by
  rintro ⟨b, n, h⟩
  rw [Yacc.tables_eq] at h
  have h' : Yacc.run Yacc.tableData 20 (Yacc.start (tokens Char.isDigit "output 2 3".toList)) = some (.error .syntaxError) := by
    rfl
  cases run_unique h h'

/-! ## C58: precedence -/

/-- The program with one output. -/
def outputOf (e : Expr) : Block := .cons (.output e) .nil

/-- **C58** (src/parser/myparser.py:138-148): of two binary operators, the one that binds tighter is applied first, and of two that bind
equally, the left one. -/
theorem C58_precedence (x y z : Expr) (hx : Written x) (hy : Written y) (hz : Written z) (lx : level x = 9) (ly : level y = 9)
    (lz : level z = 9) (p q : BinOp) :
    Yacc.Parses (tok .output "output" :: exprToks x ++ opTokens p ++ exprToks y ++ opTokens q ++ exprToks z)
      (outputOf (if opLevel q ≤ opLevel p then .bin q (.bin p x y) z else .bin p x (.bin q y z))) := by
  have hp : opLevel p < 9 := by cases p <;> decide
  have hq : opLevel q < 9 := by cases q <;> decide
  have e : (tok .output "output" :: exprToks x ++ opTokens p ++ exprToks y ++ opTokens q ++ exprToks z) =
      blockToks (outputOf (if opLevel q ≤ opLevel p then .bin q (.bin p x y) z else .bin p x (.bin q y z))) := by
    split <;> simp [outputOf, blockToks, stmtToks, exprToks]
  rw [e]
  refine parses_of_written ⟨?_, trivial⟩
  split
  · rename_i h
    exact ⟨h, by omega, ⟨by omega, by omega, hx, hy⟩, hz⟩
  · rename_i h
    exact ⟨by omega, by simp only [level]; omega, hx, by omega, by omega, hy, hz⟩

/-- **C58**: `d` binds tighter than every binary operator, on either side. -/
theorem C58_die (x y z : Expr) (hx : Written x) (hy : Written y) (hz : Written z) (lx : level x = 9) (ly : level y = 9)
    (lz : level z = 9) (p : BinOp) :
    Yacc.Parses (tok .output "output" :: exprToks x ++ tok .dOp "d" :: exprToks y ++ opTokens p ++ exprToks z)
        (outputOf (.bin p (.ndm x y) z)) ∧
      Yacc.Parses (tok .output "output" :: exprToks x ++ opTokens p ++ exprToks y ++ tok .dOp "d" :: exprToks z)
        (outputOf (.bin p x (.ndm y z))) := by
  have hp : opLevel p < 8 := by cases p <;> decide
  constructor
  · have e : (tok .output "output" :: exprToks x ++ tok .dOp "d" :: exprToks y ++ opTokens p ++ exprToks z) =
        blockToks (outputOf (.bin p (.ndm x y) z)) := by simp [outputOf, blockToks, stmtToks, exprToks]
    rw [e]
    exact parses_of_written ⟨⟨by simp only [level]; omega, by omega, ⟨lx, ly, hx, hy⟩, hz⟩, trivial⟩
  · have e : (tok .output "output" :: exprToks x ++ opTokens p ++ exprToks y ++ tok .dOp "d" :: exprToks z) =
        blockToks (outputOf (.bin p x (.ndm y z))) := by simp [outputOf, blockToks, stmtToks, exprToks]
    rw [e]
    exact parses_of_written ⟨⟨by omega, by simp only [level]; omega, hx, ly, lz, hy, hz⟩, trivial⟩

/-- **C58**: unary operators bind tighter than every binary operator and than `d`: `-2^2` is `(-2)^2` and `-2d6` is `(-2)d6`. -/
theorem C58_unary (u : UnOp) (x y : Expr) (hx : Written x) (hy : Written y) (lx : level x = 9) (ly : level y = 9) (p : BinOp) :
    Yacc.Parses (tok .output "output" :: unTok u :: exprToks x ++ opTokens p ++ exprToks y) (outputOf (.bin p (.unary u x) y)) ∧
      Yacc.Parses (tok .output "output" :: unTok u :: exprToks x ++ tok .dOp "d" :: exprToks y) (outputOf (.ndm (.unary u x) y)) := by
  have hp : opLevel p < 9 := by cases p <;> decide
  constructor
  · have e : (tok .output "output" :: unTok u :: exprToks x ++ opTokens p ++ exprToks y) =
        blockToks (outputOf (.bin p (.unary u x) y)) := by simp [outputOf, blockToks, stmtToks, exprToks]
    rw [e]
    exact parses_of_written ⟨⟨by simp only [level]; omega, by omega, ⟨lx, hx⟩, hy⟩, trivial⟩
  · have e : (tok .output "output" :: unTok u :: exprToks x ++ tok .dOp "d" :: exprToks y) =
        blockToks (outputOf (.ndm (.unary u x) y)) := by simp [outputOf, blockToks, stmtToks, exprToks]
    rw [e]
    exact parses_of_written ⟨⟨rfl, ly, ⟨lx, hx⟩, hy⟩, trivial⟩

/-! ## The expressions of a program that was parsed -/

mutual

theorem grammatical_of_written (e : Expr) (h : Written e) : Grammatical e :=
  match e with
  | .num _ => trivial
  | .dec _ _ => trivial
  | .var _ => trivial
  | .str _ => trivial
  | .group e => grammatical_of_written e h
  | .bin _ l r => ⟨h.1, h.2.1, grammatical_of_written l h.2.2.1, grammatical_of_written r h.2.2.2⟩
  | .ndm l r => ⟨h.1, h.2.1, grammatical_of_written l h.2.2.1, grammatical_of_written r h.2.2.2⟩
  | .dm r => ⟨h.1, grammatical_of_written r h.2⟩
  | .unary _ e => ⟨h.1, grammatical_of_written e h.2⟩
  | .hash e => ⟨h.1, grammatical_of_written e h.2⟩
  | .seq es => grammaticalE_of_written es h
  | .call cs => grammaticalC_of_written cs h.2

theorem grammaticalE_of_written (es : Elems) (h : WrittenE es) : GrammaticalE es :=
  match es with
  | .nil => trivial
  | .expr e es => ⟨grammatical_of_written e h.1, grammaticalE_of_written es h.2⟩
  | .range l r es => ⟨grammatical_of_written l h.1, grammatical_of_written r h.2.1, grammaticalE_of_written es h.2.2⟩

theorem grammaticalC_of_written (cs : CallParts) (h : WrittenC cs) : GrammaticalC cs :=
  match cs with
  | .nil => trivial
  | .word _ cs => grammaticalC_of_written cs h.2
  | .arg e cs => ⟨grammatical_of_written e h.1, grammaticalC_of_written cs h.2.2⟩

end

/-- The text of a token outside of names and numbers is free; the literals of these tokens are over an alphabet. -/
def LiteralsIn (lit : Char → Prop) (ts : List Token) : Prop :=
  ∀ t ∈ ts, t.kind = .instringAny ∨ t.kind = .instringNonvar → ∀ c ∈ t.value, lit c

/-- Tokens of the right forms, with literals over an alphabet. -/
def Formed (dig : Char → Bool) (lit : Char → Prop) (ts : List Token) : Prop :=
  (∀ t ∈ ts, TokenForm dig t.kind t.value) ∧ LiteralsIn lit ts

section
variable {dig : Char → Bool} {lit : Char → Prop}

theorem Formed.left {a b : List Token} (h : Formed dig lit (a ++ b)) : Formed dig lit a :=
  ⟨fun t ht => h.1 t (List.mem_append_left _ ht), fun t ht => h.2 t (List.mem_append_left _ ht)⟩

theorem Formed.right {a b : List Token} (h : Formed dig lit (a ++ b)) : Formed dig lit b :=
  ⟨fun t ht => h.1 t (List.mem_append_right _ ht), fun t ht => h.2 t (List.mem_append_right _ ht)⟩

theorem Formed.head {a : Token} {b : List Token} (h : Formed dig lit (a :: b)) : TokenForm dig a.kind a.value := h.1 a (by simp)

theorem Formed.tail {a : Token} {b : List Token} (h : Formed dig lit (a :: b)) : Formed dig lit b := Formed.right (a := [a]) h

theorem word_of_formed {w : List Char} {b : List Token} (h : Formed dig lit (wordTok w :: b)) : Word w := by
  have h := h.head
  simp only [wordTok] at h
  cases hk : Spec.keywords.lookup w with
  | none =>
    have : wordKind w = .lowername := by simp [wordKind, hk]
    rw [this] at h
    exact ⟨h.1, h.2.1⟩
  | some k =>
    have hm : ∀ p ∈ Spec.keywords, Word p.1 := by unfold Word; decide +kernel
    obtain ⟨a, b, e, _⟩ := List.lookup_eq_some_iff.1 hk
    exact hm (w, k) (by rw [e]; simp)

theorem parts_of_formed {ps : List StrPart} (h : Formed dig lit (strToks ps)) : PartsOK lit ps := by
  intro q hq
  have hf := h.1 _ (List.mem_map_of_mem hq)
  have hl := h.2 _ (List.mem_map_of_mem hq)
  cases q with
  | text s =>
    simp only [strTok] at hl
    split_ifs at hl with hc
    · exact hl (.inr rfl)
    · exact hl (.inl rfl)
  | var x =>
    obtain ⟨n, e, h1, h2⟩ := hf
    simp only [strTok] at e
    have : x = n := by simpa using e
    subst this
    exact ⟨h1, h2⟩

mutual

theorem exprOK_of_formed (e : Expr) (hw : Written e) (h : Formed dig lit (exprToks e)) : ExprOK dig lit e :=
  match e with
  | .num _ => h.head
  | .dec _ _ => ⟨h.head, h.tail.tail.head⟩
  | .var _ => h.head
  | .str _ => parts_of_formed h
  | .group e => exprOK_of_formed e hw (Formed.left (b := [tok .rparen ")"]) h.tail)
  | .bin op l r => ⟨exprOK_of_formed l hw.2.2.1 (Formed.left h), exprOK_of_formed r hw.2.2.2 (Formed.right (Formed.right h))⟩
  | .ndm l r => ⟨exprOK_of_formed l hw.2.2.1 (Formed.left h), exprOK_of_formed r hw.2.2.2 (Formed.right h).tail⟩
  | .dm r => exprOK_of_formed r hw.2 h.tail
  | .unary _ e => exprOK_of_formed e hw.2 h.tail
  | .hash e => exprOK_of_formed e hw.2 h.tail
  | .seq es => elemsOK_of_formed es hw (Formed.left (b := [tok .rbrace "}"]) h.tail)
  | .call cs => ⟨fun hc => by subst hc; exact hw.1, callOK_of_formed cs hw.2 (Formed.left (b := [tok .rbracket "]"]) h.tail)⟩

theorem elemsOK_of_formed (es : Elems) (hw : WrittenE es) (h : Formed dig lit (Spec.elemToks es)) : ElemsOK dig lit es :=
  match es with
  | .nil => trivial
  | .expr e es => ⟨exprOK_of_formed e hw.1 (Formed.left h), moreOK_of_formed es hw.2 (Formed.right h)⟩
  | .range l r es =>
    have h : Formed dig lit (exprToks l ++ tok .doubleDot ".." :: (exprToks r ++ moreToks es)) := by simpa [Spec.elemToks] using h
    ⟨exprOK_of_formed l hw.1 (Formed.left h), exprOK_of_formed r hw.2.1 (Formed.left (Formed.right h).tail),
      moreOK_of_formed es hw.2.2 (Formed.right (Formed.right h).tail)⟩

theorem moreOK_of_formed (es : Elems) (hw : WrittenE es) (h : Formed dig lit (moreToks es)) : ElemsOK dig lit es :=
  match es with
  | .nil => trivial
  | .expr e es =>
    have h : Formed dig lit (tok .comma "," :: (exprToks e ++ moreToks es)) := by simpa [moreToks] using h
    ⟨exprOK_of_formed e hw.1 (Formed.left h.tail), moreOK_of_formed es hw.2 (Formed.right h.tail)⟩
  | .range l r es =>
    have h : Formed dig lit (tok .comma "," :: (exprToks l ++ tok .doubleDot ".." :: (exprToks r ++ moreToks es))) := by
      simpa [moreToks] using h
    ⟨exprOK_of_formed l hw.1 (Formed.left h.tail), exprOK_of_formed r hw.2.1 (Formed.left (Formed.right h.tail).tail),
      moreOK_of_formed es hw.2.2 (Formed.right (Formed.right h.tail).tail)⟩

theorem callOK_of_formed (cs : CallParts) (hw : WrittenC cs) (h : Formed dig lit (Spec.callToks cs)) : CallOK dig lit cs :=
  match cs with
  | .nil => trivial
  | .word _ cs => ⟨word_of_formed h, callOK_of_formed cs hw.2 h.tail⟩
  | .arg e cs => ⟨exprOK_of_formed e hw.1 (Formed.left h), callOK_of_formed cs hw.2.2 (Formed.right h)⟩

end

theorem sigOK_of_formed {ds : List DefPart} (h : Formed dig lit (sigToks ds)) : ∀ d ∈ ds, DefOK d := by
  induction ds with
  | nil => simp
  | cons d ds ih =>
    have h : Formed dig lit (defToks d ++ sigToks ds) := by simpa [sigToks] using h
    intro q hq
    rcases List.mem_cons.1 hq with rfl | hq
    · have h := Formed.left h
      cases q with
      | word w => exact word_of_formed h
      | param x => exact h.head
      | typed x t => exact ⟨h.head, word_of_formed h.tail.tail⟩
    · exact ih (Formed.right h) q hq

mutual

theorem stmtOK_of_formed (st : Stmt) (hw : WrittenS st) (h : Formed dig lit (stmtToks st)) : StmtOK dig lit st :=
  match st with
  | .output e => exprOK_of_formed e hw h.tail
  | .outputNamed e n =>
    have h : Formed dig lit (tok .output "output" :: (exprToks e ++ tok .named "named" :: strToks n)) := by simpa [stmtToks] using h
    ⟨exprOK_of_formed e hw.1 (Formed.left h.tail), parts_of_formed (Formed.right h.tail).tail⟩
  | .set n v =>
    have h : Formed dig lit (tok .set "set" :: (strToks n ++ tok .to "to" :: exprToks v)) := by simpa [stmtToks] using h
    ⟨parts_of_formed (Formed.left h.tail), exprOK_of_formed v hw.2 (Formed.right h.tail).tail⟩
  | .function ds b =>
    have h : Formed dig lit (tok .function "function" :: tok .colon ":" :: (sigToks ds ++ tok .lbrace "{" :: (blockToks b ++ [tok .rbrace "}"]))) := by
      simpa [stmtToks] using h
    ⟨sigOK_of_formed (Formed.left h.tail.tail), blockOK_of_formed b hw.2.2 (Formed.left (Formed.right h.tail.tail).tail)⟩
  | .result e => exprOK_of_formed e hw h.tail.tail
  | .cond c b r =>
    have h : Formed dig lit (tok .if_ "if" :: (exprToks c ++ tok .lbrace "{" :: (blockToks b ++ tok .rbrace "}" :: elseToks r))) := by
      simpa [stmtToks] using h
    ⟨exprOK_of_formed c hw.1 (Formed.left h.tail), blockOK_of_formed b hw.2.1 (Formed.left (Formed.right h.tail).tail),
      elseOK_of_formed r hw.2.2 (Formed.right (Formed.right h.tail).tail).tail⟩
  | .loop x e b =>
    have h : Formed dig lit (tok .loop "loop" :: varTok x :: tok .over "over" :: (exprToks e ++ tok .lbrace "{" ::
        (blockToks b ++ [tok .rbrace "}"]))) := by simpa [stmtToks] using h
    ⟨h.tail.head, exprOK_of_formed e hw.1 (Formed.left h.tail.tail.tail),
      blockOK_of_formed b hw.2 (Formed.left (Formed.right h.tail.tail.tail).tail)⟩
  | .assign _ e => ⟨h.head, exprOK_of_formed e hw h.tail.tail⟩

theorem blockOK_of_formed (b : Block) (hw : WrittenB b) (h : Formed dig lit (blockToks b)) : BlockOK dig lit b :=
  match b with
  | .nil => trivial
  | .cons st b => ⟨stmtOK_of_formed st hw.1 (Formed.left h), blockOK_of_formed b hw.2 (Formed.right h)⟩

theorem elseOK_of_formed (r : Else) (hw : WrittenR r) (h : Formed dig lit (elseToks r)) : ElseOK dig lit r :=
  match r with
  | .done => trivial
  | .else_ b => blockOK_of_formed b hw (Formed.left (b := [tok .rbrace "}"]) h.tail.tail)
  | .elif c b r =>
    have h : Formed dig lit (tok .else_ "else" :: tok .if_ "if" :: (exprToks c ++ tok .lbrace "{" ::
        (blockToks b ++ tok .rbrace "}" :: elseToks r))) := by simpa [elseToks] using h
    ⟨exprOK_of_formed c hw.1 (Formed.left h.tail.tail), blockOK_of_formed b hw.2.1 (Formed.left (Formed.right h.tail.tail).tail),
      elseOK_of_formed r hw.2.2 (Formed.right (Formed.right h.tail.tail).tail).tail⟩

end

end

end PythonDice
