import Verif.Props.Literal

/-!
# Lemmas on reading compiled expressions (C35)
-/

namespace PythonDice

open Spec Compiler
open Spec.Py (Tok FPiece lex nameStart nameChar keywords ops1 ops2 IntLiteral)

/-! ## Tokens -/

/-- With enough fuel the text has the tokens. -/
def Lexes (s : List Char) (ts : List Tok) : Prop := ∃ N, ∀ n, N ≤ n → lex n s = some ts

theorem lexes_nil : Lexes [] [] := ⟨1, fun n hn => by cases n with | zero => cases hn | succ n => rfl⟩

/-- One step more. -/
theorem lexes_step {s s' : List Char} {ts ts' : List Tok} (h : Lexes s ts)
    (hs : ∀ n, lex n s = some ts → s'.length ≤ n → lex (n + 1) s' = some ts') : Lexes s' ts' := by
  obtain ⟨N, hN⟩ := h
  refine ⟨max N s'.length + 1, fun n hn => ?_⟩
  cases n with
  | zero => omega
  | succ n => exact hs n (hN n (by omega)) (by omega)

theorem lexes_space {s : List Char} {ts : List Tok} (h : Lexes s ts) : Lexes (' ' :: s) ts :=
  lexes_step h fun n hn _ => by rw [lex, if_pos rfl, hn]

/-- Characters at which none of the first cases of the lexer applies. -/
def OpChar (c : Char) : Prop := c ≠ ' ' ∧ nameStart c = false ∧ c.isDigit = false ∧ c ≠ '\''

instance (c : Char) : Decidable (OpChar c) := by unfold OpChar; infer_instance

theorem lexes_op1 {c : Char} {s : List Char} {ts : List Tok} (hc : OpChar c) (h1 : [c] ∈ ops1) (h2 : c :: s.take 1 ∉ ops2)
    (h : Lexes s ts) : Lexes (c :: s) (.op [c] :: ts) :=
  lexes_step h fun n hn _ => by
    rw [lex, if_neg hc.1, if_neg (by rw [hc.2.1]; decide), if_neg (by rw [hc.2.2.1]; decide), if_neg hc.2.2.2, if_neg h2, if_pos h1, hn]
    rfl

theorem lexes_op2 {c d : Char} {s : List Char} {ts : List Tok} (hc : OpChar c) (h2 : [c, d] ∈ ops2)
    (h : Lexes s ts) : Lexes (c :: d :: s) (.op [c, d] :: ts) :=
  lexes_step h fun n hn _ => by
    rw [lex, if_neg hc.1, if_neg (by rw [hc.2.1]; decide), if_neg (by rw [hc.2.2.1]; decide), if_neg hc.2.2.2, if_pos (show c :: List.take 1 (d :: s) ∈ ops2 from h2), List.tail_cons, hn]
    rfl

/-- Brackets and commas are never part of a longer operator. -/
theorem lexes_bracket {c : Char} {s : List Char} {ts : List Tok} (hc : c ∈ ['(', ')', '[', ']', ',', '~']) (h : Lexes s ts) :
    Lexes (c :: s) (.op [c] :: ts) := by
  have key : ∀ c ∈ ['(', ')', '[', ']', ',', '~'], OpChar c ∧ [c] ∈ ops1 ∧ ∀ o ∈ ops2, o.head? ≠ some c := by decide
  obtain ⟨h1, h2, h3⟩ := key c hc
  exact lexes_op1 h1 h2 (fun h' => h3 _ h' rfl) h

/-- What may follow a name or a number. -/
def Boundary (s : List Char) : Prop := ∀ c, s.head? = some c → c ∈ [' ', '(', ')', '[', ']', ',']

theorem Boundary.not {s : List Char} (h : Boundary s) (p : Char → Bool) (hp : ∀ c ∈ [' ', '(', ')', '[', ']', ','], p c = false) :
    ∀ c, s.head? = some c → p c = false := fun c hc => hp c (h c hc)

theorem boundary_nil : Boundary [] := fun c hc => by cases hc

theorem boundary_cons {c : Char} (hc : c ∈ [' ', '(', ')', '[', ']', ',']) (s : List Char) : Boundary (c :: s) :=
  fun d hd => by cases hd; exact hc

theorem lexes_name {w s : List Char} {ts : List Tok} (hw : w ≠ []) (hstart : ∀ c, w.head? = some c → nameStart c = true)
    (hchars : ∀ c ∈ w, nameChar c = true) (hk : w ∉ keywords) (hb : Boundary s) (h : Lexes s ts) : Lexes (w ++ s) (.name w :: ts) := by
  cases w with
  | nil => exact absurd rfl hw
  | cons c cs =>
    refine lexes_step h fun n hn _ => ?_
    have hc : nameStart c = true := hstart c rfl
    have htw := takeWhile_all (p := nameChar) (v := cs) (t := s) (fun x hx => hchars x (List.mem_cons_of_mem _ hx))
      (hb.not _ (by decide))
    have hq : ¬ (c = 'f' ∧ (cs ++ s).head? = some '"') := by
      rintro ⟨_, h'⟩
      cases cs with
      | nil => exact absurd (hb _ h') (by decide)
      | cons d cs =>
        simp only [List.cons_append, List.head?_cons, Option.some.injEq] at h'
        subst h'
        exact absurd (hchars '"' (by simp)) (by decide)
    rw [List.cons_append, lex, if_neg (by rintro rfl; exact absurd hc (by decide)), if_pos hc, if_neg hq, htw.1, htw.2, if_neg hk, hn]
    rfl

theorem digit_not_start {c : Char} (h : c.isDigit = true) : c ≠ ' ' ∧ nameStart c = false := by
  have h1 : 48 ≤ c.toNat ∧ c.toNat ≤ 57 := by
    unfold Char.isDigit at h
    simp only [ge_iff_le, Bool.and_eq_true, decide_eq_true_eq] at h
    exact ⟨h.1, h.2⟩
  refine ⟨?_, ?_⟩
  · rintro rfl
    exact absurd h1.1 (by decide)
  · unfold nameStart Char.isAlpha Char.isUpper Char.isLower
    have h2 : (c == '_') = false := by
      rw [beq_eq_false_iff_ne]
      rintro rfl
      exact absurd h1.2 (by decide)
    rw [h2, Bool.or_false, Bool.or_eq_false_iff, Bool.and_eq_false_iff, decide_eq_false_iff_not, decide_eq_false_iff_not]
    constructor
    · intro h3
      have h4 : 65 ≤ c.toNat := h3.1
      omega
    · left
      intro h3
      have h4 : 97 ≤ c.toNat := h3
      omega

theorem lexes_int {w s : List Char} {ts : List Tok} (hw : Digits Char.isDigit w) (hl : IntLiteral w) (hb : Boundary s) (h : Lexes s ts) :
    Lexes (w ++ s) (.int w :: ts) := by
  cases w with
  | nil => exact absurd rfl hw.1
  | cons c cs =>
    refine lexes_step h fun n hn _ => ?_
    have hc : c.isDigit = true := hw.2 c List.mem_cons_self
    obtain ⟨h1, h2⟩ := digit_not_start hc
    have htw := takeWhile_all (p := Char.isDigit) (v := cs) (t := s) (fun x hx => hw.2 x (List.mem_cons_of_mem _ hx))
      (hb.not _ (by decide))
    have hdot : ¬ s.head? = some '.' := fun h' => absurd (hb _ h') (by decide)
    rw [List.cons_append, lex, if_neg h1, if_neg (by rw [h2]; decide), if_pos hc, htw.1, htw.2, if_neg hdot, if_pos hl, hn]
    rfl

theorem lexes_float {a b s : List Char} {ts : List Tok} (ha : Digits Char.isDigit a) (hb' : Digits Char.isDigit b) (hb : Boundary s)
    (h : Lexes s ts) : Lexes (a ++ '.' :: (b ++ s)) (.float a b :: ts) := by
  cases a with
  | nil => exact absurd rfl ha.1
  | cons c cs =>
    refine lexes_step h fun n hn _ => ?_
    have hc : c.isDigit = true := ha.2 c List.mem_cons_self
    obtain ⟨h1, h2⟩ := digit_not_start hc
    have htw := takeWhile_all (p := Char.isDigit) (v := cs) (t := '.' :: (b ++ s)) (fun x hx => ha.2 x (List.mem_cons_of_mem _ hx))
      (fun x hx => by cases hx; decide)
    have htw' := takeWhile_all (p := Char.isDigit) (v := b) (t := s) (fun x hx => hb'.2 x hx) (hb.not _ (by decide))
    rw [List.cons_append, lex, if_neg h1, if_neg (by rw [h2]; decide), if_pos hc, htw.1, htw.2, if_pos List.head?_cons, List.tail_cons,
      htw'.1, htw'.2, if_neg hb'.1, hn]
    rfl

theorem lexes_str {x s : List Char} {ts : List Tok} (hx : ∀ c ∈ x, c ≠ '\'') (h : Lexes s ts) :
    Lexes ('\'' :: (x ++ '\'' :: s)) (.str x :: ts) := by
  refine lexes_step h fun n hn _ => ?_
  have htw := takeWhile_all (p := (· != '\'')) (v := x) (t := '\'' :: s) (fun c hc => by simpa using hx c hc)
    (fun c hc => by cases hc; decide)
  rw [lex, if_neg (by decide), if_neg (by decide), if_neg (by decide), if_pos rfl, htw.1, htw.2, if_pos List.head?_cons, List.tail_cons, hn]
  rfl

theorem lexes_fstr {body s : List Char} {ps : List FPiece} {ts : List Tok} (hr : Reads (body ++ s) (ps, s)) (h : Lexes s ts) :
    Lexes ('f' :: '"' :: (body ++ s)) (.fstr ps :: ts) := by
  refine lexes_step h fun n hn hl => ?_
  rw [lex, if_neg (by decide), if_pos (by decide), if_pos ⟨rfl, rfl⟩, List.tail_cons, hr n (by simp at hl ⊢; omega)]
  simp only [Option.bind_some, hn]
  rfl

/-! ## The tokens of a compiled expression -/

/-- Tokens separated by commas. -/
def commas : List (List Tok) → List Tok
  | [] => []
  | [t] => t
  | t :: u :: us => t ++ .op [','] :: commas (u :: us)

/-- The tokens of a call. -/
def callToks (f : List Char) (args : List (List Tok)) : List Tok := .name f :: .op ['('] :: (commas args ++ [.op [')']])

/-- The tokens of a variable. -/
def varToks (fl : Flags) (x : List Char) : List Tok :=
  if fl.nonLocal then [.name "vars".toList, .op ['['], .str x, .op [']']] else [.name x]

/-- The tokens of a binary operation. -/
def binToks (fl : Flags) (op : BinOp) (l r : List Tok) : List Tok :=
  match op.lib with
  | some f =>
    if fl.opOnInt then callToks f [l, r]
    else if op = .at_ then .op ['('] :: ((l ++ .op op.py :: r) ++ [.op [')']])
    else l ++ .op op.py :: r
  | none => l ++ .op op.py :: r

/-- The tokens of a unary operation. -/
def unaryToks (fl : Flags) (op : UnOp) (e : List Tok) : List Tok :=
  match op with
  | .not_ => if fl.opOnInt then callToks "myInvert".toList [e] else .op ['~'] :: e
  | .plus => .op ['+'] :: e
  | .minus => .op ['-'] :: e

mutual

/-- The tokens of an expression. -/
def toks (fl : Flags) : Compiler.Expr → List Tok
  | .num n => [.int n]
  | .dec a b => [.float a b]
  | .var x => varToks fl x
  | .str ps => [.fstr (pieces fl.nonLocal ps)]
  | .group e => .op ['('] :: (toks fl e ++ [.op [')']])
  | .bin op l r => binToks fl op (toks fl l) (toks fl r)
  | .ndm l r => callToks "roll".toList [toks fl l, toks fl r]
  | .dm r => callToks "roll".toList [toks fl r]
  | .unary op e => unaryToks fl op (toks fl e)
  | .hash e => callToks (if fl.opOnInt then "myLen".toList else "len".toList) [toks fl e]
  | .seq es => .name "get_seq".toList :: .op ['('] :: .op ['['] :: (commas (elemToks fl es) ++ [.op [']'], .op [')']])
  | .call cs => callToks (mangle fl cs.names) (argToks fl cs ++ if fl.nonLocal then [[.name "vars".toList]] else [])

/-- The tokens of the elements. -/
def elemToks (fl : Flags) : Elems → List (List Tok)
  | .nil => []
  | .expr e es => toks fl e :: elemToks fl es
  | .range l r es => callToks "myrange".toList [toks fl l, toks fl r] :: elemToks fl es

/-- The tokens of the arguments. -/
def argToks (fl : Flags) : CallParts → List (List Tok)
  | .nil => []
  | .word _ cs => argToks fl cs
  | .arg e cs => toks fl e :: argToks fl cs

end

/-- The text has the tokens wherever it stands before a boundary. -/
def LexOK (s : List Char) (ts : List Tok) : Prop := ∀ rest us, Boundary rest → Lexes rest us → Lexes (s ++ rest) (ts ++ us)

/-- A name that is not a keyword. -/
def NameOK (w : List Char) : Prop :=
  w ≠ [] ∧ (∀ c, w.head? = some c → nameStart c = true) ∧ (∀ c ∈ w, nameChar c = true) ∧ w ∉ keywords

theorem lexOK_name {w : List Char} (h : NameOK w) : LexOK w [.name w] :=
  fun _ _ hb hl => lexes_name h.1 h.2.1 h.2.2.1 h.2.2.2 hb hl

theorem lexOK_paren {s : List Char} {ts : List Tok} (h : LexOK s ts) : LexOK ("(".toList ++ s ++ ")".toList) (.op ['('] :: (ts ++ [.op [')']])) := by
  intro rest us _ hl
  have h1 : Lexes (s ++ (')' :: rest)) (ts ++ .op [')'] :: us) := h _ _ (boundary_cons (by decide) _) (lexes_bracket (by decide) hl)
  have h2 : Lexes ('(' :: (s ++ (')' :: rest))) (.op ['('] :: (ts ++ .op [')'] :: us)) := lexes_bracket (by decide) h1
  have e1 : "(".toList ++ s ++ ")".toList ++ rest = '(' :: (s ++ (')' :: rest)) := by simp
  have e2 : Tok.op ['('] :: (ts ++ [.op [')']]) ++ us = .op ['('] :: (ts ++ .op [')'] :: us) := by simp
  rw [e1, e2]
  exact h2

theorem lexes_opSpace {c : Char} {s : List Char} {ts : List Tok} (hc : OpChar c) (h1 : [c] ∈ ops1) (h2 : [c, ' '] ∉ ops2)
    (h : Lexes (' ' :: s) ts) : Lexes (c :: ' ' :: s) (.op [c] :: ts) := lexes_op1 hc h1 h2 h

theorem lexes_pyOp (op : BinOp) {s : List Char} {ts : List Tok} (h : Lexes s ts) : Lexes (op.py ++ ' ' :: s) (.op op.py :: ts) := by
  have h' := lexes_space h
  cases op
  case add => exact lexes_opSpace (c := '+') (by decide) (by decide) (by decide) h'
  case sub => exact lexes_opSpace (c := '-') (by decide) (by decide) (by decide) h'
  case mul => exact lexes_opSpace (c := '*') (by decide) (by decide) (by decide) h'
  case div => exact lexes_op2 (by decide) (by decide) h'
  case pow => exact lexes_op2 (by decide) (by decide) h'
  case at_ => exact lexes_opSpace (c := '@') (by decide) (by decide) (by decide) h'
  case and_ => exact lexes_opSpace (c := '&') (by decide) (by decide) (by decide) h'
  case or_ => exact lexes_opSpace (c := '|') (by decide) (by decide) (by decide) h'
  case lt => exact lexes_opSpace (c := '<') (by decide) (by decide) (by decide) h'
  case gt => exact lexes_opSpace (c := '>') (by decide) (by decide) (by decide) h'
  case eq => exact lexes_op2 (by decide) (by decide) h'
  case ne => exact lexes_op2 (by decide) (by decide) h'
  case le => exact lexes_op2 (by decide) (by decide) h'
  case ge => exact lexes_op2 (by decide) (by decide) h'

theorem lexOK_op (op : BinOp) {l r : List Char} {tl tr : List Tok} (hl : LexOK l tl) (hr : LexOK r tr) :
    LexOK (l ++ " ".toList ++ op.py ++ " ".toList ++ r) (tl ++ .op op.py :: tr) := by
  intro rest us hb hs
  have h1 := hl _ _ (boundary_cons (by decide) _) (lexes_space (lexes_pyOp op (hr rest us hb hs)))
  have e1 : l ++ " ".toList ++ op.py ++ " ".toList ++ r ++ rest = l ++ ' ' :: (op.py ++ ' ' :: (r ++ rest)) := by simp
  have e2 : tl ++ Tok.op op.py :: tr ++ us = tl ++ Tok.op op.py :: (tr ++ us) := by simp
  rw [e1, e2]
  exact h1

theorem lexes_join {ss : List (List Char)} {tss : List (List Tok)} (h : List.Forall₂ LexOK ss tss) {rest : List Char} {us : List Tok}
    (hb : Boundary rest) (hl : Lexes rest us) : Lexes (join ", ".toList ss ++ rest) (commas tss ++ us) := by
  induction h with
  | nil => exact hl
  | @cons s ts ss tss h hs ih =>
    cases hs with
    | nil => exact h rest us hb hl
    | @cons s' ts' ss tss h' hs =>
      have h1 := h _ _ (boundary_cons (by decide) _) (lexes_bracket (c := ',') (by decide) (lexes_space ih))
      have e1 : join ", ".toList (s :: s' :: ss) ++ rest = s ++ ',' :: ' ' :: (join ", ".toList (s' :: ss) ++ rest) := by
        simp [join]
      have e2 : commas (ts :: ts' :: tss) ++ us = ts ++ Tok.op [','] :: (commas (ts' :: tss) ++ us) := by
        simp [commas]
      rw [e1, e2]
      exact h1

theorem lexOK_call {f : List Char} (hf : NameOK f) {ss : List (List Char)} {tss : List (List Tok)} (h : List.Forall₂ LexOK ss tss) :
    LexOK (callText f ss) (callToks f tss) := by
  intro rest us _ hl
  have h1 := lexes_join h (boundary_cons (c := ')') (by decide) rest) (lexes_bracket (c := ')') (by decide) hl)
  have h2 := lexOK_name hf _ _ (boundary_cons (c := '(') (by decide) _) (lexes_bracket (c := '(') (by decide) h1)
  have e1 : callText f ss ++ rest = f ++ '(' :: (join ", ".toList ss ++ ')' :: rest) := by simp [callText]
  have e2 : callToks f tss ++ us = [.name f] ++ Tok.op ['('] :: (commas tss ++ Tok.op [')'] :: us) := by simp [callToks]
  rw [e1, e2]
  exact h2

/-- The text begins so that a sign can stand before it. -/
def FirstOK (s : List Char) : Prop := ∃ c cs, s = c :: cs ∧ c ≠ '=' ∧ c ≠ '>'

theorem FirstOK.append {s : List Char} (h : FirstOK s) (r : List Char) : FirstOK (s ++ r) := by
  obtain ⟨c, cs, rfl, h⟩ := h
  exact ⟨c, cs ++ r, rfl, h⟩

theorem lexOK_unary (fl : Flags) (op : UnOp) {s : List Char} {ts : List Tok} (h : LexOK s ts) (hs : FirstOK s) :
    LexOK (emitUnary fl op s) (unaryToks fl op ts) := by
  unfold emitUnary unaryToks
  cases op with
  | not_ =>
    dsimp only
    split
    · exact lexOK_call ⟨by decide, by decide, by decide, by decide⟩ (.cons h .nil)
    · intro rest us hb hl
      exact lexes_bracket (by decide) (h rest us hb hl)
  | plus =>
    intro rest us hb hl
    obtain ⟨c, cs, rfl, hc1, hc2⟩ := hs
    refine lexes_op1 (c := '+') (by decide) (by decide) ?_ (h rest us hb hl)
    simp [ops2, hc1]
  | minus =>
    intro rest us hb hl
    obtain ⟨c, cs, rfl, hc1, hc2⟩ := hs
    refine lexes_op1 (c := '-') (by decide) (by decide) ?_ (h rest us hb hl)
    simp [ops2, hc1, hc2]

theorem lexOK_bin (fl : Flags) (op : BinOp) {l r : List Char} {tl tr : List Tok} (hl : LexOK l tl) (hr : LexOK r tr) :
    LexOK (emitBin fl op l r) (binToks fl op tl tr) := by
  have h1 := lexOK_op op hl hr
  unfold emitBin binToks
  cases hf : op.lib with
  | none => exact h1
  | some f =>
    have hf' : NameOK f := by
      cases op <;> simp only [BinOp.lib] at hf <;> cases hf <;> exact ⟨by decide, by decide, by decide, by decide⟩
    dsimp only
    by_cases ho : fl.opOnInt = true
    · rw [if_pos ho, if_pos ho]
      exact lexOK_call hf' (.cons hl (.cons hr .nil))
    · rw [if_neg ho, if_neg ho]
      by_cases ha : op = .at_
      · rw [if_pos ha, if_pos ha]
        have h2 := lexOK_paren h1
        have e : "(".toList ++ (l ++ " ".toList ++ op.py ++ " ".toList ++ r) ++ ")".toList =
            "(".toList ++ l ++ " ".toList ++ op.py ++ " ".toList ++ r ++ ")".toList := by simp only [List.append_assoc]
        rw [← e]
        exact h2
      · rw [if_neg ha, if_neg ha]
        exact h1

theorem nameOK_var {x : List Char} (h : VarName x) : NameOK x := by
  have key : ∀ c, UpLetter c → nameStart c = true ∧ nameChar c = true ∧ ∀ k ∈ keywords, ¬ ∀ d ∈ k, UpLetter d := by
    intro c hc
    refine ⟨?_, ?_, by decide⟩
    · rcases hc with ⟨h1, h2⟩ | rfl
      · have : c.isUpper = true := by
          unfold Char.isUpper
          exact decide_eq_true ⟨h1, h2⟩
        simp [nameStart, Char.isAlpha, this]
      · decide
    · rcases hc with ⟨h1, h2⟩ | rfl
      · have : c.isUpper = true := by
          unfold Char.isUpper
          exact decide_eq_true ⟨h1, h2⟩
        simp [nameChar, Char.isAlphanum, Char.isAlpha, this]
      · decide
  refine ⟨h.1, ?_, fun c hc => (key c (h.2 c hc)).2.1, ?_⟩
  · intro c hc
    exact (key c (h.2 c (List.mem_of_head? hc))).1
  · intro hk
    exact (key '_' (Or.inr rfl)).2.2 x hk h.2

theorem lexOK_var (fl : Flags) {x : List Char} (h : VarName x) : LexOK (emitVar fl x) (varToks fl x) := by
  unfold emitVar varToks
  split
  · intro rest us hb hl
    have h1 := lexOK_name (w := "vars".toList) ⟨by decide, by decide, by decide, by decide⟩ _ _ (boundary_cons (c := '[') (by decide) _)
      (lexes_bracket (c := '[') (by decide) (lexes_str (x := x) (fun c hc => upLetter_ne (h.2 c hc) (by decide)) (lexes_bracket (c := ']') (by decide) hl)))
    have e1 : "vars['".toList ++ x ++ "']".toList ++ rest = "vars".toList ++ '[' :: '\'' :: (x ++ '\'' :: ']' :: rest) := by simp
    rw [e1]
    exact h1
  · exact lexOK_name (nameOK_var h)

/-! ## Names of functions -/

theorem nameChar_of_start {c : Char} (h : nameStart c = true) : nameChar c = true := by
  unfold nameStart at h
  unfold nameChar Char.isAlphanum
  rw [Bool.or_eq_true] at h ⊢
  rcases h with h | h
  · exact Or.inl (by rw [h]; rfl)
  · exact Or.inr h

theorem start_word {w : List Char} (h : Word w) : ∀ c ∈ w, nameStart c = true := by
  intro c hc
  obtain ⟨h1, h2⟩ := h.2 c hc
  have : c.isLower = true := by
    unfold Char.isLower
    rw [Bool.and_eq_true, decide_eq_true_eq, decide_eq_true_eq]
    exact ⟨h1, h2⟩
  simp [nameStart, Char.isAlpha, this]

theorem join_eq_intercalate (sep : List Char) (ls : List (List Char)) : join sep ls = sep.intercalate ls := by
  induction ls with
  | nil => rfl
  | cons p ps ih =>
    cases ps with
    | nil => simp [join, List.intercalate]
    | cons q ps =>
      rw [join, ih]
      simp [List.intercalate]

theorem names_callSig (cs : CallParts) : (callSig cs).map (fun w => w.getD ['X']) = cs.names := by
  match cs with
  | .nil => rfl
  | .word w cs => rw [callSig, CallParts.names, List.map_cons, names_callSig cs]; rfl
  | .arg e cs => rw [callSig, CallParts.names, List.map_cons, names_callSig cs]; rfl

theorem pyName_eq (fl : Flags) (cs : CallParts) : pyName fl.libConflict (callSig cs) = mangle fl cs.names := by
  unfold pyName mangle
  rw [names_callSig, join_eq_intercalate]
  cases fl.libConflict <;> rfl

theorem names_good {lit : Char → Prop} {dig : Char → Bool} (cs : CallParts) (h : CallOK dig lit cs) :
    ∀ w ∈ cs.names, w ≠ [] ∧ ∀ c ∈ w, nameStart c = true := by
  match cs with
  | .nil => intro w hw; cases hw
  | .word w cs =>
    intro v hv
    rcases List.mem_cons.1 hv with rfl | hv
    · exact ⟨h.1.1, start_word h.1⟩
    · exact names_good cs h.2 v hv
  | .arg e cs =>
    intro v hv
    rcases List.mem_cons.1 hv with rfl | hv
    · exact ⟨by decide, by decide⟩
    · exact names_good cs h.2 v hv

theorem join_start {ls : List (List Char)} (h : ∀ w ∈ ls, w ≠ [] ∧ ∀ c ∈ w, nameStart c = true) :
    (∀ c ∈ join "_".toList ls, nameStart c = true) ∧ (ls ≠ [] → join "_".toList ls ≠ []) := by
  induction ls with
  | nil => exact ⟨fun c hc => by simp [join] at hc, fun h => absurd rfl h⟩
  | cons p ps ih =>
    have ih := ih fun w hw => h w (List.mem_cons_of_mem _ hw)
    have hp := h p List.mem_cons_self
    cases ps with
    | nil => exact ⟨hp.2, fun _ => hp.1⟩
    | cons q ps =>
      rw [join]
      refine ⟨fun c hc => ?_, fun _ => by simp [hp.1]⟩
      rcases List.mem_append.1 hc with hc | hc
      · rcases List.mem_append.1 hc with hc | hc
        · exact hp.2 c hc
        · simp at hc; subst hc; decide
      · exact ih.1 c hc

theorem mangle_start (fl : Flags) {ls : List (List Char)} (h : ∀ w ∈ ls, w ≠ [] ∧ ∀ c ∈ w, nameStart c = true) (hne : ls ≠ []) :
    (∀ c ∈ mangle fl ls, nameStart c = true) ∧ mangle fl ls ≠ [] := by
  unfold mangle
  split
  · have := join_start (ls := "f".toList :: ls) fun w hw => by
      rcases List.mem_cons.1 hw with rfl | hw
      · exact ⟨by decide, by decide⟩
      · exact h w hw
    exact ⟨this.1, this.2 (by simp)⟩
  · have := join_start h
    exact ⟨this.1, this.2 hne⟩

theorem names_ne {cs : CallParts} (h : cs ≠ .nil) : cs.names ≠ [] := by
  cases cs with
  | nil => exact absurd rfl h
  | word w cs => simp [CallParts.names]
  | arg e cs => simp [CallParts.names]

theorem nameOK_mangle (fl : Flags) {lit : Char → Prop} {dig : Char → Bool} {cs : CallParts} (hne : cs ≠ .nil) (h : CallOK dig lit cs)
    (hk : pyName fl.libConflict (callSig cs) ∉ keywords) : NameOK (mangle fl cs.names) := by
  have h1 := mangle_start fl (names_good cs h) (names_ne hne)
  refine ⟨h1.2, fun c hc => h1.1 c (List.mem_of_head? hc), fun c hc => nameChar_of_start (h1.1 c hc), ?_⟩
  rw [← pyName_eq]
  exact hk

/-! ## First characters -/

theorem firstOK_start {s : List Char} (hne : s ≠ []) (h : ∀ c, s.head? = some c → nameStart c = true) : FirstOK s := by
  cases s with
  | nil => exact absurd rfl hne
  | cons c s =>
    have := h c rfl
    exact ⟨c, s, rfl, by rintro rfl; exact absurd this (by decide), by rintro rfl; exact absurd this (by decide)⟩

theorem firstOK_digits {s : List Char} (h : Digits Char.isDigit s) : FirstOK s := by
  cases s with
  | nil => exact absurd rfl h.1
  | cons c s =>
    have := h.2 c List.mem_cons_self
    exact ⟨c, s, rfl, by rintro rfl; exact absurd this (by decide), by rintro rfl; exact absurd this (by decide)⟩

theorem firstOK_lit {s : List Char} (h : ∀ c ∈ s.head?, c ≠ '=' ∧ c ≠ '>') (hne : s ≠ []) : FirstOK s := by
  cases s with
  | nil => exact absurd rfl hne
  | cons c s => exact ⟨c, s, rfl, h c rfl⟩

theorem firstOK_call {f : List Char} (h : FirstOK f) (args : List (List Char)) : FirstOK (callText f args) :=
  ((h.append _).append _).append _

theorem firstOK_bin (fl : Flags) (op : BinOp) {l : List Char} (h : FirstOK l) (r : List Char) : FirstOK (emitBin fl op l r) := by
  unfold emitBin
  split
  · next f hf =>
    split
    · refine firstOK_call ?_ _
      cases op <;> simp only [BinOp.lib] at hf <;> cases hf <;> exact firstOK_lit (by decide) (by decide)
    · split
      · exact (((((firstOK_lit (by decide) (by decide) : FirstOK "(".toList).append _).append _).append _).append _).append _ |>.append _
      · exact (((h.append _).append _).append _).append _
  · exact (((h.append _).append _).append _).append _

theorem firstOK_unary (fl : Flags) (op : UnOp) (e : List Char) : FirstOK (emitUnary fl op e) := by
  unfold emitUnary
  split
  · split
    · exact firstOK_call (firstOK_lit (by decide) (by decide)) _
    · exact (firstOK_lit (by decide) (by decide) : FirstOK "~".toList).append _
  · exact (firstOK_lit (by decide) (by decide) : FirstOK "+".toList).append _
  · exact (firstOK_lit (by decide) (by decide) : FirstOK "-".toList).append _

theorem firstOK_emitVar (fl : Flags) {x : List Char} (h : VarName x) : FirstOK (emitVar fl x) := by
  unfold emitVar
  split
  · exact ((firstOK_lit (by decide) (by decide) : FirstOK "vars['".toList).append _).append _
  · exact firstOK_start h.1 (nameOK_var h).2.1

theorem firstOK_expr (fl : Flags) (lit : Char → Prop) : ∀ e : Compiler.Expr, ExprOK Char.isDigit lit e → FirstOK (e.emit fl)
  | .num _, h => firstOK_digits h
  | .dec _ _, h => ((firstOK_digits h.1).append _).append _
  | .var _, h => firstOK_emitVar fl h
  | .str _, _ => ((firstOK_lit (by decide) (by decide) : FirstOK "f\"".toList).append _).append _
  | .group _, _ => ((firstOK_lit (by decide) (by decide) : FirstOK "(".toList).append _).append _
  | .bin op l _, h => firstOK_bin fl op (firstOK_expr fl lit l h.1) _
  | .ndm _ _, _ => firstOK_call (firstOK_lit (by decide) (by decide)) _
  | .dm _, _ => firstOK_call (firstOK_lit (by decide) (by decide)) _
  | .unary op _, _ => firstOK_unary fl op _
  | .hash _, _ => firstOK_call (by split <;> exact firstOK_lit (by decide) (by decide)) _
  | .seq _, _ => ((firstOK_lit (by decide) (by decide) : FirstOK "get_seq([".toList).append _).append _
  | .call cs, h => firstOK_call (by
      have := mangle_start fl (names_good cs h.2) (names_ne h.1)
      exact firstOK_start this.2 fun c hc => this.1 c (List.mem_of_head? hc)) _

/-! ## Tokens of an expression -/

theorem lexOK_str (fl : Flags) {ps : List StrPart} (h : PartsOK PlainChar ps) : LexOK (emitStr fl ps) [.fstr (pieces fl.nonLocal ps)] := by
  intro rest us _ hl
  have h1 := (reads_parts fl ps h rest).1
  have e : emitStr fl ps ++ rest = 'f' :: '"' :: ((ps.flatMap (StrPart.emit fl) ++ ['"']) ++ rest) := by simp [emitStr]
  rw [e]
  refine lexes_fstr ?_ hl
  rw [List.append_assoc]
  exact h1

/-- What is needed of the tokens: integers without leading zeros, function names that are not keywords. -/
structure TokenOK (fl : Flags) (sub : Compiler.Expr → Prop) : Prop where
  int : ∀ n, sub (.num n) → IntLiteral n
  name : ∀ cs, sub (.call cs) → pyName fl.libConflict (callSig cs) ∉ keywords

theorem TokenOK.mono {fl : Flags} {p q : Compiler.Expr → Prop} (h : TokenOK fl p) (hpq : ∀ e, q e → p e) : TokenOK fl q :=
  ⟨fun n hn => h.int n (hpq _ hn), fun cs hc => h.name cs (hpq _ hc)⟩

theorem emit_dec (fl : Flags) (a b rest : List Char) : Expr.emit fl (.dec a b) ++ rest = a ++ '.' :: (b ++ rest) := by
  have : Expr.emit fl (.dec a b) = a ++ ".".toList ++ b := rfl
  rw [this]
  simp

theorem emit_seq (fl : Flags) (es : Elems) (rest : List Char) :
    Expr.emit fl (.seq es) ++ rest = "get_seq".toList ++ '(' :: '[' :: (join ", ".toList (es.emit fl) ++ ']' :: ')' :: rest) := by
  have : Expr.emit fl (.seq es) = "get_seq([".toList ++ join ", ".toList (es.emit fl) ++ "])".toList := rfl
  rw [this]
  simp

theorem toks_seq (fl : Flags) (es : Elems) (us : List Tok) : toks fl (.seq es) ++ us = [Tok.name "get_seq".toList] ++ Tok.op ['('] ::
    Tok.op ['['] :: (commas (elemToks fl es) ++ Tok.op [']'] :: Tok.op [')'] :: us) := by
  have : toks fl (.seq es) = .name "get_seq".toList :: .op ['('] :: .op ['['] :: (commas (elemToks fl es) ++ [.op [']'], .op [')']]) := rfl
  rw [this]
  simp

mutual

theorem lexOK_expr (fl : Flags) (e : Compiler.Expr) (h : ExprOK Char.isDigit PlainChar e) (hk : TokenOK fl fun s => SubExpr s e) :
    LexOK (e.emit fl) (toks fl e) := by
  match e with
  | .num n => exact fun rest us hb hl => lexes_int h (hk.int n (.refl _)) hb hl
  | .dec a b =>
    intro rest us hb hl
    rw [emit_dec]
    exact lexes_float h.1 h.2 hb hl
  | .var x => exact lexOK_var fl h
  | .str ps => exact lexOK_str fl h
  | .group e => exact lexOK_paren (lexOK_expr fl e h (hk.mono fun s hs => .group hs))
  | .bin op l r =>
    exact lexOK_bin fl op (lexOK_expr fl l h.1 (hk.mono fun s hs => .binL hs)) (lexOK_expr fl r h.2 (hk.mono fun s hs => .binR hs))
  | .ndm l r =>
    exact lexOK_call ⟨by decide, by decide, by decide, by decide⟩ (.cons (lexOK_expr fl l h.1 (hk.mono fun s hs => .ndmL hs))
      (.cons (lexOK_expr fl r h.2 (hk.mono fun s hs => .ndmR hs)) .nil))
  | .dm r =>
    exact lexOK_call ⟨by decide, by decide, by decide, by decide⟩ (.cons (lexOK_expr fl r h (hk.mono fun s hs => .dm hs)) .nil)
  | .unary op e =>
    exact lexOK_unary fl op (lexOK_expr fl e h (hk.mono fun s hs => .unary hs)) (firstOK_expr fl _ e h)
  | .hash e =>
    exact lexOK_call (by split <;> exact ⟨by decide, by decide, by decide, by decide⟩)
      (.cons (lexOK_expr fl e h (hk.mono fun s hs => .hash hs)) .nil)
  | .seq es =>
    intro rest us _ hl
    have h1 := lexes_join (lexOK_elems fl es h (hk.mono fun s hs => .seq hs)) (boundary_cons (c := ']') (by decide) _)
      (lexes_bracket (c := ']') (by decide) (lexes_bracket (c := ')') (by decide) hl))
    have h2 := lexOK_name (w := "get_seq".toList) ⟨by decide, by decide, by decide, by decide⟩ _ _ (boundary_cons (c := '(') (by decide) _)
      (lexes_bracket (c := '(') (by decide) (lexes_bracket (c := '[') (by decide) h1))
    rw [emit_seq, toks_seq]
    exact h2
  | .call cs =>
    refine lexOK_call (nameOK_mangle fl h.1 h.2 (hk.name cs (.refl _))) ?_
    have h1 := lexOK_args fl cs h.2 (hk.mono fun s hs => .call hs)
    unfold withVars
    split
    · exact List.rel_append h1 (.cons (lexOK_name ⟨by decide, by decide, by decide, by decide⟩) .nil)
    · rw [List.append_nil]
      exact h1

theorem lexOK_elems (fl : Flags) (es : Elems) (h : ElemsOK Char.isDigit PlainChar es) (hk : TokenOK fl fun s => SubElem s es) :
    List.Forall₂ LexOK (es.emit fl) (elemToks fl es) := by
  match es with
  | .nil => exact .nil
  | .expr e es =>
    exact .cons (lexOK_expr fl e h.1 (hk.mono fun s hs => .expr hs)) (lexOK_elems fl es h.2 (hk.mono fun s hs => .afterExpr hs))
  | .range l r es =>
    exact .cons (lexOK_call ⟨by decide, by decide, by decide, by decide⟩ (.cons (lexOK_expr fl l h.1 (hk.mono fun s hs => .rangeL hs))
      (.cons (lexOK_expr fl r h.2.1 (hk.mono fun s hs => .rangeR hs)) .nil))) (lexOK_elems fl es h.2.2 (hk.mono fun s hs => .afterRange hs))

theorem lexOK_args (fl : Flags) (cs : CallParts) (h : CallOK Char.isDigit PlainChar cs) (hk : TokenOK fl fun s => SubArg s cs) :
    List.Forall₂ LexOK (cs.emit fl) (argToks fl cs) := by
  match cs with
  | .nil => exact .nil
  | .word w cs => exact lexOK_args fl cs h.2 (hk.mono fun s hs => .afterWord hs)
  | .arg e cs =>
    exact .cons (lexOK_expr fl e h.1 (hk.mono fun s hs => .arg hs)) (lexOK_args fl cs h.2 (hk.mono fun s hs => .afterArg hs))

end

end PythonDice
