import Verif.Proofs.Lexer
import Verif.Spec.Lex

/-!
# C42: lexing is lossless and insensitive to layout
-/

namespace PythonDice

open Spec Lexer

variable {dig : Char → Bool}

/-! ## The forms of tokens, stated on their own -/

/-- The spelling of the tokens that have only one. -/
def spelling : Kind → Option String
  | .plus => "+" | .minus => "-" | .times => "*" | .divide => "/" | .power => "^" | .colon => ":" | .less => "<"
  | .greater => ">" | .equals => "=" | .notequals => "!=" | .at_ => "@" | .hash => "#" | .or_ => "|" | .and_ => "&"
  | .exclamation => "!" | .dot => "." | .doubleDot => ".." | .comma => "," | .lparen => "(" | .rparen => ")"
  | .lbrace => "{" | .rbrace => "}" | .lbracket => "[" | .rbracket => "]" | .dOp => "d" | .output => "output"
  | .function => "function" | .loop => "loop" | .over => "over" | .named => "named" | .set => "set" | .to => "to"
  | .if_ => "if" | .else_ => "else" | .result => "result"
  | .lowername | .uppername | .number | .instringAny | .instringVar | .instringNonvar => none

/-- The texts that are tokens of a kind. -/
def TokenForm (dig : Char → Bool) : Kind → List Char → Prop
  | .number, v => v ≠ [] ∧ ∀ c ∈ v, dig c = true
  | .lowername, v => v ≠ [] ∧ (∀ c ∈ v, LowLetter c) ∧ ∀ w ∈ reservedWords, v ≠ w.toList
  | .uppername, v => v ≠ [] ∧ ∀ c ∈ v, UpLetter c
  | .instringVar, v => ∃ n, v = '[' :: n ++ [']'] ∧ n ≠ [] ∧ ∀ c ∈ n, UpLetter c
  | .instringNonvar, v => ∃ b, v = '[' :: b ∧ ∀ c ∈ b, LitChar c
  | .instringAny, v => v ≠ [] ∧ ∀ c ∈ v, LitChar c
  | k, v => ∃ w, spelling k = some w ∧ v = w.toList

/-- What a piece of the input may be. -/
def PieceForm (dig : Char → Bool) : Piece → Prop
  | .token t => TokenForm dig t.kind t.value
  | .ignored c => c = ' ' ∨ c = '\t'
  | .newlines s => s ≠ [] ∧ ∀ c ∈ s, c = '\n'
  | .comment s => ∃ body, s = '\\' :: body ++ ['\\'] ∧ '\\' ∉ body
  | .quote => True
  | .illegal _ => True

/-- A token of this kind goes on if this character follows. -/
def Extends (dig : Char → Bool) : Kind → Char → Prop
  | .number, c => dig c = true
  | .uppername, c => UpLetter c
  | .exclamation, c => c = '='
  | .dot, c => c = '.'
  | .lowername, c | .dOp, c | .output, c | .function, c | .loop, c | .over, c | .named, c | .set, c | .to, c | .if_, c
  | .else_, c | .result, c => LowLetter c
  | _, _ => False

/-! ## Pieces have their forms -/

theorem isLow_iff (c : Char) : isLow c = true ↔ LowLetter c := by
  simp only [isLow, decide_eq_true_eq, LowLetter, Char.le_def, UInt32.le_iff_toNat_le]
  rfl

theorem isUp_iff (c : Char) : isUp c = true ↔ UpLetter c := by
  simp only [isUp, Bool.or_eq_true, decide_eq_true_eq, beq_iff_eq, UpLetter, Char.le_def, UInt32.le_iff_toNat_le]
  rfl

theorem strBody_iff (c : Char) : strBody c = true ↔ LitChar c := by
  simp [strBody, LitChar, and_assoc]

theorem ite_some {P : Prop} [Decidable P] {a k : Kind} {r : Option Kind} (h : (if P then some a else r) = some k) :
    (P ∧ a = k) ∨ r = some k := by
  by_cases hP : P
  · rw [if_pos hP] at h; exact Or.inl ⟨hP, Option.some.inj h⟩
  · rw [if_neg hP] at h; exact Or.inr h

theorem form_symbol (c : Char) (cs : Text) : PieceForm dig (stepSymbol c cs).1 := by
  unfold stepSymbol
  split_ifs with h1 h2
  · exact ⟨_, rfl, rfl⟩
  · exact ⟨_, rfl, rfl⟩
  · cases h : symKind c with
    | none => trivial
    | some k =>
      revert h
      unfold symKind
      intro h
      iterate 22
        replace h := ite_some h
        rcases h with ⟨rfl, rfl⟩ | h
        · exact ⟨_, rfl, rfl⟩
      cases h

theorem form_lower {v : Text} (hv : v ≠ []) (h : ∀ c ∈ v, LowLetter c) : TokenForm dig (lowerKind v) v := by
  unfold lowerKind
  iterate 11
    split
    · next hc => exact ⟨_, rfl, hc⟩
  refine ⟨hv, h, ?_⟩
  intro w hw
  simp only [reservedWords, List.mem_cons, List.not_mem_nil, or_false] at hw
  rcases hw with rfl | rfl | rfl | rfl | rfl | rfl | rfl | rfl | rfl | rfl | rfl <;> assumption

theorem form_cons {p : Char → Bool} {q : Char → Prop} (hpq : ∀ c, p c = true ↔ q c) {c : Char} (hc : p c = true) (cs : Text) :
    ∀ x ∈ c :: cs.takeWhile p, q x := by
  intro x hx
  rcases List.mem_cons.1 hx with rfl | hx
  · exact (hpq _).1 hc
  · exact (hpq _).1 (List.mem_takeWhile_imp hx)

theorem step_form (m : Mode) (c : Char) (cs : Text) : PieceForm dig (step dig m c cs).1 := by
  cases m with
  | initial =>
    simp only [step]
    unfold stepInitial
    split_ifs with h1 h2 h3 h4 h5 h6 h7
    · exact h1
    · exact ⟨_, rfl, fun h => by simpa using List.mem_takeWhile_imp h⟩
    · exact ⟨List.cons_ne_nil _ _, form_cons (q := fun c => dig c = true) (fun _ => Iff.rfl) h3 cs⟩
    · exact form_lower (List.cons_ne_nil _ _) (form_cons isLow_iff h4 cs)
    · trivial
    · exact ⟨List.cons_ne_nil _ _, form_cons (p := (· == '\n')) (q := (· = '\n')) (fun _ => beq_iff_eq) (by simpa using h6) cs⟩
    · exact ⟨List.cons_ne_nil _ _, form_cons isUp_iff h7 cs⟩
    · exact form_symbol c cs
  | instring =>
    simp only [step]
    unfold stepString
    split_ifs with h1 h2 h3 h4
    · trivial
    · exact ⟨_, rfl, h3.1, fun x hx => (isUp_iff _).1 (List.mem_takeWhile_imp hx)⟩
    · exact ⟨_, rfl, fun x hx => (strBody_iff _).1 (List.mem_takeWhile_imp hx)⟩
    · exact ⟨List.cons_ne_nil _ _, form_cons strBody_iff h4 cs⟩
    · trivial

theorem run_pieces (m : Mode) (s : Text) : ((run dig m s).1.map Piece.text).flatten = s ∧
    ∀ p ∈ (run dig m s).1, PieceForm dig p := by
  refine lex_induction (dig := dig) (P := fun m s => ((run dig m s).1.map Piece.text).flatten = s ∧
    ∀ p ∈ (run dig m s).1, PieceForm dig p) ?_ ?_ m s
  · intro m
    exact ⟨rfl, fun p hp => by cases hp⟩
  · intro m c cs ih
    rw [run_cons]
    refine ⟨?_, ?_⟩
    · rw [List.map_cons, List.flatten_cons, ih.1, step_text]
    · intro p hp
      rcases List.mem_cons.1 hp with rfl | hp
      · exact step_form m c cs
      · exact ih.2 p hp

/-- **C42** (src/parser/ply/lex.py:198-303, src/parser/myparser.py:36-121): nothing is lost.  The pieces the loop makes are, in order,
the whole input, and each is a token of the right form, a blank, newlines, a comment, a quote or an illegal character. -/
theorem C42_lossless (dig : Char → Bool) (s : List Char) :
    ((run dig .initial s).1.map Piece.text).flatten = s ∧ ∀ p ∈ (run dig .initial s).1, PieceForm dig p :=
  run_pieces .initial s

/-! ## Maximal munch, and layout -/

theorem takeWhile_all {p : Char → Bool} {v t : Text} (hv : ∀ c ∈ v, p c = true) (ht : ∀ c, t.head? = some c → p c = false) :
    (v ++ t).takeWhile p = v ∧ (v ++ t).dropWhile p = t := by
  induction v with
  | nil =>
    cases t with
    | nil => exact ⟨rfl, rfl⟩
    | cons b t =>
      have := ht b rfl
      simp [this]
  | cons c v ih =>
    have hc := hv c List.mem_cons_self
    have := ih fun x hx => hv x (List.mem_cons_of_mem _ hx)
    rw [List.cons_append, List.takeWhile_cons_of_pos hc, List.dropWhile_cons_of_pos hc, this.1, this.2]
    exact ⟨rfl, rfl⟩

theorem lowerKind_of_form {k : Kind} {v : Text} (h : TokenForm dig k v) (he : ∀ c, Extends dig k c ↔ LowLetter c)
    (hk : k ≠ .uppername ∧ k ≠ .number) : lowerKind v = k ∧ v ≠ [] ∧ ∀ c ∈ v, isLow c = true := by
  have ha : Extends dig k 'a' := (he 'a').2 (by decide)
  cases k
  case number => exact absurd rfl hk.2
  case uppername => exact absurd rfl hk.1
  case exclamation => exact absurd (show 'a' = '=' from ha) (by decide)
  case dot => exact absurd (show 'a' = '.' from ha) (by decide)
  case lowername =>
    refine ⟨?_, h.1, fun c hc => (isLow_iff c).2 (h.2.1 c hc)⟩
    have := h.2.2
    simp only [reservedWords, List.mem_cons, List.not_mem_nil, or_false, forall_eq_or_imp, forall_eq] at this
    unfold lowerKind
    simp only [this, if_false]
  all_goals first
    | exact absurd ha id
    | (obtain ⟨w, hw, rfl⟩ := h
       cases hw
       decide)

/-- The kinds of tokens that only occur in string literals. -/
def InLiteral (k : Kind) : Prop := k = .instringAny ∨ k = .instringVar ∨ k = .instringNonvar

theorem sym_chars : ∀ c ∈ ['+', '-', '*', '/', '^', ':', '<', '>', '=', '@', '#', '|', '&', '!', '.', ',', '(', ')', '{', '}', '[',
    ']'], ¬ (c = ' ' ∨ c = '\t') ∧ c ≠ '\\' ∧ (c.toNat < 128 ∧ ¬ (48 ≤ c.toNat ∧ c.toNat ≤ 57)) ∧ isLow c = false ∧ c ≠ '"' ∧ c ≠ '\n' ∧
      isUp c = false := by
  decide

theorem sym_step (hd : AsciiDigits dig) (c : Char) (cs : Text)
    (hc : c ∈ ['+', '-', '*', '/', '^', ':', '<', '>', '=', '@', '#', '|', '&', '!', '.', ',', '(', ')', '{', '}', '[', ']']) :
    step dig .initial c cs = ((stepSymbol c cs).1, .initial, (stepSymbol c cs).2) := by
  obtain ⟨h1, h2, h3, h4, h5, h6, h7⟩ := sym_chars c hc
  exact si_sym ⟨h1, fun h => h2 h.1, hd.not c h3.1 h3.2, h4, h5, h6, h7⟩

theorem stepSymbol_one {c : Char} {k : Kind} {t : Text} (h : symKind c = some k) (h1 : c = '!' → t.head? ≠ some '=')
    (h2 : c = '.' → t.head? ≠ some '.') : stepSymbol c t = (.token ⟨k, [c]⟩, t) := by
  unfold stepSymbol
  rw [if_neg (fun h => h1 h.1 h.2), if_neg (fun h => h2 h.1 h.2), h]

/-- The next turn takes exactly the token, if what follows does not extend it. -/
theorem step_token (hd : AsciiDigits dig) {k : Kind} {v : Text} (h : TokenForm dig k v) (hk : ¬ InLiteral k) (t : Text)
    (ht : ∀ c, t.head? = some c → ¬ Extends dig k c) :
    ∃ c v', v = c :: v' ∧ step dig .initial c (v' ++ t) = (.token ⟨k, v⟩, .initial, t) := by
  have low : (∀ c, Extends dig k c ↔ LowLetter c) → k ≠ .uppername ∧ k ≠ .number →
      ∃ c v', v = c :: v' ∧ step dig .initial c (v' ++ t) = (.token ⟨k, v⟩, .initial, t) := by
    intro he hk'
    obtain ⟨h1, h2, h3⟩ := lowerKind_of_form h he hk'
    obtain ⟨c, v', rfl⟩ := List.exists_cons_of_ne_nil h2
    refine ⟨c, v', rfl, ?_⟩
    have htw := takeWhile_all (p := isLow) (v := v') (t := t) (fun x hx => h3 x (List.mem_cons_of_mem _ hx)) (fun x hx => by
      rw [Bool.eq_false_iff]; exact fun h' => ht x hx ((he x).2 ((isLow_iff x).1 h')))
    rw [si_low hd (h3 c List.mem_cons_self), htw.1, htw.2, h1]
  cases k
  case number =>
    obtain ⟨c, v', rfl⟩ := List.exists_cons_of_ne_nil h.1
    refine ⟨c, v', rfl, ?_⟩
    have htw := takeWhile_all (p := dig) (v := v') (t := t) (fun x hx => h.2 x (List.mem_cons_of_mem _ hx)) (fun x hx => by
      rw [Bool.eq_false_iff]; exact fun h' => ht x hx h')
    rw [si_digit hd (h.2 c List.mem_cons_self), htw.1, htw.2]
  case uppername =>
    obtain ⟨c, v', rfl⟩ := List.exists_cons_of_ne_nil h.1
    refine ⟨c, v', rfl, ?_⟩
    have htw := takeWhile_all (p := isUp) (v := v') (t := t) (fun x hx => (isUp_iff x).2 (h.2 x (List.mem_cons_of_mem _ hx)))
      (fun x hx => by rw [Bool.eq_false_iff]; exact fun h' => ht x hx ((isUp_iff x).1 h'))
    rw [si_up hd ((isUp_iff c).2 (h.2 c List.mem_cons_self)), htw.1, htw.2]
  case instringAny => exact absurd (Or.inl rfl) hk
  case instringVar => exact absurd (Or.inr (Or.inl rfl)) hk
  case instringNonvar => exact absurd (Or.inr (Or.inr rfl)) hk
  case notequals =>
    obtain ⟨w, hw, rfl⟩ := h
    cases hw
    refine ⟨'!', ['='], rfl, ?_⟩
    rw [sym_step hd _ _ (by decide)]
    rfl
  case doubleDot =>
    obtain ⟨w, hw, rfl⟩ := h
    cases hw
    refine ⟨'.', ['.'], rfl, ?_⟩
    rw [sym_step hd _ _ (by decide)]
    rfl
  case exclamation =>
    obtain ⟨w, hw, rfl⟩ := h
    cases hw
    refine ⟨'!', [], rfl, ?_⟩
    rw [sym_step hd _ _ (by decide), List.nil_append,
      stepSymbol_one (k := .exclamation) rfl (fun _ h' => ht _ h' rfl) (fun h => absurd h (by decide))]
    rfl
  case dot =>
    obtain ⟨w, hw, rfl⟩ := h
    cases hw
    refine ⟨'.', [], rfl, ?_⟩
    rw [sym_step hd _ _ (by decide), List.nil_append,
      stepSymbol_one (k := .dot) rfl (fun h => absurd h (by decide)) (fun _ h' => ht _ h' rfl)]
    rfl
  all_goals first
    | exact low (fun c => Iff.rfl) (by decide)
    | (obtain ⟨w, hw, rfl⟩ := h
       cases hw
       refine ⟨_, [], rfl, ?_⟩
       rw [sym_step hd _ _ (by decide), List.nil_append,
         stepSymbol_one rfl (fun h => absurd h (by decide)) (fun h => absurd h (by decide))]
       rfl)

theorem obs_token (hd : AsciiDigits dig) {k : Kind} {v : Text} (h : TokenForm dig k v) (hk : ¬ InLiteral k) (t : Text)
    (ht : ∀ c, t.head? = some c → ¬ Extends dig k c) :
    obs dig .initial (v ++ t) = (⟨k, v⟩ :: (obs dig .initial t).1, (obs dig .initial t).2) := by
  obtain ⟨c, v', rfl, hs⟩ := step_token hd h hk t ht
  rw [List.cons_append, obs_cons, hs]
  rfl

theorem layout_head {s : Text} (h : Layout s) : ∃ b s', s = b :: s' ∧ Boundary b := by
  induction h with
  | space => exact ⟨_, _, rfl, Or.inl rfl⟩
  | tab => exact ⟨_, _, rfl, Or.inr (Or.inl rfl)⟩
  | newline => exact ⟨_, _, rfl, Or.inr (Or.inr (Or.inl rfl))⟩
  | comment body h => exact ⟨_, _, rfl, Or.inr (Or.inr (Or.inr rfl))⟩
  | @append a b' ha hb iha ihb =>
    obtain ⟨b, s', rfl, hb⟩ := iha
    exact ⟨b, s' ++ b', rfl, hb⟩

theorem obs_layout (hd : AsciiDigits dig) {s : Text} (h : Layout s) (t : Text) : obs dig .initial (s ++ t) = obs dig .initial t := by
  induction h generalizing t with
  | space => exact obs_space _ (Or.inl rfl) _
  | tab => exact obs_space _ (Or.inr rfl) _
  | newline => exact obs_newline hd _
  | comment body h =>
    have := obs_comment (dig := dig) body t h
    rw [← this]
    simp
  | append ha hb iha ihb => rw [List.append_assoc, iha, ihb]

theorem boundary_extends (hd : AsciiDigits dig) {b : Char} (hb : Boundary b) (k : Kind) : ¬ Extends dig k b := by
  have h1 : ¬ LowLetter b := by rcases hb with rfl | rfl | rfl | rfl <;> decide
  have h2 : ¬ UpLetter b := by rcases hb with rfl | rfl | rfl | rfl <;> decide
  have h3 : ¬ dig b = true := by
    rw [Bool.not_eq_true]
    rcases hb with rfl | rfl | rfl | rfl <;> exact hd.not _ (by decide) (by decide)
  have h4 : b ≠ '=' ∧ b ≠ '.' := by rcases hb with rfl | rfl | rfl | rfl <;> decide
  cases k <;> first | exact id | exact h1 | exact h2 | exact h3 | exact h4.1 | exact h4.2

/-! ## Reports -/

theorem reports_what (data : Text) (m : Mode) (pos line : ℕ) (ps : List Piece) :
    (reportsFrom data m pos line ps).map Report.what =
      (ps.filterMap Piece.illegal?).map some ++ (if m = .instring then [none] else []) := by
  induction ps generalizing pos line with
  | nil =>
    rw [reportsFrom]
    split_ifs <;> rfl
  | cons p ps ih =>
    rw [reportsFrom, List.map_append, ih, filterMap_cons', List.map_append, List.append_assoc]
    cases p <;> rfl

theorem reports_obs (s : Text) : (reports dig s).map Report.what =
    (obs dig .initial s).2.1.map some ++ (if (obs dig .initial s).2.2 = .instring then [none] else []) :=
  reports_what _ _ _ _ _

theorem obs_of_reports {s : Text} (h : reports dig s = []) :
    (obs dig .initial s).2.1 = [] ∧ (obs dig .initial s).2.2 = .initial := by
  have := reports_obs (dig := dig) s
  rw [h] at this
  obtain ⟨h1, h2⟩ := List.append_eq_nil_iff.1 this.symm
  refine ⟨List.map_eq_nil_iff.1 h1, ?_⟩
  cases hm : (obs dig .initial s).2.2 with
  | initial => rfl
  | instring => rw [hm] at h2; simp at h2

theorem reports_nil {s : Text} (h : (obs dig .initial s).2 = ([], .initial)) : reports dig s = [] := by
  have := reports_obs (dig := dig) s
  rw [h] at this
  exact List.map_eq_nil_iff.1 this

/-- Tokens, each followed by the text that separates it from the next. -/
def render (l : List (Token × List Char)) : List Char := l.flatMap fun p => p.1.value ++ p.2

/-- The separators are layout; none is needed where the next token cannot extend the one before. -/
def Separated (dig : Char → Bool) : List (Token × List Char) → Prop
  | [] => True
  | [(_, s)] => Layout s ∨ s = []
  | (t, s) :: (u, s') :: l =>
    (Layout s ∨ (s = [] ∧ ∀ c, u.value.head? = some c → ¬ Extends dig t.kind c)) ∧ Separated dig ((u, s') :: l)

theorem obs_render (hd : AsciiDigits dig) (l : List (Token × Text))
    (hl : ∀ p ∈ l, TokenForm dig p.1.kind p.1.value ∧ ¬ InLiteral p.1.kind) (hs : Separated dig l) :
    obs dig .initial (render l) = (l.map Prod.fst, [], .initial) := by
  induction l with
  | nil => rfl
  | cons p l ih =>
    obtain ⟨⟨k, v⟩, s⟩ := p
    have hp := hl _ List.mem_cons_self
    have hl' : ∀ p ∈ l, TokenForm dig p.1.kind p.1.value ∧ ¬ InLiteral p.1.kind := fun p h => hl p (List.mem_cons_of_mem _ h)
    have hr : render ((⟨k, v⟩, s) :: l) = v ++ (s ++ render l) := by simp [render, List.append_assoc]
    rw [hr]
    have hs' : Separated dig l := by
      cases l with
      | nil => trivial
      | cons q l => exact hs.2
    have key : (Layout s ∨ s = []) ∧ ∀ c, (s ++ render l).head? = some c → ¬ Extends dig k c := by
      have lay : Layout s → ∀ c, (s ++ render l).head? = some c → ¬ Extends dig k c := by
        intro h c hc
        obtain ⟨b, s', rfl, hb⟩ := layout_head h
        cases hc
        exact boundary_extends hd hb k
      cases l with
      | nil =>
        refine ⟨hs, ?_⟩
        rcases hs with h | rfl
        · exact lay h
        · intro c hc; cases hc
      | cons q l =>
        rcases hs.1 with h | ⟨rfl, h⟩
        · exact ⟨Or.inl h, lay h⟩
        · refine ⟨Or.inr rfl, ?_⟩
          intro c hc
          refine h c ?_
          have hq := step_token hd (hl' q List.mem_cons_self).1 (hl' q List.mem_cons_self).2 [] (fun c hc => by cases hc)
          obtain ⟨d, v', hv, _⟩ := hq
          rw [hv]
          rw [render, List.flatMap_cons, hv] at hc
          exact hc
    rw [obs_token hd hp.1 hp.2 _ key.2]
    have : obs dig .initial (s ++ render l) = obs dig .initial (render l) := by
      rcases key.1 with h | rfl
      · exact obs_layout hd h _
      · rfl
    rw [this, ih hl' hs']
    rfl

/-- **C42**: every sequence of tokens outside string literals comes back from every way of writing it: whatever spaces, tabs,
newlines and comments stand between tokens, and with nothing between them where the next token cannot extend the one before. -/
theorem C42_render (hd : AsciiDigits dig) (lead : List Char) (hlead : Layout lead ∨ lead = []) (l : List (Token × List Char))
    (hl : ∀ p ∈ l, TokenForm dig p.1.kind p.1.value ∧ ¬ InLiteral p.1.kind) (hs : Separated dig l) :
    tokens dig (lead ++ render l) = l.map Prod.fst ∧ reports dig (lead ++ render l) = [] := by
  have h : obs dig .initial (lead ++ render l) = (l.map Prod.fst, [], .initial) := by
    rw [← obs_render hd l hl hs]
    rcases hlead with h | rfl
    · exact obs_layout hd h _
    · rfl
  exact ⟨congrArg Prod.fst h, reports_nil (congrArg Prod.snd h)⟩

/-- **C42**: between two parts of a program, string literals included, the kind and the amount of layout make no difference: the tokens
are those of the parts, and the same characters are reported. -/
theorem C42_layout (hd : AsciiDigits dig) (s sep t : List Char) (hs : reports dig s = []) (hsep : Layout sep) :
    tokens dig (s ++ sep ++ t) = tokens dig s ++ tokens dig t ∧
      (reports dig (s ++ sep ++ t)).map Report.what = (reports dig t).map Report.what := by
  obtain ⟨h1, h2⟩ := obs_of_reports hs
  obtain ⟨b, sep', rfl, hb⟩ := layout_head hsep
  have h := obs_append hd hb (sep' ++ t) .initial s h1 h2
  have h' := obs_layout hd hsep t
  rw [List.cons_append] at h'
  rw [h'] at h
  have e : s ++ b :: sep' ++ t = s ++ b :: (sep' ++ t) := by simp
  rw [e]
  exact ⟨congrArg Prod.fst h, by rw [reports_obs, reports_obs, h]⟩

/-! ## Unterminated strings -/

theorem place_code {v : Text} (cs : Text) (h : ∀ c ∈ v, c ≠ '"' ∧ c ≠ '\\') : placeAfter .code (v ++ cs) = placeAfter .code cs := by
  induction v with
  | nil => rfl
  | cons c v ih =>
    have hc := h c List.mem_cons_self
    rw [List.cons_append, placeAfter, if_neg hc.1, if_neg (fun h => hc.2 h.1), ih fun x hx => h x (List.mem_cons_of_mem _ hx)]

theorem place_literal {v : Text} (cs : Text) (h : ∀ c ∈ v, c ≠ '"') : placeAfter .literal (v ++ cs) = placeAfter .literal cs := by
  induction v with
  | nil => rfl
  | cons c v ih =>
    have hc := h c List.mem_cons_self
    rw [List.cons_append, placeAfter, if_neg hc, ih fun x hx => h x (List.mem_cons_of_mem _ hx)]

theorem place_comment {v : Text} (cs : Text) (h : '\\' ∉ v) : placeAfter .comment (v ++ '\\' :: cs) = placeAfter .code cs := by
  induction v with
  | nil => rw [List.nil_append, placeAfter, if_pos rfl]
  | cons c v ih =>
    rw [List.mem_cons, not_or] at h
    rw [List.cons_append, placeAfter, if_neg (Ne.symm h.1), ih h.2]

/-- The place a state stands for. -/
def modePlace : Mode → Place
  | .initial => .code
  | .instring => .literal

theorem quote_notIn {p : Char → Bool} {v : Text} (hp : p '"' = false) (hv : ∀ c ∈ v, p c = true) : ∀ c ∈ v, c ≠ '"' := by
  rintro c hc rfl
  rw [hv _ hc] at hp
  cases hp

theorem tw_cons {p : Char → Bool} {c : Char} (hc : p c = true) (cs : Text) : ∀ x ∈ c :: cs.takeWhile p, p x = true := by
  intro x hx
  rcases List.mem_cons.1 hx with rfl | hx
  · exact hc
  · exact List.mem_takeWhile_imp hx

theorem class_code {p : Char → Bool} (hp : p '"' = false ∧ p '\\' = false) {v : Text}
    (hv : ∀ c ∈ v, p c = true) : ∀ c ∈ v, c ≠ '"' ∧ c ≠ '\\' := by
  intro c hc
  constructor
  · rintro rfl; rw [hv _ hc] at hp; exact absurd hp.1 (by simp)
  · rintro rfl; rw [hv _ hc] at hp; exact absurd hp.2 (by simp)

theorem symbol_code {c : Char} {cs : Text} (h : c ≠ '"' ∧ c ≠ '\\') : ∀ x ∈ (stepSymbol c cs).1.text, x ≠ '"' ∧ x ≠ '\\' := by
  unfold stepSymbol
  split_ifs with h1 h2
  · intro x hx
    simp only [Piece.text, List.mem_cons, List.not_mem_nil, or_false] at hx
    rcases hx with rfl | rfl <;> decide
  · intro x hx
    simp only [Piece.text, List.mem_cons, List.not_mem_nil, or_false] at hx
    rcases hx with rfl | rfl <;> decide
  · cases symKind c <;>
    · intro x hx
      rw [List.mem_singleton.1 hx]
      exact h

theorem step_place (hd : AsciiDigits dig) (m : Mode) (c : Char) (cs : Text) :
    placeAfter (modePlace m) (c :: cs) = placeAfter (modePlace (step dig m c cs).2.1) (step dig m c cs).2.2 := by
  have e := step_text (dig := dig) m c cs
  have hdq : dig '"' = false := hd.not _ (by decide) (by decide)
  have hdb : dig '\\' = false := hd.not _ (by decide) (by decide)
  cases m with
  | initial =>
    change placeAfter .code _ = _
    rcases si_cases dig c cs with h | ⟨rfl, h⟩ | h | h | h | h | h | h
    · rw [step_space c h]
      exact place_code (v := [c]) cs (by rcases h with rfl | rfl <;> decide)
    · obtain ⟨body, rest, rfl, h'⟩ := comment_split h
      rw [step_comment body _ h', placeAfter, if_neg (by decide), if_pos ⟨rfl, h⟩, place_comment _ h']
      rfl
    · rw [si_digit hd h] at e ⊢
      rw [← e]
      exact place_code _ (class_code ⟨hdq, hdb⟩ (tw_cons h cs))
    · rw [si_low hd h] at e ⊢
      rw [← e]
      exact place_code _ (class_code ⟨by decide, by decide⟩ (tw_cons h cs))
    · rw [h, step_quote hd, placeAfter, if_pos rfl]
      rfl
    · rw [h, step_newline hd] at e ⊢
      rw [← e]
      exact place_code _ (class_code (p := (· == '\n')) ⟨by decide, by decide⟩ (tw_cons (by decide) cs))
    · rw [si_up hd h] at e ⊢
      rw [← e]
      exact place_code _ (class_code ⟨by decide, by decide⟩ (tw_cons h cs))
    · rw [si_sym h] at e ⊢
      by_cases hc : c = '\\'
      · subst hc
        rw [stepSymbol_backslash, placeAfter, if_neg (by decide), if_neg h.bs]
        rfl
      · rw [← e]
        exact place_code _ (symbol_code ⟨h.qu, hc⟩)
  | instring =>
    change placeAfter .literal _ = _
    by_cases h1 : c = '"'
    · rw [h1, step_endquote, placeAfter, if_pos rfl]
      rfl
    · have : (step dig .instring c cs).2.1 = .instring ∧ ∀ x ∈ (step dig .instring c cs).1.text, x ≠ '"' := by
        simp only [step]
        unfold stepString
        rw [if_neg h1]
        split_ifs with h2 h3 h4
        · refine ⟨rfl, ?_⟩
          intro x hx
          simp only [Piece.text, List.cons_append, List.mem_cons, List.mem_append, List.not_mem_nil, or_false] at hx
          rcases hx with rfl | hx | rfl
          · decide
          · exact quote_notIn (p := isUp) (by decide) (fun c hc => List.mem_takeWhile_imp hc) x hx
          · decide
        · refine ⟨rfl, ?_⟩
          intro x hx
          rcases List.mem_cons.1 hx with rfl | hx
          · decide
          · exact quote_notIn (p := strBody) (by decide) (fun c hc => List.mem_takeWhile_imp hc) x hx
        · exact ⟨rfl, quote_notIn (p := strBody) (by decide) (tw_cons h4 cs)⟩
        · exact ⟨rfl, fun x hx => by rw [List.mem_singleton.1 hx]; exact h1⟩
      rw [this.1, ← e]
      exact place_literal _ this.2

theorem run_place (hd : AsciiDigits dig) (m : Mode) (s : Text) : placeAfter (modePlace m) s = modePlace (run dig m s).2 := by
  refine lex_induction (dig := dig) (P := fun m s => placeAfter (modePlace m) s = modePlace (run dig m s).2) ?_ ?_ m s
  · intro m
    cases m <;> rfl
  · intro m c cs ih
    rw [run_cons, step_place hd, ih]

/-- **C42**: a string literal that is not closed is always reported, and nothing else is reported as one. -/
theorem C42_unclosed (hd : AsciiDigits dig) (s : List Char) :
    (∃ r ∈ reports dig s, r.what = none) ↔ placeAfter .code s = .literal := by
  have h := reports_obs (dig := dig) s
  have hp := run_place hd .initial s
  change placeAfter .code s = modePlace (obs dig .initial s).2.2 at hp
  rw [hp]
  have h2 : (∃ r ∈ reports dig s, r.what = none) ↔ none ∈ (reports dig s).map Report.what := by
    simp only [List.mem_map]
  rw [h2, h]
  cases (obs dig .initial s).2.2 <;> simp [modePlace]

/-- **C42**: exactly the illegal characters are reported, in order (an unclosed string comes last). -/
theorem C42_illegal (dig : Char → Bool) (s : List Char) :
    (reports dig s).filterMap Report.what =
      (run dig .initial s).1.filterMap fun p => match p with | .illegal c => some c | _ => none := by
  have h : (reports dig s).filterMap Report.what = ((reports dig s).map Report.what).filterMap id := by
    rw [List.filterMap_map]
    rfl
  rw [h, reports_obs, List.filterMap_append]
  have : (if (obs dig .initial s).2.2 = .instring then [none] else []).filterMap (id : Option Char → Option Char) = [] := by
    split_ifs <;> rfl
  rw [this, List.append_nil, List.filterMap_map]
  simp only [Function.comp_def, id, List.filterMap_some]
  rw [obs]
  congr 1

/-! ## Positions -/

theorem lineStart_le (s : Text) (pos : ℕ) : lineStart s pos ≤ pos := by
  unfold lineStart
  cases h : ((List.range pos).filter fun i => s[i]? == some '\n').getLast? with
  | none => exact Nat.zero_le _
  | some i =>
    have := List.mem_of_getLast? h
    have := List.mem_range.1 (List.mem_filter.1 this).1
    exact this

theorem column (s : Text) (pos : ℕ) (h : pos ≤ s.length) :
    findColumn s pos = ((s.take pos).reverse.takeWhile (· ≠ '\n')).length + 1 := by
  induction pos with
  | zero => rfl
  | succ n ih =>
    have hn : n < s.length := h
    have ih := ih (Nat.le_of_lt hn)
    have ht : (s.take (n + 1)).reverse = s[n] :: (s.take n).reverse := by
      rw [List.take_add_one, List.getElem?_eq_getElem hn]
      simp
    have hle := lineStart_le s n
    rw [ht]
    by_cases hc : s[n] = '\n'
    · rw [List.takeWhile_cons_of_neg (by simpa using hc)]
      have : lineStart s (n + 1) = n + 1 := by
        unfold lineStart
        rw [List.range_succ, List.filter_append, List.filter_cons_of_pos (by simp [hn, hc])]
        simp
      rw [findColumn, this]
      simp
    · rw [List.takeWhile_cons_of_pos (by simpa using hc), List.length_cons]
      have : lineStart s (n + 1) = lineStart s n := by
        unfold lineStart
        rw [List.range_succ, List.filter_append, List.filter_cons_of_neg (by simp [hn, hc])]
        simp
      rw [findColumn] at ih ⊢
      rw [this]
      omega

/-- The reports made from here on. -/
theorem reports_pos (data : Text) (m : Mode) (pos line : ℕ) (ps : List Piece) (pre : Text) (hpre : pre.length = pos)
    (hdata : data = pre ++ (ps.map Piece.text).flatten) : ∀ r ∈ reportsFrom data m pos line ps,
      (∀ c, r.what = some c → data[r.pos]? = some c) ∧ (r.what = none → r.pos = data.length) ∧ r.pos ≤ data.length ∧
        r.col = findColumn data r.pos := by
  induction ps generalizing pos line pre with
  | nil =>
    intro r hr
    rw [reportsFrom] at hr
    have hl : data.length = pos := by rw [hdata, ← hpre]; simp
    split_ifs at hr with hm
    · rw [List.mem_singleton.1 hr]
      exact ⟨fun c h => (by cases h), fun _ => hl.symm, Nat.le_of_eq hl.symm, rfl⟩
    · cases hr
  | cons p ps ih =>
    intro r hr
    rw [reportsFrom] at hr
    rcases List.mem_append.1 hr with hr | hr
    · cases p with
      | illegal c =>
        rw [List.mem_singleton.1 hr]
        have hg : data[pos]? = some c := by
          rw [hdata, ← hpre]
          simp [Piece.text]
        refine ⟨fun c' h => ?_, fun h => (by cases h), ?_, rfl⟩
        · cases h; exact hg
        · obtain ⟨h, _⟩ := List.getElem?_eq_some_iff.1 hg
          exact Nat.le_of_lt h
      | _ => cases hr
    · refine ih _ _ (pre ++ p.text) (by simp [hpre]) ?_ r hr
      rw [hdata]
      simp

/-- **C53** (src/parser/myparser.py:118-134): the offset in a report points at the reported character, or at the end for an unclosed
string, and the column counts the characters since the last newline, from 1. -/
theorem C53_position (dig : Char → Bool) (s : List Char) : ∀ r ∈ reports dig s,
    (∀ c, r.what = some c → s[r.pos]? = some c) ∧ (r.what = none → r.pos = s.length) ∧
      r.col = ((s.take r.pos).reverse.takeWhile (· ≠ '\n')).length + 1 := by
  intro r hr
  have h := reports_pos s _ 0 1 _ [] rfl (C42_lossless dig s).1.symm r hr
  exact ⟨h.1, h.2.1, by rw [h.2.2.2, column s _ h.2.2.1]⟩

/-- **C53** fails for the line: newlines in comments are not counted (src/parser/myparser.py:74-77 against 112-114). -/
theorem C53_line_counterexample : reports Char.isDigit "\\ a\n \\ output $".toList = [⟨some '$', 14, 1, 11⟩] ∧
    ("\\ a\n \\ output $".toList.take 14).count '\n' + 1 = 2 := by
  decide +kernel

theorem token_count (hd : AsciiDigits dig) {k : Kind} {v : Text} (h : TokenForm dig k v) : v.count '\n' = 0 := by
  have up : ∀ {c : Char}, UpLetter c → c ≠ '\n' := by rintro c hc rfl; exact absurd hc (by decide)
  rw [List.count_eq_zero]
  cases k
  case number =>
    intro hn
    exact absurd (h.2 _ hn) (by rw [hd.not _ (by decide) (by decide)]; exact Bool.false_ne_true)
  case lowername => exact fun hn => absurd (h.2.1 _ hn) (by decide)
  case uppername => exact fun hn => up (h.2 _ hn) rfl
  case instringAny => exact fun hn => (h.2 _ hn).1 rfl
  case instringVar =>
    obtain ⟨n, rfl, _, hn⟩ := h
    intro h'
    simp only [List.cons_append, List.mem_cons, List.mem_append, List.not_mem_nil, or_false] at h'
    rcases h' with h' | h' | h'
    · exact absurd h' (by decide)
    · exact up (hn _ h') rfl
    · exact absurd h' (by decide)
  case instringNonvar =>
    obtain ⟨n, rfl, hn⟩ := h
    intro h'
    rcases List.mem_cons.1 h' with h' | h'
    · exact absurd h' (by decide)
    · exact (hn _ h').1 rfl
  all_goals
    obtain ⟨w, hw, rfl⟩ := h
    cases hw
    decide

theorem piece_count (hd : AsciiDigits dig) {p : Piece} (hp : PieceForm dig p) (h1 : ∀ s, p = .comment s → '\n' ∉ s)
    (h2 : p ≠ .illegal '\n') : p.text.count '\n' = p.lineno := by
  cases p with
  | token t => exact token_count hd hp
  | ignored c => rcases hp with rfl | rfl <;> decide
  | newlines s => rfl
  | comment s => exact List.count_eq_zero.2 (h1 s rfl)
  | quote => decide
  | illegal c => exact List.count_eq_zero.2 fun h => h2 (by rw [List.mem_singleton.1 h])

theorem reports_line (hd : AsciiDigits dig) (data : Text) (m : Mode) (pos line : ℕ) (ps : List Piece) (pre : Text)
    (hpre : pre.length = pos) (hline : line = pre.count '\n' + 1) (hdata : data = pre ++ (ps.map Piece.text).flatten)
    (hf : ∀ p ∈ ps, PieceForm dig p) (hc : ∀ t, .comment t ∈ ps → '\n' ∉ t) (hi : .illegal '\n' ∉ ps) :
    ∀ r ∈ reportsFrom data m pos line ps, r.line = (data.take r.pos).count '\n' + 1 := by
  have htake : data.take pos = pre := by rw [hdata, ← hpre]; simp
  induction ps generalizing pos line pre with
  | nil =>
    intro r hr
    rw [reportsFrom] at hr
    split_ifs at hr with hm
    · rw [List.mem_singleton.1 hr]
      simp only
      rw [htake, hline]
    · cases hr
  | cons p ps ih =>
    intro r hr
    rw [reportsFrom] at hr
    rcases List.mem_append.1 hr with hr | hr
    · cases p with
      | illegal c =>
        rw [List.mem_singleton.1 hr]
        simp only
        rw [htake, hline]
      | _ => cases hr
    · have hp := piece_count hd (hf p List.mem_cons_self) (fun s hs => hc s (by rw [← hs]; exact List.mem_cons_self))
        (fun h => hi (by rw [← h]; exact List.mem_cons_self))
      refine ih _ _ (pre ++ p.text) (by simp [hpre]) (by rw [List.count_append, hp, hline]; omega) (by rw [hdata]; simp)
        (fun q hq => hf q (List.mem_cons_of_mem _ hq)) (fun t ht => hc t (List.mem_cons_of_mem _ ht))
        (fun h => hi (List.mem_cons_of_mem _ h)) ?_ r hr
      have : data = (pre ++ p.text) ++ (ps.map Piece.text).flatten := by rw [hdata]; simp
      rw [this, show pos + p.text.length = (pre ++ p.text).length by simp [hpre], List.take_left]

/-- **C53**, what holds of the line: it is right if no comment contains a newline and no newline was itself reported (as in a string
literal).  Missing: texts with such comments, where the line is wrong. -/
theorem C53_line_partial (hd : AsciiDigits dig) (s : List Char)
    (hc : ∀ t, .comment t ∈ (run dig .initial s).1 → '\n' ∉ t) (hi : .illegal '\n' ∉ (run dig .initial s).1) :
    ∀ r ∈ reports dig s, r.line = (s.take r.pos).count '\n' + 1 :=
  reports_line hd s _ 0 1 _ [] rfl rfl (C42_lossless dig s).1.symm (C42_lossless dig s).2 hc hi

/-! ## Cases -/

/-- ASCII digits are digits. -/
theorem asciiDigits_isDigit : AsciiDigits Char.isDigit := by
  intro c _
  simp only [Char.isDigit, Bool.and_eq_true, decide_eq_true_eq, ge_iff_le, UInt32.le_iff_toNat_le]
  rfl

/-- `output 2d6 + X` with comments and newlines. -/
example : tokens Char.isDigit "output 2d6\n\\ two dice \\+X".toList =
    [⟨.output, "output".toList⟩, ⟨.number, "2".toList⟩, ⟨.dOp, "d".toList⟩, ⟨.number, "6".toList⟩, ⟨.plus, "+".toList⟩,
      ⟨.uppername, "X".toList⟩] := by
  decide +kernel

/-- A literal with a variable and a bracket that is none; comments are not recognised in it. -/
example : tokens Char.isDigit "\"a \\b\\[X][y\"".toList =
    [⟨.instringAny, "a \\b\\".toList⟩, ⟨.instringVar, "[X]".toList⟩, ⟨.instringNonvar, "[y".toList⟩] ∧
    reports Char.isDigit "\"a \\b\\[X][y\"".toList = [] := by
  decide +kernel

/-- The hypotheses of `C42_layout`. -/
example : tokens Char.isDigit ("\"a\"".toList ++ "\\ \" \\".toList ++ "d".toList) =
    tokens Char.isDigit "\"a\"".toList ++ tokens Char.isDigit "d".toList :=
  (C42_layout asciiDigits_isDigit _ _ _ (by decide +kernel) (.comment " \" ".toList (by decide))).1

/-- The hypotheses of `C42_render`: `2d6..X`. -/
example : tokens Char.isDigit "2d6..X ".toList = [⟨.number, ['2']⟩, ⟨.dOp, ['d']⟩, ⟨.number, ['6']⟩, ⟨.doubleDot, ['.', '.']⟩,
    ⟨.uppername, ['X']⟩] := by
  refine (C42_render asciiDigits_isDigit [] (Or.inr rfl) [(⟨.number, ['2']⟩, []), (⟨.dOp, ['d']⟩, []), (⟨.number, ['6']⟩, []),
    (⟨.doubleDot, ['.', '.']⟩, []), (⟨.uppername, ['X']⟩, [' '])] ?_ ?_).1
  · intro p hp
    simp only [List.mem_cons, List.not_mem_nil, or_false] at hp
    rcases hp with rfl | rfl | rfl | rfl | rfl <;> refine ⟨?_, by simp [InLiteral]⟩
    · exact ⟨by decide, by decide⟩
    · exact ⟨_, rfl, rfl⟩
    · exact ⟨by decide, by decide⟩
    · exact ⟨_, rfl, rfl⟩
    · exact ⟨by decide, by decide⟩
  · refine ⟨Or.inr ⟨rfl, ?_⟩, Or.inr ⟨rfl, ?_⟩, Or.inr ⟨rfl, ?_⟩, Or.inr ⟨rfl, ?_⟩, Or.inl .space⟩ <;> rintro c hc <;> cases hc
    · exact Bool.false_ne_true
    · exact fun h => absurd (show LowLetter '6' from h) (by decide)
    · exact Bool.false_ne_true
    · exact id

/-- An unclosed literal after a comment with a quote. -/
example : placeAfter .code "\\ \" \\ \"a\\".toList = .literal ∧
    reports Char.isDigit "\\ \" \\ \"a\\".toList = [⟨none, 9, 1, 10⟩] := by
  decide +kernel

/-- Reported characters on a second line. -/
example : reports Char.isDigit "X\n $ %".toList = [⟨some '$', 3, 2, 2⟩, ⟨some '%', 5, 2, 4⟩] := by
  decide +kernel

end PythonDice
