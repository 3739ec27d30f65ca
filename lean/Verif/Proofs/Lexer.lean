import Verif.Model.Lexer
import Mathlib.Tactic.Common
import Mathlib.Data.List.TakeWhile
import Mathlib.Order.Nat

/-!
# Lemmas about the tokenizer
-/

namespace PythonDice.Lexer

variable {dig : Char → Bool}

/-! ## General facts about the loop -/

theorem takeWhile_append_dropWhile_tail {p : Char → Bool} {l : Text} {a : Char} (h : (l.dropWhile p).head? = some a) :
    l.takeWhile p ++ a :: (l.dropWhile p).tail = l := by
  have : a :: (l.dropWhile p).tail = l.dropWhile p := by
    cases hd : l.dropWhile p with
    | nil => rw [hd] at h; cases h
    | cons b bs => rw [hd] at h; simp at h; rw [h]; rfl
  rw [this, List.takeWhile_append_dropWhile]

theorem dropWhile_head {l : Text} {a : Char} (h : a ∈ l) : (l.dropWhile (· != a)).head? = some a := by
  induction l with
  | nil => cases h
  | cons b l ih =>
    by_cases hb : b = a
    · subst hb; simp
    · rw [List.dropWhile_cons_of_pos (by simpa using hb)]
      exact ih ((List.mem_cons.1 h).resolve_left (Ne.symm hb))

theorem head_tail {cs : Text} {a : Char} (h : cs.head? = some a) : a :: cs.tail = cs := by
  cases cs with
  | nil => cases h
  | cons b bs => simp at h; rw [h]; rfl

theorem stepSymbol_text (c : Char) (cs : Text) : (stepSymbol c cs).1.text ++ (stepSymbol c cs).2 = c :: cs := by
  unfold stepSymbol
  split_ifs with h1 h2
  · rw [h1.1]; simp [Piece.text, head_tail h1.2]
  · rw [h2.1]; simp [Piece.text, head_tail h2.2]
  · cases symKind c <;> rfl

theorem step_text (m : Mode) (c : Char) (cs : Text) : (step dig m c cs).1.text ++ (step dig m c cs).2.2 = c :: cs := by
  cases m with
  | initial =>
    simp only [step]
    unfold stepInitial
    split_ifs with h1 h2 h3 h4 h5 h6 h7
    · rfl
    · have := takeWhile_append_dropWhile_tail (dropWhile_head h2.2)
      simp only [Piece.text, List.cons_append, List.append_assoc, List.nil_append]
      rw [this, h2.1]
    · simp [Piece.text, List.takeWhile_append_dropWhile]
    · simp [Piece.text, List.takeWhile_append_dropWhile]
    · rw [h5]; rfl
    · simp [Piece.text, List.takeWhile_append_dropWhile]
    · simp [Piece.text, List.takeWhile_append_dropWhile]
    · exact stepSymbol_text c cs
  | instring =>
    simp only [step]
    unfold stepString
    split_ifs with h1 h2 h3 h4
    · rw [h1]; rfl
    · have := takeWhile_append_dropWhile_tail h3.2
      simp only [Piece.text, List.cons_append, List.append_assoc, List.nil_append]
      rw [this, h2]
    · simp [Piece.text, List.takeWhile_append_dropWhile, h2]
    · simp [Piece.text, List.takeWhile_append_dropWhile]
    · rfl

theorem step_text_ne (m : Mode) (c : Char) (cs : Text) : (step dig m c cs).1.text ≠ [] := by
  cases m with
  | initial =>
    simp only [step]
    unfold stepInitial stepSymbol
    split_ifs <;> first | (simp [Piece.text]; done) | skip
    cases symKind c <;> simp [Piece.text]
  | instring =>
    simp only [step]
    unfold stepString
    split_ifs <;> simp [Piece.text]

theorem step_length (m : Mode) (c : Char) (cs : Text) : (step dig m c cs).2.2.length ≤ cs.length := by
  have h := congrArg List.length (step_text (dig := dig) m c cs)
  have h' := List.length_pos_of_ne_nil (step_text_ne (dig := dig) m c cs)
  rw [List.length_append, List.length_cons] at h
  omega

theorem loop_fuel (n k : ℕ) (m : Mode) (s : Text) (h : s.length ≤ n) (h' : s.length ≤ k) :
    loop dig n m s = loop dig k m s := by
  induction n generalizing k m s with
  | zero =>
    rw [List.eq_nil_of_length_eq_zero (Nat.le_zero.1 h)]
    cases k <;> rfl
  | succ n ih =>
    cases s with
    | nil => cases k <;> rfl
    | cons c cs =>
      cases k with
      | zero => simp at h'
      | succ k =>
        have hl : (step dig m c cs).2.2.length ≤ cs.length := step_length m c cs
        rw [List.length_cons] at h h'
        rw [loop, loop, ih k _ _ (by omega) (by omega)]

/-- One turn of the loop, then the rest. -/
theorem run_cons (m : Mode) (c : Char) (cs : Text) :
    run dig m (c :: cs) = ((step dig m c cs).1 :: (run dig (step dig m c cs).2.1 (step dig m c cs).2.2).1,
      (run dig (step dig m c cs).2.1 (step dig m c cs).2.2).2) := by
  have hl : (step dig m c cs).2.2.length ≤ cs.length := step_length m c cs
  rw [run, List.length_cons, loop, loop_fuel _ (step dig m c cs).2.2.length _ _ hl (Nat.le_refl _)]
  rfl

/-- Induction over the turns of the loop. -/
theorem lex_induction {P : Mode → Text → Prop} (nil : ∀ m, P m [])
    (cons : ∀ m c cs, P (step dig m c cs).2.1 (step dig m c cs).2.2 → P m (c :: cs)) (m : Mode) (s : Text) : P m s := by
  induction h : s.length using Nat.strongRecOn generalizing m s with
  | ind n ih =>
    cases s with
    | nil => exact nil m
    | cons c cs =>
      refine cons m c cs (ih _ ?_ _ _ rfl)
      have := step_length (dig := dig) m c cs
      rw [← h, List.length_cons]
      omega

/-! ## What a text amounts to -/

/-- The illegal character of a piece. -/
def Piece.illegal? : Piece → Option Char
  | .illegal c => some c
  | _ => none

/-- Tokens, illegal characters and final state. -/
def obs (dig : Char → Bool) (m : Mode) (s : Text) : List Token × List Char × Mode :=
  ((run dig m s).1.filterMap Piece.token?, (run dig m s).1.filterMap Piece.illegal?, (run dig m s).2)

/-- Putting a piece in front. -/
def consObs (p : Piece) (o : List Token × List Char × Mode) : List Token × List Char × Mode :=
  (p.token?.toList ++ o.1, p.illegal?.toList ++ o.2.1, o.2.2)

theorem obs_nil (m : Mode) : obs dig m [] = ([], [], m) := rfl

theorem filterMap_cons' {α β : Type} (f : α → Option β) (a : α) (l : List α) :
    (a :: l).filterMap f = (f a).toList ++ l.filterMap f := by
  cases h : f a <;> simp [h]

theorem obs_cons (m : Mode) (c : Char) (cs : Text) :
    obs dig m (c :: cs) = consObs (step dig m c cs).1 (obs dig (step dig m c cs).2.1 (step dig m c cs).2.2) := by
  rw [obs, run_cons, filterMap_cons', filterMap_cons']
  rfl

/-- The ASCII characters matched by `\d` are the ten digits. -/
def AsciiDigits (dig : Char → Bool) : Prop := ∀ c : Char, c.toNat < 128 → (dig c = true ↔ 48 ≤ c.toNat ∧ c.toNat ≤ 57)

theorem AsciiDigits.not {dig : Char → Bool} (h : AsciiDigits dig) (c : Char) (h1 : c.toNat < 128)
    (h2 : ¬ (48 ≤ c.toNat ∧ c.toNat ≤ 57)) : dig c = false := by
  rw [Bool.eq_false_iff]
  exact fun h' => h2 ((h c h1).1 h')

theorem step_space (c : Char) (hc : c = ' ' ∨ c = '\t') (cs : Text) :
    step dig .initial c cs = (.ignored c, .initial, cs) := by
  simp only [step]; unfold stepInitial; rw [if_pos hc]

theorem step_newline (hd : AsciiDigits dig) (cs : Text) :
    step dig .initial '\n' cs = (.newlines ('\n' :: cs.takeWhile (· == '\n')), .initial, cs.dropWhile (· == '\n')) := by
  have : dig '\n' = false := hd.not _ (by decide) (by decide)
  simp only [step]; unfold stepInitial
  rw [if_neg (by decide), if_neg (by simp), if_neg (by simp [this]), if_neg (by decide), if_neg (by decide), if_pos rfl]

theorem step_comment (body cs : Text) (h : '\\' ∉ body) :
    step dig .initial '\\' (body ++ '\\' :: cs) = (.comment ('\\' :: body ++ ['\\']), .initial, cs) := by
  have e : ∀ l : Text, '\\' ∉ l → (l ++ '\\' :: cs).takeWhile (· != '\\') = l ∧
      (l ++ '\\' :: cs).dropWhile (· != '\\') = '\\' :: cs := by
    intro l hl
    induction l with
    | nil => simp
    | cons a l ih =>
      rw [List.mem_cons, not_or] at hl
      have ha : (a != '\\') = true := by simpa using Ne.symm hl.1
      rw [List.cons_append, List.takeWhile_cons_of_pos (p := (· != '\\')) ha, List.dropWhile_cons_of_pos (p := (· != '\\')) ha,
        (ih hl.2).1, (ih hl.2).2]
      exact ⟨rfl, rfl⟩
  simp only [step]; unfold stepInitial
  rw [if_neg (by decide), if_pos ⟨rfl, by simp⟩, (e body h).1, (e body h).2]
  rfl

theorem step_quote (hd : AsciiDigits dig) (cs : Text) : step dig .initial '"' cs = (.quote, .instring, cs) := by
  have : dig '"' = false := hd.not _ (by decide) (by decide)
  simp only [step]; unfold stepInitial
  rw [if_neg (by decide), if_neg (by simp), if_neg (by simp [this]), if_neg (by decide), if_pos rfl]

theorem step_endquote (cs : Text) : step dig .instring '"' cs = (.quote, .initial, cs) := by
  simp only [step]; unfold stepString; rw [if_pos rfl]

theorem obs_space (c : Char) (hc : c = ' ' ∨ c = '\t') (cs : Text) : obs dig .initial (c :: cs) = obs dig .initial cs := by
  rw [obs_cons, step_space c hc]; rfl

theorem obs_comment (body cs : Text) (h : '\\' ∉ body) :
    obs dig .initial ('\\' :: body ++ '\\' :: cs) = obs dig .initial cs := by
  rw [List.cons_append, obs_cons, step_comment body cs h]; rfl

theorem obs_newline (hd : AsciiDigits dig) (cs : Text) : obs dig .initial ('\n' :: cs) = obs dig .initial cs := by
  rw [obs_cons, step_newline hd]
  change obs dig .initial (cs.dropWhile (· == '\n')) = _
  cases cs with
  | nil => rfl
  | cons c cs =>
    by_cases hc : c = '\n'
    · subst hc
      rw [obs_cons, step_newline hd]
      rfl
    · rw [List.dropWhile_cons_of_neg (by simpa using hc)]

/-! ## Appending text after a complete piece of code -/

theorem takeWhile_app {p : Char → Bool} {cs t : Text} (h : cs.dropWhile p ≠ [] ∨ ∃ b t', t = b :: t' ∧ p b = false) :
    (cs ++ t).takeWhile p = cs.takeWhile p ∧ (cs ++ t).dropWhile p = cs.dropWhile p ++ t := by
  induction cs with
  | nil =>
    rcases h with h | ⟨b, t', rfl, hb⟩
    · exact absurd rfl h
    · simp [hb]
  | cons c cs ih =>
    by_cases hc : p c = true
    · rw [List.dropWhile_cons_of_pos hc] at h
      rw [List.cons_append, List.takeWhile_cons_of_pos hc, List.dropWhile_cons_of_pos hc, List.takeWhile_cons_of_pos hc,
        List.dropWhile_cons_of_pos hc, (ih h).1, (ih h).2]
      exact ⟨rfl, rfl⟩
    · rw [List.cons_append, List.takeWhile_cons_of_neg hc, List.dropWhile_cons_of_neg hc, List.takeWhile_cons_of_neg hc,
        List.dropWhile_cons_of_neg hc]
      exact ⟨rfl, rfl⟩

theorem dropWhile_ne_nil {p : Char → Bool} {cs : Text} {a : Char} (h : a ∈ cs) (ha : p a = false) : cs.dropWhile p ≠ [] := by
  intro h0
  have h1 := List.takeWhile_append_dropWhile (p := p) (l := cs)
  rw [h0, List.append_nil] at h1
  rw [← h1] at h
  rw [List.mem_takeWhile_imp h] at ha
  cases ha

/-- A string that is closed contains a quote. -/
theorem quote_mem (s : Text) (h : (run dig .instring s).2 = .initial) : '"' ∈ s := by
  suffices ∀ m s, m = .instring → (run dig m s).2 = .initial → '"' ∈ s from this _ s rfl h
  intro m s
  refine lex_induction (dig := dig) (P := fun m s => m = .instring → (run dig m s).2 = .initial → '"' ∈ s) ?_ ?_ m s
  · rintro m rfl h; cases h
  · rintro m c cs ih rfl h
    by_cases hc : c = '"'
    · rw [hc]; exact List.mem_cons_self
    · have hm : (step dig .instring c cs).2.1 = .instring := by
        simp only [step]; unfold stepString; rw [if_neg hc]; split_ifs <;> rfl
      rw [run_cons] at h
      have := ih hm h
      rw [← step_text (dig := dig) .instring c cs]
      exact List.mem_append_right _ this

/-- The characters layout begins with. -/
def Boundary (b : Char) : Prop := b = ' ' ∨ b = '\t' ∨ b = '\n' ∨ b = '\\'

/-! Which rule applies, by first character. -/

theorem si_digit (hd : AsciiDigits dig) {c : Char} (h : dig c = true) (cs : Text) :
    step dig .initial c cs = (.token ⟨.number, c :: cs.takeWhile dig⟩, .initial, cs.dropWhile dig) := by
  have ne : ∀ a : Char, a.toNat < 128 → ¬ (48 ≤ a.toNat ∧ a.toNat ≤ 57) → c ≠ a := by
    rintro a h1 h2 rfl
    rw [hd.not _ h1 h2] at h
    cases h
  simp only [step]; unfold stepInitial
  rw [if_neg (not_or.2 ⟨ne _ (by decide) (by decide), ne _ (by decide) (by decide)⟩),
    if_neg (fun h => ne _ (by decide) (by decide) h.1), if_pos h]

theorem si_low (hd : AsciiDigits dig) {c : Char} (h : isLow c = true) (cs : Text) :
    step dig .initial c cs =
      (.token ⟨lowerKind (c :: cs.takeWhile isLow), c :: cs.takeWhile isLow⟩, .initial, cs.dropWhile isLow) := by
  have ne : ∀ a : Char, isLow a = false → c ≠ a := by
    rintro a h1 rfl
    rw [h] at h1
    cases h1
  have hc : 97 ≤ c.toNat ∧ c.toNat ≤ 122 := by simpa [isLow] using h
  have h0 : dig c = false := hd.not _ (by omega) (by omega)
  simp only [step]; unfold stepInitial
  rw [if_neg (not_or.2 ⟨ne _ (by decide), ne _ (by decide)⟩), if_neg (fun h => ne _ (by decide) h.1),
    if_neg (by rw [h0]; exact Bool.false_ne_true), if_pos h]

theorem si_up (hd : AsciiDigits dig) {c : Char} (h : isUp c = true) (cs : Text) :
    step dig .initial c cs = (.token ⟨.uppername, c :: cs.takeWhile isUp⟩, .initial, cs.dropWhile isUp) := by
  have ne : ∀ a : Char, isUp a = false → c ≠ a := by
    rintro a h1 rfl
    rw [h] at h1
    cases h1
  have hc : (65 ≤ c.toNat ∧ c.toNat ≤ 90) ∨ c.toNat = 95 := by
    simp only [isUp, Bool.or_eq_true, decide_eq_true_eq, beq_iff_eq] at h
    rcases h with h | rfl
    · exact Or.inl h
    · exact Or.inr rfl
  have h0 : dig c = false := hd.not _ (by omega) (by omega)
  have h1 : isLow c = false := by
    simp only [isLow, decide_eq_false_iff_not]; omega
  simp only [step]; unfold stepInitial
  rw [if_neg (not_or.2 ⟨ne _ (by decide), ne _ (by decide)⟩), if_neg (fun h => ne _ (by decide) h.1),
    if_neg (by rw [h0]; exact Bool.false_ne_true), if_neg (by rw [h1]; exact Bool.false_ne_true), if_neg (ne _ (by decide)),
    if_neg (ne _ (by decide)), if_pos h]

/-- Not the beginning of layout, a number, a name or a string. -/
structure Sym (dig : Char → Bool) (c : Char) (cs : Text) : Prop where
  sp : ¬ (c = ' ' ∨ c = '\t')
  bs : ¬ (c = '\\' ∧ '\\' ∈ cs)
  dg : dig c = false
  lo : isLow c = false
  qu : c ≠ '"'
  nl : c ≠ '\n'
  up : isUp c = false

theorem si_sym {c : Char} {cs : Text} (h : Sym dig c cs) :
    step dig .initial c cs = ((stepSymbol c cs).1, .initial, (stepSymbol c cs).2) := by
  simp only [step]; unfold stepInitial
  rw [if_neg h.sp, if_neg h.bs, if_neg (by rw [h.dg]; exact Bool.false_ne_true), if_neg (by rw [h.lo]; exact Bool.false_ne_true),
    if_neg h.qu, if_neg h.nl, if_neg (by rw [h.up]; exact Bool.false_ne_true)]

/-- The cases of the first rule that applies. -/
theorem si_cases (dig : Char → Bool) (c : Char) (cs : Text) : (c = ' ' ∨ c = '\t') ∨ (c = '\\' ∧ '\\' ∈ cs) ∨ dig c = true ∨
    isLow c = true ∨ c = '"' ∨ c = '\n' ∨ isUp c = true ∨ Sym dig c cs := by
  by_cases h1 : c = ' ' ∨ c = '\t'
  · exact Or.inl h1
  by_cases h2 : c = '\\' ∧ '\\' ∈ cs
  · exact Or.inr (Or.inl h2)
  cases h3 : dig c
  swap
  · simp
  cases h4 : isLow c
  swap
  · simp
  by_cases h5 : c = '"'
  · simp [h5]
  by_cases h6 : c = '\n'
  · simp [h6]
  cases h7 : isUp c
  swap
  · simp
  exact Or.inr (Or.inr (Or.inr (Or.inr (Or.inr (Or.inr (Or.inr ⟨h1, h2, h3, h4, h5, h6, h7⟩))))))

/-- A text with a backslash splits at the first one. -/
theorem comment_split {cs : Text} (h : '\\' ∈ cs) : ∃ body rest, cs = body ++ '\\' :: rest ∧ '\\' ∉ body := by
  refine ⟨cs.takeWhile (· != '\\'), (cs.dropWhile (· != '\\')).tail, ?_, ?_⟩
  · exact (takeWhile_append_dropWhile_tail (dropWhile_head h)).symm
  · intro h'
    have := List.mem_takeWhile_imp h'
    simp at this

theorem stepSymbol_backslash (cs : Text) : stepSymbol '\\' cs = (.illegal '\\', cs) := by
  unfold stepSymbol
  rw [if_neg (by simp), if_neg (by simp)]
  rfl

theorem stepSymbol_append (c b : Char) (cs t' : Text) (hb1 : b ≠ '=') (hb2 : b ≠ '.') :
    stepSymbol c (cs ++ b :: t') = ((stepSymbol c cs).1, (stepSymbol c cs).2 ++ b :: t') := by
  have hh : ∀ a : Char, b ≠ a → ((cs ++ b :: t').head? = some a ↔ cs.head? = some a) := by
    intro a ha
    cases cs with
    | nil => simp [ha]
    | cons x xs => simp
  have ht : ∀ a : Char, cs.head? = some a → (cs ++ b :: t').tail = cs.tail ++ b :: t' := by
    intro a ha
    cases cs with
    | nil => cases ha
    | cons x xs => rfl
  unfold stepSymbol
  by_cases h1 : c = '!' ∧ cs.head? = some '='
  · rw [if_pos h1, if_pos ⟨h1.1, (hh _ hb1).2 h1.2⟩, ht _ h1.2]
  rw [if_neg h1, if_neg (fun h => h1 ⟨h.1, (hh _ hb1).1 h.2⟩)]
  by_cases h2 : c = '.' ∧ cs.head? = some '.'
  · rw [if_pos h2, if_pos ⟨h2.1, (hh _ hb2).2 h2.2⟩, ht _ h2.2]
  rw [if_neg h2, if_neg (fun h => h2 ⟨h.1, (hh _ hb2).1 h.2⟩)]
  cases symKind c <;> rfl

theorem step_append (hd : AsciiDigits dig) {m : Mode} {c b : Char} {cs t' : Text} (hb : Boundary b)
    (hi : (step dig m c cs).1.illegal? = none) (hm : m = .instring → '"' ∈ c :: cs) (hn : m = .initial → c ≠ '\n') :
    step dig m c (cs ++ b :: t') =
      ((step dig m c cs).1, (step dig m c cs).2.1, (step dig m c cs).2.2 ++ b :: t') := by
  have app : ∀ p : Char → Bool, p b = false → (cs ++ b :: t').takeWhile p = cs.takeWhile p ∧
      (cs ++ b :: t').dropWhile p = cs.dropWhile p ++ b :: t' :=
    fun p hp => takeWhile_app (Or.inr ⟨b, t', rfl, hp⟩)
  have hdb : dig b = false := by
    rcases hb with rfl | rfl | rfl | rfl <;> exact hd.not _ (by decide) (by decide)
  have hlb : isLow b = false := by rcases hb with rfl | rfl | rfl | rfl <;> decide
  have hub : isUp b = false := by rcases hb with rfl | rfl | rfl | rfl <;> decide
  have hb1 : b ≠ '=' ∧ b ≠ '.' := by rcases hb with rfl | rfl | rfl | rfl <;> decide
  cases m with
  | initial =>
    rcases si_cases dig c cs with h | ⟨rfl, h⟩ | h | h | h | h | h | h
    · rw [step_space c h, step_space c h]
    · obtain ⟨body, rest, rfl, h'⟩ := comment_split h
      rw [List.append_assoc, List.cons_append, step_comment body _ h', step_comment body _ h']
    · rw [si_digit hd h, si_digit hd h, (app dig hdb).1, (app dig hdb).2]
    · rw [si_low hd h, si_low hd h, (app isLow hlb).1, (app isLow hlb).2]
    · rw [h, step_quote hd, step_quote hd]
    · exact absurd h (hn rfl)
    · rw [si_up hd h, si_up hd h, (app isUp hub).1, (app isUp hub).2]
    · have hc : c ≠ '\\' := by
        rintro rfl
        rw [si_sym h, stepSymbol_backslash] at hi
        cases hi
      have h' : Sym dig c (cs ++ b :: t') := ⟨h.sp, fun h => hc h.1, h.dg, h.lo, h.qu, h.nl, h.up⟩
      rw [si_sym h, si_sym h', stepSymbol_append c b cs t' hb1.1 hb1.2]
  | instring =>
    simp only [step] at hi ⊢
    unfold stepString at hi ⊢
    by_cases h1 : c = '"'
    · rw [if_pos h1, if_pos h1]
    have hq : '"' ∈ cs := (List.mem_cons.1 (hm rfl)).resolve_left (Ne.symm h1)
    have app' : ∀ p : Char → Bool, p '"' = false → (cs ++ b :: t').takeWhile p = cs.takeWhile p ∧
        (cs ++ b :: t').dropWhile p = cs.dropWhile p ++ b :: t' :=
      fun p hp => takeWhile_app (Or.inl (dropWhile_ne_nil hq hp))
    rw [if_neg h1, if_neg h1]
    by_cases h2 : c = '['
    · rw [if_pos h2, if_pos h2, (app' isUp (by decide)).1, (app' isUp (by decide)).2]
      have hne := dropWhile_ne_nil hq (p := isUp) (by decide)
      obtain ⟨x, xs, hx⟩ := List.exists_cons_of_ne_nil hne
      rw [hx, List.cons_append, List.head?_cons, List.head?_cons, List.tail_cons, List.tail_cons]
      by_cases h3 : cs.takeWhile isUp ≠ [] ∧ some x = some ']'
      · rw [if_pos h3, if_pos h3]
      · rw [if_neg h3, if_neg h3, (app' strBody (by decide)).1, (app' strBody (by decide)).2]
    rw [if_neg h2, if_neg h2]
    by_cases h3 : strBody c = true
    · rw [if_pos h3, if_pos h3, (app' strBody (by decide)).1, (app' strBody (by decide)).2]
    · rw [if_neg h3, if_neg h3]

/-- After a text that ends outside strings and has no illegal character, layout is a boundary. -/
theorem obs_append (hd : AsciiDigits dig) {b : Char} (hb : Boundary b) (t' : Text) (m : Mode) (s : Text)
    (hi : (obs dig m s).2.1 = []) (hf : (obs dig m s).2.2 = .initial) :
    obs dig m (s ++ b :: t') = ((obs dig m s).1 ++ (obs dig .initial (b :: t')).1, (obs dig .initial (b :: t')).2) := by
  induction h : s.length using Nat.strongRecOn generalizing m s with
  | ind n ih =>
    cases s with
    | nil =>
      rw [obs_nil] at hf ⊢
      rw [show m = .initial from hf]
      rfl
    | cons c cs =>
      have hl : cs.length < n := by rw [← h, List.length_cons]; omega
      by_cases hn : m = .initial ∧ c = '\n'
      · obtain ⟨rfl, rfl⟩ := hn
        rw [obs_newline hd] at hi hf
        rw [List.cons_append, obs_newline hd, obs_newline hd]
        exact ih _ hl _ _ hi hf rfl
      · have hq : m = .instring → '"' ∈ c :: cs := by
          rintro rfl
          exact quote_mem _ hf
        rw [obs_cons] at hi hf
        have hi' : (step dig m c cs).1.illegal? = none ∧
            (obs dig (step dig m c cs).2.1 (step dig m c cs).2.2).2.1 = [] := by
          have h' := List.append_eq_nil_iff.1 hi
          refine ⟨?_, h'.2⟩
          cases hs : (step dig m c cs).1.illegal? with
          | none => rfl
          | some x => rw [hs] at h'; exact absurd h'.1 (by simp)
        have hs := step_append hd hb (t' := t') hi'.1 hq (fun h1 h2 => hn ⟨h1, h2⟩)
        rw [List.cons_append, obs_cons, hs, ih _ (Nat.lt_of_le_of_lt (step_length m c cs) hl) _ _ hi'.2 hf rfl, obs_cons m c cs]
        simp only [consObs, hi'.1, List.append_assoc, Option.toList_none, List.nil_append]

end PythonDice.Lexer
