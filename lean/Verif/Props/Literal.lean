import Verif.Proofs.Lexer
import Verif.Proofs.Resolver
import Verif.Props.Lexer
import Verif.Spec.Meaning

/-!
# C39: string literals survive compilation
-/

namespace PythonDice

open Spec Lexer Compiler

variable {dig : Char → Bool}

/-- Characters of a literal's source. -/
def BodyChar (c : Char) : Prop := c ≠ '\n' ∧ c ≠ '"'

/-- What a part stands for. -/
def partValue (env : List Char → List Char) : StrPart → List Char
  | .text s => s
  | .var x => env x

theorem decide_up (c : Char) : decide (UpLetter c) = isUp c := by
  cases h : isUp c
  · rw [decide_eq_false_iff_not, ← isUp_iff, h]; exact Bool.false_ne_true
  · rw [decide_eq_true_iff, ← isUp_iff, h]

theorem upFun : (fun c => decide (UpLetter c)) = isUp := funext decide_up

theorem substitute_skip (env : List Char → List Char) (n : ℕ) (a b : List Char) (h : a.length = n) :
    substitute env n (a ++ b) = substitute env 0 b := by
  induction a generalizing n with
  | nil => subst h; rfl
  | cons c a ih => cases n with
    | zero => cases h
    | succ n => exact ih n (by simpa using h)

theorem substitute_plain (env : List Char → List Char) (a b : List Char) (h : ∀ c ∈ a, c ≠ '[') :
    substitute env 0 (a ++ b) = a ++ substitute env 0 b := by
  induction a with
  | nil => rfl
  | cons c a ih =>
    rw [List.cons_append, substitute, if_neg (fun h' => h c List.mem_cons_self h'.1), ih fun x hx => h x (List.mem_cons_of_mem _ hx),
      List.cons_append]

/-- Reading the inside of a literal. -/
theorem literal_tokens (P : Char → Prop) (b : List Char) (hb : ∀ c ∈ b, BodyChar c) (hP : ∀ c ∈ b, P c) :
    ∃ ts, (∀ t, obs dig .instring (b ++ '"' :: t) = (ts ++ (obs dig .initial t).1, (obs dig .initial t).2)) ∧
      (∀ env, (ts.map strPart).flatMap (partValue env) = substitute env 0 b) ∧ PartsOK P (ts.map strPart) := by
  induction h : b.length using Nat.strongRecOn generalizing b with
  | ind n ih =>
    cases b with
    | nil =>
      refine ⟨[], ?_, fun _ => rfl, fun q hq => by cases hq⟩
      intro t
      rw [List.nil_append, obs_cons, step_endquote]
      rfl
    | cons c b =>
      have hc := hb c List.mem_cons_self
      have hq : ∀ p : Char → Bool, p '"' = false → ∀ t, (b ++ '"' :: t).takeWhile p = b.takeWhile p ∧
          (b ++ '"' :: t).dropWhile p = b.dropWhile p ++ '"' :: t :=
        fun p hp t => takeWhile_app (Or.inr ⟨'"', t, rfl, hp⟩)
      have hsub : ∀ p : Char → Bool, (∀ x ∈ b.dropWhile p, BodyChar x) ∧ (∀ x ∈ b.dropWhile p, P x) ∧
          (b.dropWhile p).length < n := by
        intro p
        have hd : ∀ x ∈ b.dropWhile p, x ∈ c :: b := fun x hx => List.mem_cons_of_mem _ ((List.dropWhile_suffix p).subset hx)
        refine ⟨fun x hx => hb x (hd x hx), fun x hx => hP x (hd x hx), ?_⟩
        have := (List.dropWhile_suffix (l := b) p).length_le
        rw [← h, List.length_cons]
        omega
      by_cases h1 : c = '['
      · subst h1
        by_cases h2 : b.takeWhile isUp ≠ [] ∧ (b.dropWhile isUp).head? = some ']'
        · -- a variable
          obtain ⟨w, r, hbr, hw, hwne⟩ : ∃ w r, b = w ++ ']' :: r ∧ (∀ x ∈ w, isUp x = true) ∧ w ≠ [] := by
            refine ⟨_, (b.dropWhile isUp).tail, (takeWhile_append_dropWhile_tail h2.2).symm, fun x hx => List.mem_takeWhile_imp hx, h2.1⟩
          have htw : b.takeWhile isUp = w ∧ b.dropWhile isUp = ']' :: r := by
            rw [hbr]
            exact takeWhile_all hw (fun x hx => by cases hx; decide)
          have hr : ∀ x ∈ r, x ∈ '[' :: b := by
            intro x hx
            rw [hbr]
            simp [hx]
          obtain ⟨ts, h3, h4, h5⟩ := ih r.length (by rw [← h, hbr]; simp; omega) r (fun x hx => hb x (hr x hx))
            (fun x hx => hP x (hr x hx)) rfl
          refine ⟨⟨.instringVar, '[' :: w ++ [']']⟩ :: ts, ?_, ?_, ?_⟩
          · intro t
            have hs : step dig .instring '[' (b ++ '"' :: t) = (.token ⟨.instringVar, '[' :: w ++ [']']⟩, .instring, r ++ '"' :: t) := by
              simp only [step]; unfold stepString
              rw [if_neg (by decide), if_pos rfl, (hq isUp (by decide) t).1, (hq isUp (by decide) t).2, htw.1, htw.2,
                if_pos ⟨hwne, rfl⟩]
              rfl
            rw [List.cons_append, obs_cons, hs, h3]
            rfl
          · intro env
            have hcond : (True ∧ b.takeWhile isUp ≠ [] ∧ (b.dropWhile isUp).head? = some ']') := ⟨trivial, h2⟩
            rw [List.map_cons, List.flatMap_cons, h4, substitute]
            simp only [upFun]
            rw [if_pos hcond, htw.1]
            congr 1
            · simp [strPart, partValue]
            · rw [hbr, show w ++ ']' :: r = (w ++ [']']) ++ r by simp, substitute_skip env _ _ _ (by simp)]
          · intro q hq'
            rcases List.mem_cons.1 hq' with rfl | hq'
            · simp only [strPart, if_true]
              have : ('[' :: w ++ [']']).tail.dropLast = w := by simp
              rw [this]
              exact ⟨hwne, fun x hx => (isUp_iff x).1 (hw x hx)⟩
            · exact h5 q hq'
        · -- a bracket
          obtain ⟨ts, h3, h4, h5⟩ := ih (b.dropWhile strBody).length (hsub _).2.2 _ (hsub _).1 (hsub _).2.1 rfl
          refine ⟨⟨.instringNonvar, '[' :: b.takeWhile strBody⟩ :: ts, ?_, ?_, ?_⟩
          · intro t
            have h2' : ¬ (b.takeWhile isUp ≠ [] ∧ (b.dropWhile isUp ++ '"' :: t).head? = some ']') := by
              rintro ⟨ha, hb'⟩
              refine h2 ⟨ha, ?_⟩
              cases hd : b.dropWhile isUp with
              | nil => rw [hd] at hb'; exact absurd hb' (by simp)
              | cons x xs => rw [hd] at hb'; exact hb'
            have hs : step dig .instring '[' (b ++ '"' :: t) =
                (.token ⟨.instringNonvar, '[' :: b.takeWhile strBody⟩, .instring, b.dropWhile strBody ++ '"' :: t) := by
              simp only [step]; unfold stepString
              rw [if_neg (by decide), if_pos rfl, (hq isUp (by decide) t).1, (hq isUp (by decide) t).2, if_neg h2',
                (hq strBody (by decide) t).1, (hq strBody (by decide) t).2]
            rw [List.cons_append, obs_cons, hs, h3]
            rfl
          · intro env
            have hcond : ¬ (True ∧ b.takeWhile isUp ≠ [] ∧ (b.dropWhile isUp).head? = some ']') := fun h => h2 h.2
            rw [List.map_cons, List.flatMap_cons, h4, substitute]
            simp only [upFun]
            rw [if_neg hcond]
            conv_rhs => rw [← List.takeWhile_append_dropWhile (p := strBody) (l := b)]
            rw [substitute_plain env _ _ fun x hx => ((strBody_iff x).1 (List.mem_takeWhile_imp hx)).2.2]
            rfl
          · intro q hq'
            rcases List.mem_cons.1 hq' with rfl | hq'
            · simp only [strPart]
              intro x hx
              rcases List.mem_cons.1 hx with rfl | hx
              · exact hP _ List.mem_cons_self
              · exact hP _ (List.mem_cons_of_mem _ ((List.takeWhile_prefix _).subset hx))
            · exact h5 q hq'
      · -- plain text
        have hsb : strBody c = true := (strBody_iff c).2 ⟨hc.1, hc.2, h1⟩
        obtain ⟨ts, h3, h4, h5⟩ := ih (b.dropWhile strBody).length (hsub _).2.2 _ (hsub _).1 (hsub _).2.1 rfl
        refine ⟨⟨.instringAny, c :: b.takeWhile strBody⟩ :: ts, ?_, ?_, ?_⟩
        · intro t
          have hs : step dig .instring c (b ++ '"' :: t) =
              (.token ⟨.instringAny, c :: b.takeWhile strBody⟩, .instring, b.dropWhile strBody ++ '"' :: t) := by
            simp only [step]; unfold stepString
            rw [if_neg hc.2, if_neg h1, if_pos hsb, (hq strBody (by decide) t).1, (hq strBody (by decide) t).2]
          rw [List.cons_append, obs_cons, hs, h3]
          rfl
        · intro env
          rw [List.map_cons, List.flatMap_cons, h4, substitute, if_neg (fun h => h1 h.1)]
          conv_rhs => rw [← List.takeWhile_append_dropWhile (p := strBody) (l := b)]
          rw [substitute_plain env _ _ fun x hx => ((strBody_iff x).1 (List.mem_takeWhile_imp hx)).2.2]
          rfl
        · intro q hq'
          rcases List.mem_cons.1 hq' with rfl | hq'
          · simp only [strPart]
            intro x hx
            rcases List.mem_cons.1 hx with rfl | hx
            · exact hP _ List.mem_cons_self
            · exact hP _ (List.mem_cons_of_mem _ ((List.takeWhile_prefix _).subset hx))
          · exact h5 q hq'

/-! ## Reading the f-string -/

open Spec.Py

/-- With enough fuel the reader yields a result. -/
def Reads (t : List Char) (r : List FPiece × List Char) : Prop := ∀ n, t.length ≤ n → readF n t = some r

theorem reads_end (rest : List Char) : Reads ('"' :: rest) ([], rest) := by
  intro n hn
  cases n with
  | zero => cases hn
  | succ n => rfl

theorem reads_char {c : Char} {t : List Char} {ps : List FPiece} {rest : List Char} (h : Reads t (ps, rest)) (h1 : c ≠ '"') (h2 : ¬ (c = '\n' ∨ c = '\r' ∨ c = '\x00'))
    (h3 : c ≠ '{') (h4 : c ≠ '}') (h5 : c ≠ '\\') : Reads (c :: t) (.char c :: ps, rest) := by
  intro n hn
  cases n with
  | zero => cases hn
  | succ n =>
    rw [readF, if_neg h1, if_neg h2, if_neg h3, if_neg h4, if_neg h5, h n (by simpa using hn)]
    rfl

theorem reads_open {t : List Char} {ps : List FPiece} {rest : List Char} (h : Reads t (ps, rest)) :
    Reads ('{' :: '{' :: t) (.char '{' :: ps, rest) := by
  intro n hn
  cases n with
  | zero => cases hn
  | succ n =>
    rw [readF, if_neg (by decide), if_neg (by decide), if_pos rfl, if_pos List.head?_cons, List.tail_cons, h n (by simp at hn; omega)]
    rfl

theorem reads_close {t : List Char} {ps : List FPiece} {rest : List Char} (h : Reads t (ps, rest)) :
    Reads ('}' :: '}' :: t) (.char '}' :: ps, rest) := by
  intro n hn
  cases n with
  | zero => cases hn
  | succ n =>
    rw [readF, if_neg (by decide), if_neg (by decide), if_neg (by decide), if_pos rfl, if_pos List.head?_cons, List.tail_cons,
      h n (by simp at hn; omega)]
    rfl

theorem reads_field {e t : List Char} {ps : List FPiece} {rest : List Char} (h : Reads t (ps, rest)) (he : ∀ c ∈ e, c ≠ '}')
    (he' : e.head? ≠ some '{') : Reads ('{' :: (e ++ '}' :: t)) (.field e :: ps, rest) := by
  intro n hn
  cases n with
  | zero => cases hn
  | succ n =>
    have htw : (e ++ '}' :: t).takeWhile (· != '}') = e ∧ (e ++ '}' :: t).dropWhile (· != '}') = '}' :: t :=
      takeWhile_all (fun c hc => by simpa using he c hc) (fun c hc => by cases hc; decide)
    have hh : (e ++ '}' :: t).head? ≠ some '{' := by
      cases e with
      | nil => simp
      | cons a e => simpa using he'
    rw [readF, if_neg (by decide), if_neg (by decide), if_pos rfl, if_neg hh, htw.1, htw.2, if_pos List.head?_cons, List.tail_cons,
      h n (by simp at hn; omega)]
    rfl

/-- Characters that Python takes literally, or doubled in the case of braces. -/
def PlainChar (c : Char) : Prop := c ≠ '\n' ∧ c ≠ '\r' ∧ c ≠ '\x00' ∧ c ≠ '"' ∧ c ≠ '\\'

theorem reads_text {s t : List Char} {ps : List FPiece} {rest : List Char} (hs : ∀ c ∈ s, PlainChar c) (h : Reads t (ps, rest)) :
    Reads (escapeBraces s ++ t) (s.map .char ++ ps, rest) := by
  induction s with
  | nil => exact h
  | cons c s ih =>
    have ih := ih fun x hx => hs x (List.mem_cons_of_mem _ hx)
    obtain ⟨h1, h1', h1'', h2, h3⟩ := hs c List.mem_cons_self
    simp only [escapeBraces, List.flatMap_cons, List.append_assoc, List.map_cons, List.cons_append] at ih ⊢
    by_cases ho : c = '{'
    · subst ho
      exact reads_open ih
    · rw [if_neg ho]
      by_cases hc : c = '}'
      · subst hc
        exact reads_close ih
      · rw [if_neg hc]
        exact reads_char ih h2 (by simp [h1, h1', h1'']) ho hc h3

theorem upLetter_ne {c d : Char} (h : UpLetter c) (hd : isUp d = false) : c ≠ d := by
  rintro rfl
  rw [(isUp_iff c).2 h] at hd
  cases hd

theorem fieldValue_emitVar (env : List Char → List Char) (fl : Flags) {x : List Char} (hx : VarName x) :
    fieldValue env (emitVar fl x) = env x := by
  unfold emitVar fieldValue
  cases hn : fl.nonLocal
  · rw [show (if false = true then "vars['".toList ++ x ++ "']".toList else x) = x from rfl, if_neg]
    rintro ⟨⟨r, hr⟩, _⟩
    have : 'v' ∈ x := by rw [← hr]; simp
    exact absurd rfl (upLetter_ne (hx.2 _ this) (d := 'v') (by decide))
  · rw [show (if true = true then "vars['".toList ++ x ++ "']".toList else x) = "vars['".toList ++ x ++ "']".toList from rfl, if_pos]
    · congr 1
      simp
    · refine ⟨?_, ?_⟩
      · rw [List.append_assoc]; exact List.prefix_append _ _
      · exact List.suffix_append _ _

theorem emit_var (fl : Flags) (x : List Char) : StrPart.emit fl (.var x) = '{' :: (emitVar fl x ++ ['}']) := by
  unfold StrPart.emit emitVar
  cases fl.nonLocal <;> simp

/-- Reading what is emitted for the parts of a literal. -/
theorem reads_parts (fl : Flags) (ps : List StrPart) (hps : PartsOK PlainChar ps) (rest : List Char) :
    Reads (ps.flatMap (StrPart.emit fl) ++ '"' :: rest) (pieces fl.nonLocal ps, rest) ∧
      ∀ env, fValue env (pieces fl.nonLocal ps) = ps.flatMap (partValue env) := by
  induction ps with
  | nil => exact ⟨reads_end rest, fun _ => rfl⟩
  | cons q ps ih =>
    obtain ⟨h1, h2⟩ := ih fun x hx => hps x (List.mem_cons_of_mem _ hx)
    have hq := hps q List.mem_cons_self
    cases q with
    | text s =>
      refine ⟨?_, ?_⟩
      · rw [List.flatMap_cons, List.append_assoc]
        exact reads_text hq h1
      · intro env
        rw [List.flatMap_cons, ← h2]
        simp [pieces, fValue, partValue, List.flatMap_map]
    | var x =>
      have hx : VarName x := hq
      refine ⟨?_, ?_⟩
      · rw [List.flatMap_cons, emit_var, List.append_assoc, List.cons_append, List.append_assoc]
        refine reads_field (e := emitVar fl x) h1 ?_ ?_
        · intro c hc
          unfold emitVar at hc
          have hx' : ∀ c ∈ x, c ≠ '}' := fun c hc => upLetter_ne (hx.2 c hc) (by decide)
          split at hc
          · rw [List.mem_append, List.mem_append] at hc
            rcases hc with (hc | hc) | hc
            · rintro rfl; exact absurd hc (by decide)
            · exact hx' c hc
            · rintro rfl; exact absurd hc (by decide)
          · exact hx' c hc
        · unfold emitVar
          split
          · simp
          · cases hxe : x with
            | nil => simp
            | cons a x' =>
              have := upLetter_ne (hx.2 a (by rw [hxe]; simp)) (d := '{') (by decide)
              simpa using this
      · intro env
        rw [List.flatMap_cons, ← h2]
        have e := fieldValue_emitVar env fl hx
        unfold emitVar at e
        simp only [pieces, fValue, partValue, List.flatMap_cons, List.singleton_append, e]

/-! ## C39 -/

/-- C39, partial: a string literal whose text contains no backslash, carriage return or null character — in particular braces, and brackets
that do not enclose a variable, are allowed — is compiled to an f-string that Python reads to its end, and that evaluates to the text of the
literal with every `[NAME]` replaced by the value of the variable; what follows the literal in the source and in the emitted line plays no
role.  Missing: texts with those characters, of which the claim is false (`C39_backslash_counterexample`, `C39_quote_counterexample`,
`C39_return_counterexample`), and the empty text, which is not even a token (`C39_empty_counterexample`). -/
theorem C39_literals_partial (hd : AsciiDigits dig) (fl : Flags) (b : List Char) (hb : ∀ c ∈ b, PlainChar c) :
    ∃ ts, (∀ t, tokens dig ('"' :: b ++ '"' :: t) = ts ++ tokens dig t) ∧
      ∃ body, emitStr fl (ts.map strPart) = 'f' :: '"' :: body ∧ ∀ rest, ∃ fs,
        readF (body ++ rest).length (body ++ rest) = some (fs, rest) ∧ ∀ env, fValue env fs = substitute env 0 b := by
  obtain ⟨ts, h1, h2, h3⟩ := literal_tokens (dig := dig) PlainChar b (fun c hc => ⟨(hb c hc).1, (hb c hc).2.2.2.1⟩) hb
  refine ⟨ts, ?_, (ts.map strPart).flatMap (StrPart.emit fl) ++ ['"'], by simp [emitStr], ?_⟩
  · intro t
    have h : obs dig .initial ('"' :: b ++ '"' :: t) = (ts ++ (obs dig .initial t).1, (obs dig .initial t).2) := by
      rw [List.cons_append, obs_cons, step_quote hd, h1]
      rfl
    exact congrArg Prod.fst h
  · intro rest
    obtain ⟨h4, h5⟩ := reads_parts fl _ h3 rest
    refine ⟨_, ?_, fun env => (h5 env).trans (h2 env)⟩
    rw [List.append_assoc]
    exact h4 _ le_rfl

/-- What is emitted for a source literal. -/
def emitLiteral (s : String) : List Char := emitStr {} ((tokens Char.isDigit s.toList).map strPart)

example : emitLiteral "\"a[X]{b} [y] [] [[Z]]\"" = "f\"a{X}{{b}} [y] [] [{Z}]\"".toList := by decide +kernel

example : substitute (fun _ => ['7']) 0 "a[X]{b} [y] [] [[Z]]".toList = "a7{b} [y] [] [7]".toList := by decide +kernel

/-- C39 is false: a backslash is not escaped, so `\n` in the source becomes a line break. -/
theorem C39_backslash_counterexample :
    emitLiteral "\"a\\nb\"" = "f\"a\\nb\"".toList ∧
      readF 10 "a\\nb\"".toList = some ([.char 'a', .char '\n', .char 'b'], []) ∧
        substitute id 0 "a\\nb".toList = ['a', '\\', 'n', 'b'] := by decide +kernel

/-- C39 is false: a literal that ends with a backslash is compiled to a line that is not an f-string at all: the quote is escaped. -/
theorem C39_quote_counterexample :
    emitLiteral "\"a\\\"" = "f\"a\\\"".toList ∧ readF 10 "a\\\"".toList = none := by decide +kernel

/-- C39 is false: a carriage return in a literal is copied, and ends the line for Python. -/
theorem C39_return_counterexample :
    emitLiteral "\"a\rb\"" = "f\"a\rb\"".toList ∧ readF 10 "a\rb\"".toList = none := by decide +kernel

/-- C39 is false: the empty literal disappears: the source `output 1 named ""` has the tokens of `output 1 named`. -/
theorem C39_empty_counterexample :
    tokens Char.isDigit "output 1 named \"\"".toList = tokens Char.isDigit "output 1 named".toList := by decide +kernel

end PythonDice
