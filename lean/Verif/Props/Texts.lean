import Verif.Props.Exact
import Verif.Props.Formulas

/-!
# C86: programs can be written down
-/

namespace PythonDice

open Spec
open Spec.Naive (push)
open Compiler (Flags Block Expr Stmt compile resolve)
open Lexer

variable {dig : Char → Bool}

/-- A token that can be in a program: its text has the form of its kind, and a part of a literal that is not a variable does not begin with one. -/
def Spellable (dig : Char → Bool) (t : Token) : Prop := TokenForm dig t.kind t.value ∧
  (t.kind = .instringNonvar → ∀ n r, n ≠ [] → (∀ c ∈ n, UpLetter c) → t.value ≠ '[' :: n ++ ']' :: r)

/-- A token as it is written: parts of literals in quotes. -/
def writeTok (t : Token) : List Char := if t.kind ∈ literalKinds then '"' :: t.value ++ ['"'] else t.value

/-- Tokens as they are written, with a space after each. -/
def writeToks (ts : List Token) : List Char := ts.flatMap fun t => writeTok t ++ [' ']

namespace Lexer

theorem step_spellable (hd : AsciiDigits dig) (m : Mode) (c : Char) (cs : Text) (t : Token) (h : (step dig m c cs).1 = .token t) :
    Spellable dig t := by
  refine ⟨by have := step_form (dig := dig) m c cs; rw [h] at this; exact this, ?_⟩
  intro hk n r hn hu he
  cases m with
  | initial =>
    have ht := step_text (dig := dig) .initial c cs
    rw [h, Piece.text, he] at ht
    obtain rfl : '[' = c := by injection ht
    have := sym_step hd '[' cs (by decide)
    rw [this] at h
    cases h
    cases hk
  | instring =>
    simp only [step] at h
    unfold stepString at h
    split_ifs at h with h1 h2 h3 h4
    · cases h; cases hk
    · cases h
      apply h3
      simp only [List.cons_append, List.cons.injEq, true_and] at he
      have e : cs = n ++ ']' :: (r ++ cs.dropWhile strBody) := by
        conv_lhs => rw [← List.takeWhile_append_dropWhile (p := strBody) (l := cs), he]
        simp
      have ht := takeWhile_all (p := isUp) (v := n) (t := ']' :: (r ++ cs.dropWhile strBody)) (fun c hc => (isUp_iff c).2 (hu c hc))
        (fun c hc => by cases hc; decide)
      rw [← e] at ht
      rw [ht.1, ht.2]
      exact ⟨hn, rfl⟩
    · cases h; cases hk

theorem run_spellable (hd : AsciiDigits dig) (m : Mode) (s : Text) : ∀ t, .token t ∈ (run dig m s).1 → Spellable dig t := by
  refine lex_induction (dig := dig) (P := fun m s => ∀ t, .token t ∈ (run dig m s).1 → Spellable dig t) ?_ ?_ m s
  · intro m t ht; cases ht
  · intro m c cs ih t ht
    rw [run_cons] at ht
    rcases List.mem_cons.1 ht with h | h
    · exact step_spellable hd m c cs t h.symm
    · exact ih t h

theorem obs_quote (hd : AsciiDigits dig) (cs : Text) : obs dig .initial ('"' :: cs) = obs dig .instring cs := by
  rw [obs_cons]
  have : step dig .initial '"' cs = (.quote, .instring, cs) := by
    simp only [step, stepInitial]
    rw [if_neg (by decide), if_neg (fun h => absurd h.1 (by decide)), if_neg (by rw [hd.not _ (by decide) (by decide)]; decide),
      if_neg (by decide), if_pos trivial]
  rw [this]
  rfl

theorem obs_unquote (cs : Text) : obs dig .instring ('"' :: cs) = obs dig .initial cs := by
  rw [obs_cons]
  rfl

theorem step_literal {k : Kind} {v : Text} (h : Spellable dig ⟨k, v⟩) (hk : k ∈ literalKinds) (t : Text) :
    obs dig .instring (v ++ '"' :: t) = (⟨k, v⟩ :: (obs dig .initial t).1, (obs dig .initial t).2) := by
  have hq : ∀ v : Text, (∀ c ∈ v, LitChar c) → (v ++ '"' :: t).takeWhile strBody = v ∧ (v ++ '"' :: t).dropWhile strBody = '"' :: t := fun v hv =>
    takeWhile_all (fun c hc => (strBody_iff c).2 (hv c hc)) (fun c hc => by cases hc; decide)
  have key : ∀ c v', v = c :: v' → step dig .instring c (v' ++ '"' :: t) = (.token ⟨k, v⟩, .instring, '"' :: t) →
      obs dig .instring (v ++ '"' :: t) = (⟨k, v⟩ :: (obs dig .initial t).1, (obs dig .initial t).2) := by
    rintro c v' rfl h
    rw [List.cons_append, obs_cons, h]
    change consObs _ (obs dig .instring ('"' :: t)) = _
    rw [obs_unquote]
    rfl
  obtain ⟨hf, hn⟩ := h
  simp only [literalKinds, List.mem_cons, List.not_mem_nil, or_false] at hk
  rcases hk with rfl | rfl | rfl
  · obtain ⟨h1, h2⟩ := hf
    obtain ⟨c, v', rfl⟩ := List.exists_cons_of_ne_nil h1
    refine key c v' rfl ?_
    have hc := h2 c List.mem_cons_self
    simp only [step, stepString]
    rw [if_neg hc.2.1, if_neg hc.2.2, if_pos ((strBody_iff c).2 hc), (hq v' fun c hc => h2 c (List.mem_cons_of_mem _ hc)).1,
      (hq v' fun c hc => h2 c (List.mem_cons_of_mem _ hc)).2]
  · obtain ⟨n, rfl, h1, h2⟩ := hf
    refine key '[' (n ++ [']']) rfl ?_
    have e : (n ++ [']']) ++ '"' :: t = n ++ ']' :: '"' :: t := by simp
    have ht := takeWhile_all (p := isUp) (v := n) (t := ']' :: '"' :: t) (fun c hc => (isUp_iff c).2 (h2 c hc)) (fun c hc => by cases hc; decide)
    simp only [step, stepString]
    rw [if_neg (by decide), if_pos trivial, e, ht.1, ht.2, if_pos ⟨h1, rfl⟩]
    rfl
  · obtain ⟨b, rfl, h2⟩ := hf
    refine key '[' b rfl ?_
    simp only [step, stepString]
    rw [if_neg (by decide), if_pos trivial, if_neg, (hq b h2).1, (hq b h2).2]
    rintro ⟨h3, h4⟩
    have e := List.takeWhile_append_dropWhile (p := isUp) (l := b ++ '"' :: t)
    generalize hA : (b ++ '"' :: t).takeWhile isUp = A at *
    generalize hB : (b ++ '"' :: t).dropWhile isUp = B at *
    obtain ⟨r, rfl⟩ : ∃ r, B = ']' :: r := by
      cases B with
      | nil => cases h4
      | cons x r => cases h4; exact ⟨r, rfl⟩
    have hA' : ∀ c ∈ A, isUp c = true := fun c hc => by rw [← hA] at hc; exact List.mem_takeWhile_imp hc
    rcases List.append_eq_append_iff.1 e with ⟨a', h5, h6⟩ | ⟨c', h5, h6⟩
    · cases a' with
      | nil => cases h6
      | cons x a' =>
        cases h6
        refine hn rfl A a' h3 (fun c hc => (isUp_iff c).1 (hA' c hc)) ?_
        change '[' :: b = _
        rw [h5]
        rfl
    · cases c' with
      | nil =>
        cases h6
      | cons x c' =>
        cases h6
        have := hA' '"' (by rw [h5]; simp)
        exact absurd this (by decide)

theorem obs_writeTok (hd : AsciiDigits dig) {t : Token} (h : Spellable dig t) (s : Text) :
    obs dig .initial (writeTok t ++ ' ' :: s) = (t :: (obs dig .initial s).1, (obs dig .initial s).2) := by
  obtain ⟨k, v⟩ := t
  unfold writeTok
  split_ifs with hk
  · have e : ('"' :: v ++ ['"']) ++ ' ' :: s = '"' :: (v ++ '"' :: ' ' :: s) := by simp
    rw [e, obs_quote hd, step_literal h hk, obs_space _ (.inl rfl)]
  · rw [obs_token hd h.1 (fun hl => hk (by rcases hl with h | h | h <;> (simp only at h; simp [literalKinds, h]))) _ (fun c hc => by
      cases hc; exact boundary_extends hd (.inl rfl) _), obs_space _ (.inl rfl)]

theorem obs_writeToks (hd : AsciiDigits dig) (ts : List Token) (h : ∀ t ∈ ts, Spellable dig t) :
    obs dig .initial (writeToks ts) = (ts, [], .initial) := by
  induction ts with
  | nil => rfl
  | cons t ts ih =>
    have e : writeToks (t :: ts) = writeTok t ++ ' ' :: writeToks ts := by simp [writeToks]
    rw [e, obs_writeTok hd (h t List.mem_cons_self), ih fun t ht => h t (List.mem_cons_of_mem _ ht)]

end Lexer

/-- **C86** (src/parser/myparser.py:36-121): written with spaces between them, and parts of literals in quotes, tokens are found again. -/
theorem C86_write (hd : AsciiDigits dig) (ts : List Token) (h : ∀ t ∈ ts, Spellable dig t) :
    tokens dig (writeToks ts) = ts ∧ reports dig (writeToks ts) = [] := by
  have e := obs_writeToks hd ts h
  exact ⟨congrArg Prod.fst e, reports_nil (congrArg Prod.snd e)⟩

/-- **C86**: which sequences of tokens a program can consist of. -/
theorem C86_tokens (hd : AsciiDigits dig) (ts : List Token) : (∃ s, reports dig s = [] ∧ tokens dig s = ts) ↔ ∀ t ∈ ts, Spellable dig t := by
  constructor
  · rintro ⟨s, _, rfl⟩ t ht
    obtain ⟨p, hp, hpt⟩ := List.mem_filterMap.1 ht
    cases p <;> cases hpt
    exact run_spellable hd .initial s t hp
  · intro h
    exact ⟨_, (C86_write hd ts h).2, (C86_write hd ts h).1⟩

theorem tokenForm_head (hd : AsciiDigits dig) {k : Kind} {v : List Char} (h : TokenForm dig k v) (hk : k ∉ literalKinds) :
    ∃ c v', v = c :: v' ∧ ¬ Py.BlankLine [c] := by
  have key : ∀ {P : Char → Prop}, (∀ c, P c → ¬ Py.BlankLine [c]) → v ≠ [] → (∀ c ∈ v, P c) → ∃ c v', v = c :: v' ∧ ¬ Py.BlankLine [c] := by
    intro P hP h1 h2
    obtain ⟨c, v', rfl⟩ := List.exists_cons_of_ne_nil h1
    exact ⟨c, v', rfl, hP c (h2 c List.mem_cons_self)⟩
  have hb : ∀ c, Py.BlankLine [c] → c.toNat ≤ 32 := fun c h => by
    rcases h c (by simp) with rfl | h | h
    · decide
    · omega
    · omega
  cases k <;> first
    | exact absurd (by decide) hk
    | exact key (P := LowLetter) (fun c h h' => by
        have := hb c h'
        have h2 := (isLow_iff c).2 h
        simp only [isLow, decide_eq_true_eq] at h2
        omega) h.1 h.2.1
    | exact key (P := UpLetter) (fun c h h' => by
        have := hb c h'
        have h2 := (isUp_iff c).2 h
        simp only [isUp, Bool.or_eq_true, decide_eq_true_eq, beq_iff_eq] at h2
        rcases h2 with h2 | rfl
        · omega
        · revert this; decide) h.1 h.2
    | exact key (P := fun c => dig c = true) (fun c h h' => by
        have := hb c h'
        have h2 := (hd c (by omega)).1 h
        omega) h.1 h.2
    | (obtain ⟨w, hw, rfl⟩ := h
       cases hw
       exact ⟨_, _, rfl, by decide⟩)

theorem writeToks_not_blank (hd : AsciiDigits dig) {ts : List Token} (hts : ts ≠ []) (h : ∀ t ∈ ts, Spellable dig t) :
    ¬ Py.BlankLine (writeToks ts) := by
  obtain ⟨t, ts, rfl⟩ := List.exists_cons_of_ne_nil hts
  obtain ⟨c, v, hv, hc⟩ : ∃ c v, writeTok t = c :: v ∧ ¬ Py.BlankLine [c] := by
    unfold writeTok
    split_ifs with hk
    · exact ⟨'"', _, rfl, by decide⟩
    · exact tokenForm_head hd (h t List.mem_cons_self).1 hk
  intro hb
  refine hc fun x hx => hb x ?_
  obtain rfl := List.mem_singleton.1 hx
  simp [writeToks, hv]

/-- **C86** (src/parser/parse_and_exec.py:77-86 `compile_anydice`): every program that follows the grammar has a text, and what is
made of this text is what is made of the program. -/
theorem C86_tree (hd : AsciiDigits dig) {b : Block} (hw : WrittenB b) (hb : ∀ t ∈ blockToks b, Spellable dig t) (hn : blockToks b ≠ []) :
    ∃ s, SourceOf (tokens dig s) b ∧ reports dig s = [] ∧ ∀ fl t, compile fl dig s = .ok t ↔ resolve fl b = .ok t := by
  have h := C86_write hd _ hb
  refine ⟨_, ⟨h.1.symm, hw⟩, h.2, fun fl t => ?_⟩
  rw [C59_compile]
  constructor
  · rintro ⟨_, _, c, hc, ht⟩
    rw [h.1] at hc
    rw [C57_unambiguous hw hc.2 hc.1.symm]
    exact ht
  · intro ht
    exact ⟨writeToks_not_blank hd hn hb, h.2, b, ⟨h.1.symm, hw⟩, ht⟩

/-- C86 of what programs do: whatever follows the grammar and is not rejected has a text that, compiled, read by Python and run, outputs what the
program means, if all probabilities have small denominators.  Missing: what is missing of C63 (functions in functions, strings in expressions). -/
theorem C86_runs_partial (fl : Flags) {b : Block} {u : List Char} (hu : resolve fl b = .ok u) (hw : WrittenB b)
    (hb : ∀ t ∈ blockToks b, Spellable Char.isDigit t) (hlit : LiteralsIn PlainChar (blockToks b)) (hc : cleanB (passFlags fl b) b = true)
    (hr : noResultB b = true) (hf : freeB (passFlags fl b).style true b = true) {vs : List (Naive.Val × Option Naive.Text)}
    (hv : Naive.outputs (passFlags fl b).style.rules ⟨2, false, 10, 10⟩ b = some vs)
    (hE : Naive.ExactProgram (passFlags fl b).style.rules ⟨2, false, 10, 10⟩ b) (hn : vs ≠ []) :
    ∃ s t, compile fl Char.isDigit s = .ok t ∧ (∃ p, Py.ReadsProgram t p) ∧ ∀ p, Py.ReadsProgram t p → ∃ N, ∀ n, N ≤ n →
      (Exec.unsafeExec n p {}).2.warns = 0 ∧ ∃ outs, (Exec.unsafeExec n p {}).1 = .ok outs ∧ List.Forall₂ Naive.ShowsOutput outs vs := by
  have hne : blockToks b ≠ [] := by
    cases b with
    | nil =>
      simp [Naive.outputs, Naive.plainB, Naive.block] at hv
      exact absurd hv hn
    | cons st b => cases st <;> simp [blockToks, stmtToks]
  obtain ⟨s, h1, h2, h3⟩ := C86_tree asciiDigits_isDigit hw hb hne
  have hcomp := (h3 fl u).2 hu
  have hlit' : LiteralsIn PlainChar (tokens Char.isDigit s) := by rw [← h1.1]; exact hlit
  refine ⟨s, u, hcomp, ⟨_, (C62_reads_partial fl hcomp h1 hlit' hc hr _).2 rfl⟩, fun p hp => ?_⟩
  obtain ⟨N, hN⟩ := C85_text_partial fl hcomp h1 hlit' hc hr hf hp hv hE
  refine ⟨N, fun n hn => ?_⟩
  obtain ⟨h4, outs, h5, h6, _⟩ := hN n hn
  exact ⟨h4, outs, h5, h6⟩

/-! ## Programs of one output -/

/-- `output e` -/
def outputTree (e : Expr) : Block := .cons (.output e) .nil

theorem passFlags_output (fl : Flags) (e : Expr) : passFlags fl (outputTree e) = fl := by
  unfold passFlags
  rw [if_neg]
  rintro ⟨f, h, hf⟩
  rcases List.mem_append.1 hf with hf | hf
  · have : ∀ f ∈ Compiler.mayCollide, f ∉ Compiler.library := by decide +kernel
    exact this f h hf
  · cases hf

theorem stmt_of_output {e : Expr} {s : Stmt} (h : StmtIn s (outputTree e)) : s = .output e := by
  cases h with
  | head => rfl
  | tail h => cases h

/-- The value that a program of one output outputs, by the rules of the flags and with the settings at the beginning. -/
def outputVal (fl : Flags) (e : Expr) : Option Naive.Val :=
  Naive.value fl.style.rules (Naive.callIn fl.style.rules ⟨2, false, 10, 10⟩) (if fl.style.rules.lib then Naive.library else []) ⟨none, [], []⟩ e

/-- The text is compiled, Python can read the result, running it deep enough succeeds without warnings, and outputs one value without a name, which
is such a value. -/
def OutputsOne (fl : Flags) (s : List Char) (P : Obj → Prop) : Prop :=
  ∃ t, compile fl Char.isDigit s = .ok t ∧ (∃ p, Py.ReadsProgram t p) ∧ ∀ p, Py.ReadsProgram t p → ∃ N, ∀ n, N ≤ n →
    (Exec.unsafeExec n p {}).2.warns = 0 ∧ ∃ o, (Exec.unsafeExec n p {}).1 = .ok [(o, none)] ∧ P o

theorem OutputsOne.mono {fl : Flags} {s : List Char} {P Q : Obj → Prop} (h : OutputsOne fl s P) (hPQ : ∀ o, P o → Q o) : OutputsOne fl s Q := by
  obtain ⟨t, h1, h2, h3⟩ := h
  refine ⟨t, h1, h2, fun p hp => ?_⟩
  obtain ⟨K, hK⟩ := h3 p hp
  refine ⟨K, fun k hk => ?_⟩
  obtain ⟨h4, o, h5, h6⟩ := hK k hk
  exact ⟨h4, o, h5, hPQ o h6⟩

theorem outputs_one {fl : Flags} {s : List Char} {e : Expr} (hnb : ¬ Py.BlankLine s) (hr : reports Char.isDigit s = [])
    (ht : tokens Char.isDigit s = tok .output "output" :: exprToks e) (hw : Written e)
    (hcall : ∀ cs, SubExpr (.call cs) e → callSig cs ∈ librarySigs ∧ fl.libConflict = false) (hlit : LiteralsIn PlainChar (exprToks e))
    (hc : allSub (clean fl) e = true) (hf : freeX fl.style e = true) {v : Naive.Val} (hv : outputVal fl e = some v)
    (hE : Naive.ExactE fl.style.rules (Naive.callIn fl.style.rules ⟨2, false, 10, 10⟩) (Naive.ExactUser fl.style.rules ⟨2, false, 10, 10⟩ 10)
      (if fl.style.rules.lib then Naive.library else []) ⟨none, [], []⟩ e) : OutputsOne fl s fun o => Naive.Shows o v := by
  have hs : SourceOf (tokens Char.isDigit s) (outputTree e) := ⟨by rw [ht]; simp [outputTree, blockToks, stmtToks], hw, trivial⟩
  obtain ⟨t, h⟩ := (C59_accepts fl Char.isDigit s).2 ⟨hnb, hr, outputTree e, hs, fun d body h => (by cases stmt_of_output h),
    .inl ⟨e, .head _ _⟩, fun _ q ⟨st, e', cs, h1, h2, h3, h4⟩ => by
      cases stmt_of_output h1
      cases h2
      have := hcall cs h3
      refine .inr ⟨h4 ▸ this.1, this.2, ?_⟩
      rintro ⟨q, _, d, body, hd, _⟩
      cases stmt_of_output hd⟩
  have hlit' : LiteralsIn PlainChar (tokens Char.isDigit s) := by
    rw [ht]
    intro t ht hk
    rcases List.mem_cons.1 ht with rfl | ht
    · rcases hk with hk | hk <;> cases hk
    · exact hlit t ht hk
  have hp := passFlags_output fl e
  have hc' : cleanB (passFlags fl (outputTree e)) (outputTree e) = true := by rw [hp]; simp [outputTree, cleanB, cleanS, hc]
  have hn : noResultB (outputTree e) = true := rfl
  have hf' : freeB (passFlags fl (outputTree e)).style true (outputTree e) = true := by rw [hp]; simp [outputTree, freeB, freeS, hf]
  refine ⟨t, h, ⟨_, (C62_reads_partial fl h hs hlit' hc' hn _).2 rfl⟩, fun p hp' => ?_⟩
  have ho : Naive.outputs (passFlags fl (outputTree e)).style.rules ⟨2, false, 10, 10⟩ (outputTree e) = some [(v, none)] := by
    rw [hp]
    unfold outputVal at hv
    simp [Naive.outputs, outputTree, Naive.plainB, Naive.plainS, Naive.block, Naive.statement, hv]
  have hE' : Naive.ExactProgram (passFlags fl (outputTree e)).style.rules ⟨2, false, 10, 10⟩ (outputTree e) := by
    rw [hp]
    exact ⟨hE, fun _ _ => trivial⟩
  obtain ⟨N, hN⟩ := C85_text_partial fl h hs hlit' hc' hn hf' hp' ho hE'
  refine ⟨N, fun n hn => ?_⟩
  obtain ⟨h1, outs, h2, h3, h4⟩ := hN n hn
  refine ⟨h1, ?_⟩
  obtain ⟨o, os, ho, hos, rfl⟩ := List.forall₂_cons_right_iff.1 h3
  obtain rfl := List.forall₂_nil_right_iff.1 hos
  obtain ⟨o, name⟩ := o
  cases name with
  | none => exact ⟨o, h2, ho⟩
  | some _ => exact ho.elim

/-! ## Dice in texts -/

theorem digitChar_isDigit {d : ℕ} (h : d < 10) : (digitChar d).isDigit = true ∧ (digitChar d).toNat - '0'.toNat = d ∧ (digitChar d = '0' → d = 0) := by
  revert d
  decide

theorem natText_number {n : ℕ} {cs : List Char} (h : NatText n cs) :
    TokenForm Char.isDigit .number cs ∧ Py.IntLiteral cs ∧ decimal cs = n := by
  obtain ⟨ds, rfl, h1, h2, h3, rfl⟩ := h.ex
  refine ⟨⟨by simpa using h2, fun c hc => ?_⟩, ?_, ?_⟩
  · obtain ⟨d, hd, rfl⟩ := List.mem_map.1 hc
    exact (digitChar_isDigit (h1 d hd)).1
  · obtain ⟨d, ds, rfl⟩ := List.exists_cons_of_ne_nil h2
    by_cases h0 : d = 0
    · subst h0
      have := h3 rfl
      injection this with _ h
      subst h
      exact .inr (by decide)
    · refine .inl fun h => h0 ((digitChar_isDigit (h1 d List.mem_cons_self)).2.2 ?_)
      simpa using h
  · rw [decimal, List.foldl_map]
    congr 1
    have : ∀ (l : List ℕ) (a : ℕ), (∀ d ∈ l, d < 10) → l.foldl (fun n d => 10 * n + ((digitChar d).toNat - '0'.toNat)) a = l.foldl (fun a d => 10 * a + d) a := by
      intro l
      induction l with
      | nil => intros; rfl
      | cons d l ih =>
        intro a hl
        rw [List.foldl_cons, List.foldl_cons, (digitChar_isDigit (hl d List.mem_cons_self)).2.1, ih _ fun d hd => hl d (List.mem_cons_of_mem _ hd)]
    exact this ds 0 h1

theorem number_head {v : List Char} (h : TokenForm Char.isDigit .number v) {k : Kind} (hk : ∀ c : Char, c.isDigit = true → ¬ Extends Char.isDigit k c) :
    ∀ c, v.head? = some c → ¬ Extends Char.isDigit k c := by
  intro c hc
  refine hk c (h.2 c ?_)
  exact List.mem_of_mem_head? hc

theorem digit_not_low (c : Char) (h : c.isDigit = true) : ¬ LowLetter c := by
  intro hl
  have h2 := (isLow_iff c).2 hl
  have h1 : 48 ≤ c.toNat ∧ c.toNat ≤ 57 := by
    simp only [Char.isDigit, Bool.and_eq_true, decide_eq_true_eq, UInt32.le_iff_toNat_le, ge_iff_le] at h
    exact h
  simp only [isLow, decide_eq_true_eq] at h2
  omega

/-- The words and symbols of a text. -/
theorem form_tok {k : Kind} {s : String} (h : spelling k = some s) (hk : k ∉ literalKinds) : TokenForm dig k s.toList := by
  cases k <;> first
    | exact absurd (by decide) hk
    | exact ⟨_, h, rfl⟩
    | cases h

namespace Enum
open Naive (mean draws push uniform interval)

/-- With fair dice everything has a whole number of cases. -/
theorem draws_fair_whole {m : ℕ} (hm : 0 < m) (n : ℕ) (f : List ℤ → ℕ) :
    ∃ j : ℕ, mean (draws (uniform (interval 1 m)) n) (fun xs => (f xs : ℚ)) = (j : ℚ) / ((m ^ n : ℕ) : ℚ) := by
  induction n generalizing f with
  | zero => exact ⟨f [], by simp⟩
  | succ n ih =>
    choose g hg using fun x : ℤ => ih fun xs => f (x :: xs)
    refine ⟨∑ x ∈ Finset.range m, g (x + 1), ?_⟩
    rw [mean_draws_succ, mean_fair]
    simp only [hg]
    have hm' : (m : ℚ) ≠ 0 := by exact_mod_cast hm.ne'
    rw [← Finset.sum_div, div_div]
    push_cast
    rw [pow_succ]

theorem over_draws_fair {m : ℕ} (hm : 0 < m) (n : ℕ) (f : List ℤ → ℤ) : Naive.Over (m ^ n) (push f (draws (uniform (interval 1 m)) n)) := by
  refine ⟨Nat.pow_pos hm, fun v => ?_⟩
  rw [prob_eq_mean, mean_push]
  obtain ⟨j, hj⟩ := draws_fair_whole hm n fun xs => if f xs = v then 1 else 0
  refine ⟨j, ?_⟩
  rw [← hj]
  congr 1
  funext xs
  split <;> simp

theorem over_fair {m : ℕ} (hm : 0 < m) : Naive.Over m (uniform (interval 1 m)) := by
  refine ⟨hm, fun v => ?_⟩
  rw [prob_eq_mean, mean_fair]
  exact ⟨∑ x ∈ Finset.range m, if (x : ℤ) + 1 = v then 1 else 0, by push_cast; rfl⟩

end Enum

theorem rolls_exact {n m : ℕ} (hm : 0 < m) (h : m ^ n ≤ Naive.most) : Naive.ExactRoll (.num n) (.num m) := by
  intro b hb
  rw [Naive.faces, if_pos (by exact_mod_cast hm)] at hb
  cases hb
  refine ⟨fun k hk => ?_, fun l p h => by cases h⟩
  obtain rfl := List.mem_singleton.1 hk
  exact fun _ => ⟨m, Enum.over_fair hm, by simpa using h⟩

theorem shows_prob {o : Obj} {l : Naive.Law} {p : Option (ℕ × Naive.Law)} (h : Naive.Shows o (.die l p)) :
    ∃ x : RV ℤ, o = .rv x ∧ x.vals.Pairwise (· < ·) ∧ (∀ q ∈ x.probs, 0 < q) ∧ ∀ (P : ℤ → Prop) [DecidablePred P], Pr x.pairs P = Naive.mean l fun v => if P v then 1 else 0 := by
  match o, h with
  | .rv x, ⟨_, _, h3, h4, _, h6⟩ => exact ⟨x, rfl, h3, h4, fun P _ => Ex_of_prob h6 _⟩

/-- **C86**: for all numbers, the program `output NdM`, written in this way, outputs the die of which `ways` counts the cases: the probability of
`s` is the number of ways in which `N` dice with `M` sides show `s` in total, over `M^N`. -/
theorem C86_dice (fl : Flags) {n m : ℕ} {N M : List Char} (hN : NatText n N) (hM : NatText m M) (hm : 0 < m) (hb : m ^ n ≤ Naive.most) :
    OutputsOne fl ("output ".toList ++ N ++ "d".toList ++ M) fun o => ∃ x : RV ℤ, o = .rv x ∧ x.vals.Pairwise (· < ·) ∧ (∀ q ∈ x.probs, 0 < q) ∧
      ∀ s : ℤ, Pr x.pairs (· = s) = ways n m s / (m : ℚ) ^ n := by
  obtain ⟨f1, i1, d1⟩ := natText_number hN
  obtain ⟨f2, i2, d2⟩ := natText_number hM
  have hl := C42_render asciiDigits_isDigit [] (.inr rfl) [(tok .output "output", " ".toList), (⟨.number, N⟩, []), (tok .dOp "d", []), (⟨.number, M⟩, [])]
    (by
      simp only [List.forall_mem_cons, List.not_mem_nil, false_implies, implies_true, and_true]
      exact ⟨⟨form_tok rfl (by decide), by simp [InLiteral, tok]⟩, ⟨f1, by simp [InLiteral]⟩, ⟨form_tok rfl (by decide), by simp [InLiteral, tok]⟩, f2,
        by simp [InLiteral]⟩)
    ⟨.inl .space, .inr ⟨rfl, fun c hc => by cases hc; exact (by decide : ¬ Char.isDigit 'd' = true)⟩, .inr ⟨rfl, number_head f2 digit_not_low⟩, .inr rfl⟩
  have e : [] ++ render [(tok .output "output", " ".toList), (⟨.number, N⟩, []), (tok .dOp "d", []), (⟨.number, M⟩, [])] =
      "output ".toList ++ N ++ "d".toList ++ M := by
    simp [render, tok]
  rw [e] at hl
  have hv : outputVal fl (.ndm (.num N) (.num M)) = some (Naive.rollVal (.num n) (.num m)) := by
    simp [outputVal, Naive.value, d1, d2]
  have h := outputs_one (fl := fl) (e := .ndm (.num N) (.num M)) (fun h => absurd (h 'o' (by simp)) (by decide)) hl.2 (by rw [hl.1]; rfl)
    ⟨rfl, rfl, trivial, trivial⟩ (fun cs h => by cases h with | ndmL h => cases h | ndmR h => cases h)
    (fun t ht hk => by
      simp only [exprToks, List.mem_append, List.mem_cons, List.not_mem_nil, or_false] at ht
      rcases ht with rfl | rfl | rfl <;> rcases hk with hk | hk <;> cases hk)
    (by simp [allSub, clean, i1, i2]) rfl hv
    ⟨trivial, trivial, fun a b ha hb' => by
      simp only [Naive.value, d1, d2, Option.some.injEq] at ha hb'
      subst ha hb'
      exact rolls_exact hm hb⟩
  obtain ⟨l, p, hl, hmean⟩ : ∃ l p, Naive.rollVal (.num n) (.num m) = .die l p ∧ ∀ f, Naive.mean l f = Enum.sumMean (Naive.uniform (Naive.interval 1 m)) n f := by
    have hm' : (0 : ℤ) < m := by exact_mod_cast hm
    simp only [Naive.rollVal, Naive.faces, if_pos hm', Naive.rollNum]
    by_cases h1 : n = 1
    · subst h1
      refine ⟨_, _, rfl, fun f => ?_⟩
      simp [Enum.sumMean_succ, Enum.sumMean_zero]
    · rw [if_neg (by exact_mod_cast h1)]
      split
      · exact ⟨_, _, rfl, fun f => Enum.mean_rolls_nat _ _ _⟩
      · exact ⟨_, _, rfl, fun f => Enum.mean_rolls_nat _ _ _⟩
  refine h.mono fun o ho => ?_
  rw [hl] at ho
  obtain ⟨x, hx, h7, h8, h9⟩ := shows_prob ho
  refine ⟨x, hx, h7, h8, fun s => ?_⟩
  rw [h9, hmean, Enum.mean_draws_fair hm, ways, Finset.card_filter]
  push_cast
  rfl

theorem mean_at_least {m : ℕ} {t : ℕ} (h1 : 1 ≤ t) (h2 : t ≤ m) :
    (Naive.mean (Naive.uniform (Naive.interval 1 m)) fun x => if (t : ℤ) ≤ x then 1 else 0) = ((m + 1 - t : ℕ) : ℚ) / m := by
  rw [Enum.mean_fair]
  congr 1
  have : ∀ x : ℕ, (if (t : ℤ) ≤ (x : ℤ) + 1 then (1 : ℚ) else 0) = if t - 1 ≤ x then 1 else 0 := fun x => by
    congr 1
    simp only [eq_iff_iff]
    omega
  simp only [this]
  rw [← Finset.sum_filter, Finset.sum_const, nsmul_eq_mul, mul_one]
  congr 1
  have e : (Finset.range m).filter (fun x => t - 1 ≤ x) = Finset.Ico (t - 1) m := by
    ext x
    simp only [Finset.mem_filter, Finset.mem_range, Finset.mem_Ico]
    omega
  rw [e, Nat.card_Ico]
  omega

/-- **C86**: for all numbers, the program `output K@NdM` outputs the `K`-th highest of `N` dice with `M` sides: it is at least `t` with the
probability that at least `K` of `N` dice are. -/
theorem C86_place (fl : Flags) {k n m : ℕ} {K N M : List Char} (hK : NatText k K) (hN : NatText n N) (hM : NatText m M) (hm : 0 < m)
    (hb : m ^ n ≤ Naive.most) (h1 : 1 ≤ k) (hk : k ≤ n) :
    OutputsOne fl ("output ".toList ++ K ++ "@".toList ++ N ++ "d".toList ++ M) fun o => ∃ x : RV ℤ, o = .rv x ∧ x.vals.Pairwise (· < ·) ∧
      (∀ q ∈ x.probs, 0 < q) ∧ ∀ t : ℕ, 1 ≤ t → t ≤ m →
        Pr x.pairs ((t : ℤ) ≤ ·) = ∑ i ∈ Finset.Icc k n, binomial n (((m + 1 - t : ℕ) : ℚ) / m) i := by
  obtain ⟨f0, i0, d0⟩ := natText_number hK
  obtain ⟨f1, i1, d1⟩ := natText_number hN
  obtain ⟨f2, i2, d2⟩ := natText_number hM
  have hl := C42_render asciiDigits_isDigit [] (.inr rfl) [(tok .output "output", " ".toList), (⟨.number, K⟩, []), (tok .at_ "@", []),
      (⟨.number, N⟩, []), (tok .dOp "d", []), (⟨.number, M⟩, [])]
    (by
      simp only [List.forall_mem_cons, List.not_mem_nil, false_implies, implies_true, and_true]
      exact ⟨⟨form_tok rfl (by decide), by simp [InLiteral, tok]⟩, ⟨f0, by simp [InLiteral]⟩, ⟨form_tok rfl (by decide), by simp [InLiteral, tok]⟩,
        ⟨f1, by simp [InLiteral]⟩, ⟨form_tok rfl (by decide), by simp [InLiteral, tok]⟩, f2, by simp [InLiteral]⟩)
    ⟨.inl .space, .inr ⟨rfl, fun c hc => by cases hc; exact (by decide : ¬ Char.isDigit '@' = true)⟩, .inr ⟨rfl, fun c hc => id⟩,
      .inr ⟨rfl, fun c hc => by cases hc; exact (by decide : ¬ Char.isDigit 'd' = true)⟩, .inr ⟨rfl, number_head f2 digit_not_low⟩, .inr rfl⟩
  have e : [] ++ render [(tok .output "output", " ".toList), (⟨.number, K⟩, []), (tok .at_ "@", []), (⟨.number, N⟩, []), (tok .dOp "d", []),
      (⟨.number, M⟩, [])] = "output ".toList ++ K ++ "@".toList ++ N ++ "d".toList ++ M := by
    simp [render, tok]
  rw [e] at hl
  obtain ⟨l, hroll⟩ : ∃ l, Naive.rollVal (.num n) (.num m) = .die l (some (n, Naive.uniform (Naive.interval 1 m))) := by
    have hm' : (0 : ℤ) < m := by exact_mod_cast hm
    simp only [Naive.rollVal, Naive.faces, if_pos hm', Naive.rollNum]
    by_cases h1 : n = 1
    · subst h1
      exact ⟨_, rfl⟩
    · rw [if_neg (by exact_mod_cast h1), if_pos (by omega)]
      exact ⟨_, rfl⟩
  set L := push (fun xs => Naive.elemAt (descending xs) k) (Naive.draws (Naive.uniform (Naive.interval 1 m)) n) with hL
  have hop : ∀ ints, Naive.operate false ints .at_ (.num k) (.die l (some (n, Naive.uniform (Naive.interval 1 m)))) = some (Naive.one L) := by
    intro ints
    simp [Naive.operate, Naive.at', Naive.pick, h1, hk, hL]
  have hx : Naive.Exact L := ⟨m ^ n, hb, Enum.over_draws_fair hm n _⟩
  have hval : ∀ (R : Rules) call fns fr, call.table.low = false →
      Naive.value R call fns fr (.bin .at_ (.num K) (.ndm (.num N) (.num M))) = some (Naive.one L) := by
    intro R call fns fr hlow
    simp [Naive.value, d0, d1, d2, hroll, hlow, hop]
  have h := outputs_one (fl := fl) (e := .bin .at_ (.num K) (.ndm (.num N) (.num M))) (fun h => absurd (h 'o' (by simp)) (by decide)) hl.2 (by rw [hl.1]; rfl)
    ⟨by simp [opLevel, level], by simp [opLevel, level], trivial, rfl, rfl, trivial, trivial⟩
    (fun cs h => by
      cases h with
      | binL h => cases h
      | binR h =>
        cases h with
        | ndmL h => cases h
        | ndmR h => cases h)
    (fun t ht hk => by
      simp only [exprToks, opTokens, List.mem_append, List.mem_cons, List.not_mem_nil, or_false] at ht
      rcases ht with rfl | rfl | rfl | rfl | rfl <;> rcases hk with hk | hk <;> cases hk)
    (by simp [allSub, clean, i0, i1, i2, opLevel]) rfl (v := Naive.one L) (hval _ _ _ _ rfl)
    ⟨trivial, ⟨trivial, trivial, fun a b ha hb' => by
      simp only [Naive.value, d1, d2, Option.some.injEq] at ha hb'
      subst ha hb'
      exact rolls_exact hm hb⟩, fun v hv => by
      rw [hval _ _ _ _ rfl] at hv
      cases hv
      exact hx⟩
  refine h.mono fun o ho => ?_
  obtain ⟨x, hx, h7, h8, h9⟩ := shows_prob ho
  refine ⟨x, hx, h7, h8, fun t ht1 ht2 => ?_⟩
  rw [h9, Enum.mean_push]
  have e : Naive.mean (Naive.draws (Naive.uniform (Naive.interval 1 m)) n) (fun xs => if (t : ℤ) ≤ Naive.elemAt (descending xs) k then (1 : ℚ) else 0) =
      Naive.mean (Naive.draws (Naive.uniform (Naive.interval 1 m)) n) fun xs => (fun i : ℕ => if k ≤ i then (1 : ℚ) else 0) (xs.countP fun x => (t : ℤ) ≤ x) := by
    refine Enum.mean_congr fun xs hxs => ?_
    have hl := (Enum.mem_fst_draws.1 (List.mem_map_of_mem (f := Prod.fst) hxs)).1
    have := Enum.elemAt_ge xs.1 t (i := k - 1) (by omega)
    rw [show (1 + (k - 1 : ℕ) : ℤ) = k by omega, show k - 1 + 1 = k by omega] at this
    simp only [this]
  have htot : Naive.mean (Naive.uniform (Naive.interval 1 m)) (fun _ => 1) = 1 := by
    have hm' : (m : ℚ) ≠ 0 := by exact_mod_cast hm.ne'
    rw [Enum.mean_fair]
    simp [hm']
  have e2 := Enum.mean_draws_countP htot (fun x => (t : ℤ) ≤ x) n fun i : ℕ => if k ≤ i then (1 : ℚ) else 0
  refine (e.trans e2).trans ?_
  rw [mean_at_least ht1 ht2]
  simp only [mul_ite, mul_one, mul_zero]
  rw [← Finset.sum_filter]
  refine Finset.sum_congr ?_ fun i _ => rfl
  ext i
  simp only [Finset.mem_filter, Finset.mem_range, Finset.mem_Icc]
  omega

namespace Enum
open Naive (mean push uniform interval)

theorem explode_fair_whole {m : ℕ} (hm : 0 < m) (mx : ℤ) (e : ℕ) (f : ℤ → ℕ) :
    ∃ j : ℕ, mean (Naive.explodeLaw (uniform (interval 1 m)) mx e) (fun x => (f x : ℚ)) = (j : ℚ) / ((m ^ (e + 1) : ℕ) : ℚ) := by
  have hm' : (m : ℚ) ≠ 0 := by exact_mod_cast hm.ne'
  induction e generalizing f with
  | zero =>
    refine ⟨∑ x ∈ Finset.range m, f (x + 1), ?_⟩
    rw [Naive.explodeLaw, mean_fair]
    push_cast
    rw [pow_one]
  | succ e ih =>
    choose g hg using fun x : ℤ => ih fun y => f (x + y)
    refine ⟨∑ x ∈ Finset.range m, if (x : ℤ) + 1 = mx then g (x + 1) else m ^ (e + 1) * f (x + 1), ?_⟩
    rw [Naive.explodeLaw, mean_andThen, mean_fair]
    push_cast
    rw [pow_succ (m : ℚ) (e + 1), ← div_div, Finset.sum_div (f := fun x : ℕ => if (x : ℤ) + 1 = mx then (g (x + 1) : ℚ) else m ^ (e + 1) * f (x + 1))]
    congr 1
    refine Finset.sum_congr rfl fun x _ => ?_
    split
    · rw [mean_push, hg]
      push_cast
      rfl
    · rw [mean_sure]
      field_simp

theorem over_explode_fair {m : ℕ} (hm : 0 < m) (mx : ℤ) (e : ℕ) : Naive.Over (m ^ (e + 1)) (Naive.explodeLaw (uniform (interval 1 m)) mx e) := by
  refine ⟨Nat.pow_pos hm, fun v => ?_⟩
  rw [prob_eq_mean]
  obtain ⟨j, hj⟩ := explode_fair_whole hm mx e fun x => if x = v then 1 else 0
  refine ⟨j, ?_⟩
  rw [← hj]
  congr 1
  funext x
  split <;> simp

theorem over_explode_sure (n mx : ℤ) (e : ℕ) : Naive.Over 1 (Naive.explodeLaw (Naive.sure n) mx e) := by
  have key : ∃ c, ∀ f : ℤ → ℚ, mean (Naive.explodeLaw (Naive.sure n) mx e) f = f c := by
    induction e with
    | zero => exact ⟨n, fun f => by rw [Naive.explodeLaw, mean_sure]⟩
    | succ e ih =>
      obtain ⟨c, hc⟩ := ih
      refine ⟨if n = mx then n + c else n, fun f => ?_⟩
      rw [Naive.explodeLaw, mean_andThen, mean_sure]
      split
      · rw [mean_push, hc]
      · rw [mean_sure]
  obtain ⟨c, hc⟩ := key
  refine ⟨one_pos, fun v => ⟨if c = v then 1 else 0, ?_⟩⟩
  rw [prob_eq_mean, hc]
  split <;> simp

theorem highest_fair {m : ℕ} (hm : 0 < m) : Naive.highest (Naive.support (uniform (interval 1 m))) = m := by
  refine highest_eq ?_ fun x hx => ?_
  · rw [Naive.support, (Spec.ascending_perm _).mem_iff, List.mem_dedup, fair_mem]; omega
  · rw [Naive.support, (Spec.ascending_perm _).mem_iff, List.mem_dedup, fair_mem] at hx; omega

end Enum

/-- **C86**: for all numbers, the program `output [explode dM]` outputs a die that shows `M*i + v` with probability `1/M^(i+1)`, for `i` up to 2 and
`v` below `M`, or `M` the last time. -/
theorem C86_explode (fl : Flags) (hfl : fl.libConflict = false) {m : ℕ} {M : List Char} (hM : NatText m M) (hm : 0 < m) (hb : m ^ 3 ≤ Naive.most) :
    OutputsOne fl ("output [explode d".toList ++ M ++ "]".toList) fun o => ∃ x : RV ℤ, o = .rv x ∧ x.vals.Pairwise (· < ·) ∧ (∀ q ∈ x.probs, 0 < q) ∧
      ∀ i v : ℕ, i ≤ 2 → 1 ≤ v → v < m ∨ v = m ∧ i = 2 → Pr x.pairs (· = (m * i + v : ℤ)) = 1 / (m : ℚ) ^ (i + 1) := by
  obtain ⟨f2, i2, d2⟩ := natText_number hM
  have hlow : TokenForm Char.isDigit .lowername "explode".toList := by
    refine ⟨by decide, by decide, by decide⟩
  have hl := C42_render asciiDigits_isDigit [] (.inr rfl) [(tok .output "output", " ".toList), (tok .lbracket "[", []),
      (tok .lowername "explode", " ".toList), (tok .dOp "d", []), (⟨.number, M⟩, []), (tok .rbracket "]", [])]
    (by
      simp only [List.forall_mem_cons, List.not_mem_nil, false_implies, implies_true, and_true]
      exact ⟨⟨form_tok rfl (by decide), by simp [InLiteral, tok]⟩, ⟨form_tok rfl (by decide), by simp [InLiteral, tok]⟩,
        ⟨hlow, by simp [InLiteral, tok]⟩, ⟨form_tok rfl (by decide), by simp [InLiteral, tok]⟩, ⟨f2, by simp [InLiteral]⟩,
        form_tok rfl (by decide), by simp [InLiteral, tok]⟩)
    ⟨.inl .space, .inr ⟨rfl, fun c hc => id⟩, .inl .space, .inr ⟨rfl, number_head f2 digit_not_low⟩,
      .inr ⟨rfl, fun c hc => by cases hc; exact (by decide : ¬ Char.isDigit ']' = true)⟩, .inr rfl⟩
  have e : [] ++ render [(tok .output "output", " ".toList), (tok .lbracket "[", []), (tok .lowername "explode", " ".toList), (tok .dOp "d", []),
      (⟨.number, M⟩, []), (tok .rbracket "]", [])] = "output [explode d".toList ++ M ++ "]".toList := by
    simp [render, tok]
  rw [e] at hl
  have hm' : (0 : ℤ) < m := by exact_mod_cast hm
  have hroll : Naive.rollVal (.num 1) (.num m) = Naive.one (Naive.uniform (Naive.interval 1 m)) := by
    simp only [Naive.rollVal, Naive.faces, if_pos hm', Naive.rollNum, if_true]
  have hlib : fl.style.rules.lib = true := by simp [Flags.style, Style.rules, hfl]
  have hsig : callSig (.word "explode".toList (.arg (.dm (.num M)) .nil)) = [some "explode".toList, none] := rfl
  have hfind : Naive.library.lookup [some "explode".toList, none] = some (.lib fun t l => match l with
      | [d] => some (Naive.explodeVal t.explode d)
      | _ => none) := rfl
  have hex : ∀ k, Naive.explodeVal k (Naive.one (Naive.uniform (Naive.interval 1 m))) = Naive.one (Naive.explodeLaw (Naive.uniform (Naive.interval 1 m)) m k) := by
    intro k
    simp [Naive.explodeVal, Naive.convert, Naive.one, Enum.highest_fair hm]
  have hv : outputVal fl (.call (.word "explode".toList (.arg (.dm (.num M)) .nil))) =
      some (Naive.one (Naive.explodeLaw (Naive.uniform (Naive.interval 1 m)) m 2)) := by
    rw [← hex]
    simp only [outputVal, hlib, if_true, Naive.value, hsig, Naive.arguments, d2, hfind, hroll, Option.bind_some, Option.bind_eq_bind]
    rfl
  have h := outputs_one (fl := fl) (e := .call (.word "explode".toList (.arg (.dm (.num M)) .nil))) (fun h => absurd (h 'o' (by simp)) (by decide)) hl.2
    (by rw [hl.1]; rfl) ⟨trivial, by decide, ⟨rfl, trivial⟩, trivial, trivial⟩
    (fun cs h => by
      cases h with
      | refl => exact ⟨by rw [hsig]; decide, hfl⟩
      | call h =>
        cases h with
        | afterWord h =>
          cases h with
          | arg h =>
            cases h with
            | dm h => cases h
          | afterArg h => cases h)
    (fun t ht hk => by
      simp only [exprToks, Spec.callToks, List.mem_append, List.mem_cons, List.not_mem_nil, or_false] at ht
      rcases ht with (rfl | rfl | rfl | rfl) | rfl <;> rcases hk with hk | hk <;> cases hk)
    (by
      simp only [allSub, allSubC, clean, i2, hfl, hsig, decide_true, Bool.and_true]
      decide)
    (by
      have hpre : fl.style.pre = false := by simp [Flags.style, hfl]
      simp only [freeX, freeC, hsig, Bool.and_true, fnFree, hpre]
      cases fl.style.dict <;> decide) hv
    ⟨⟨trivial, trivial⟩, fun f args hf ha => by
      simp only [hlib, if_true, hsig, hfind, Option.some.injEq] at hf
      simp only [Naive.arguments, Naive.value, d2] at ha
      cases ha
      subst hf
      refine ⟨fun k hk v hv => ?_, fun a as hargs n hn v hv => ?_⟩
      · have hk' : k ≤ 2 := hk
        rw [hroll] at hv
        change some (Naive.explodeVal k _) = some v at hv
        rw [hex] at hv
        cases hv
        exact ⟨m ^ (k + 1), (Nat.pow_le_pow_right hm (by omega)).trans hb, Enum.over_explode_fair hm m k⟩
      · cases hargs
        change some (Naive.explodeVal 2 _) = some v at hv
        cases hv
        exact ⟨1, by decide, Enum.over_explode_sure n _ 2⟩⟩
  refine h.mono fun o ho => ?_
  obtain ⟨x, hx, h7, h8, h9⟩ := shows_prob ho
  refine ⟨x, hx, h7, h8, fun i v hi h1 h2 => ?_⟩
  rw [h9]
  exact Enum.explode_fair hm hi h1 h2

/-! ## Cases -/

/-- A literal in four parts, one of which looks like a variable but is not, and what is between. -/
example : tokens Char.isDigit (writeToks [⟨.output, "output".toList⟩, ⟨.number, "2".toList⟩, ⟨.named, "named".toList⟩, ⟨.instringAny, "a b".toList⟩,
      ⟨.instringVar, "[X]".toList⟩, ⟨.instringNonvar, "[x]".toList⟩, ⟨.instringNonvar, "[".toList⟩]) =
    [⟨.output, "output".toList⟩, ⟨.number, "2".toList⟩, ⟨.named, "named".toList⟩, ⟨.instringAny, "a b".toList⟩,
      ⟨.instringVar, "[X]".toList⟩, ⟨.instringNonvar, "[x]".toList⟩, ⟨.instringNonvar, "[".toList⟩] ∧
    writeToks [⟨.number, "2".toList⟩, ⟨.instringAny, "a b".toList⟩] = "2 \"a b\" ".toList := by decide +kernel

/-- No program has a part `[X]` of a literal that is not a variable. -/
example : ¬ ∃ s, reports Char.isDigit s = [] ∧ tokens Char.isDigit s = [⟨.instringNonvar, "[X]a".toList⟩] := by
  rw [C86_tokens asciiDigits_isDigit]
  intro h
  exact (h _ List.mem_cons_self).2 rfl "X".toList "a".toList (by decide) (by decide) rfl

/-- A program with most kinds of statements. -/
example : ∃ s, SourceOf (tokens Char.isDigit s) sampleTree ∧ reports Char.isDigit s = [] :=
  let ⟨s, h1, h2, _⟩ := C86_tree asciiDigits_isDigit sampleTree_written
    ((C86_tokens asciiDigits_isDigit _).1 ⟨sampleText, by decide +kernel, by decide +kernel⟩) (by decide +kernel)
  ⟨s, h1, h2⟩

/-- The program `output 2d6` meets the conditions of `C86_runs_partial`. -/
example : ∃ s t, compile {} Char.isDigit s = .ok t ∧ ∀ p, Py.ReadsProgram t p → ∃ N, ∀ n, N ≤ n → ∃ outs, (Exec.unsafeExec n p {}).1 = .ok outs := by
  let b := outputTree (.ndm (.num "2".toList) (.num "6".toList))
  have hv : (Naive.outputs (passFlags {} b).style.rules ⟨2, false, 10, 10⟩ b).isSome = true := by decide +kernel
  obtain ⟨vs, hv⟩ := Option.isSome_iff_exists.1 hv
  obtain ⟨s, t, h1, _, h3⟩ := C86_runs_partial {} (b := b) (u := "output(roll(2, 6))\n".toList) (by decide +kernel) ⟨⟨rfl, rfl, trivial, trivial⟩, trivial⟩
    ((C86_tokens asciiDigits_isDigit _).1 ⟨"output 2d6".toList, by decide +kernel, by decide +kernel⟩) (fun t ht hk => by
      have : ∀ t ∈ blockToks b, ¬ (t.kind = .instringAny ∨ t.kind = .instringNonvar) := by decide +kernel
      exact absurd hk (this t ht)) (by decide +kernel) (by decide +kernel) (by decide +kernel) hv (by decide +kernel) (by
      rintro rfl
      exact absurd hv (by decide +kernel))
  exact ⟨s, t, h1, fun p hp => (h3 p hp).imp fun N hN n hn => (hN n hn).2.imp fun _ h => h.1⟩

theorem natText_digit {d : ℕ} (h : d < 10) : NatText d [digitChar d] :=
  ⟨⟨[d], rfl, by simpa using h, by simp, by simp, by simp⟩⟩

/-- `output 3d6` -/
example : OutputsOne {} "output 3d6".toList fun o => ∃ x : RV ℤ, o = .rv x ∧ Pr x.pairs (· = 9) = 25 / 216 := by
  refine (C86_dice {} (natText_digit (d := 3) (by decide)) (natText_digit (d := 6) (by decide)) (by decide) (by decide)).mono fun o ⟨x, hx, _, _, h⟩ => ⟨x, hx, ?_⟩
  rw [h, show ways 3 6 9 = 25 by decide +kernel]
  norm_num

/-- The texts of the theorems, and what is made of them. -/
example : compile {} Char.isDigit "output 3d6".toList = .ok "output(roll(3, 6))\n".toList ∧
    compile {} Char.isDigit "output 2@3d6".toList = .ok "output((2 @ roll(3, 6)))\n".toList ∧
    compile {} Char.isDigit "output [explode d6]".toList = .ok "output(explode_X(roll(6)))\n".toList := by
  simp only [compile, Yacc.tables_eq]
  refine ⟨?_, ?_, ?_⟩ <;> decide +kernel

end PythonDice
