import Verif.Spec.Foreign
import Verif.Proofs.Resolver
import Verif.Proofs.Expressions
import Verif.Spec.Parse
import Verif.Proofs.Blocks

/-!
# Lemmas for C98: the words of generated texts
-/

namespace PythonDice.Foreign

open Spec Spec.Words Compiler
open Spec.Words (run)

theorem run_nil (st : State) : run st [] = st := rfl

theorem run_cons (st : State) (c : Char) (s : List Char) : run st (c :: s) = run (step st c) s := rfl

theorem run_append (st : State) (s t : List Char) : run st (s ++ t) = run (run st s) t := List.foldl_append

/-- Characters that Python takes literally in a literal, or doubled in the case of braces. -/
def TameChar (c : Char) : Prop := c ≠ '\n' ∧ c ≠ '\r' ∧ c ≠ '"' ∧ c ≠ '\\'

/-- A character that only ends words. -/
def Sep (c : Char) : Prop := wordChar c = false ∧ c ≠ '.' ∧ c ≠ '"' ∧ c ≠ '\'' ∧ c ≠ '#'

instance (c : Char) : Decidable (Sep c) := by unfold Sep; infer_instance

section
variable {A : List Char → Prop}

/-- Words that may be reported. -/
def Oks (A : List Char → Prop) (ws : List (List Char)) : Prop := ∀ w ∈ ws, A w

/-- A word that may end here. -/
def MayEnd (A : List Char → Prop) (w : List Char) : Prop := w = [] ∨ isNumber w = true ∨ A w

theorem oks_ended {w : List Char} {ws : List (List Char)} (hw : MayEnd A w) (h : Oks A ws) : Oks A (ended w ws) := by
  unfold ended
  split
  · exact h
  · rename_i hn
    rcases hw with hw | hw | hw
    · exact absurd (.inl hw) hn
    · exact absurd (.inr hw) hn
    · intro v hv
      rcases List.mem_append.1 hv with hv | hv
      · exact h v hv
      · rw [List.mem_singleton.1 hv]; exact hw

theorem codeStep_sep {st : State} {c : Char} (hc : Sep c) (hs : st.stack = []) :
    codeStep st c = ⟨[], [], ended st.word st.words⟩ := by
  obtain ⟨h1, h2, h3, h4, h5⟩ := hc
  unfold codeStep
  rw [h1, if_neg (by simp), if_neg h2, if_neg (by simp [h3, h4]), if_neg h5, hs, if_neg (by simp)]

/-- The states between texts. -/
inductive Calm (A : List Char → Prop) : State → Prop
  | code {w ws} : MayEnd A w → Oks A ws → Calm A ⟨[], w, ws⟩
  | closed {q ws} : q = '"' ∨ q = '\'' → Oks A ws → Calm A ⟨[.closed q], [], ws⟩

/-- The states between words. -/
inductive Clear (A : List Char → Prop) : State → Prop
  | mk {ws} : Oks A ws → Clear A ⟨[], [], ws⟩

theorem Clear.calm {st : State} (h : Clear A st) : Calm A st := by
  obtain ⟨h⟩ := h
  exact .code (.inl rfl) h

theorem step_sep {st : State} {c : Char} (hc : Sep c) (h : Calm A st) : Clear A (step st c) := by
  cases h with
  | code hw h =>
    unfold step
    split
    · exact ⟨oks_ended hw h⟩
    · dsimp only
      rw [codeStep_sep hc rfl]
      exact ⟨oks_ended hw h⟩
  | @closed q ws hq h =>
    unfold step
    split
    · exact ⟨oks_ended (.inl rfl) h⟩
    · dsimp only
      have : c ≠ q := by
        rcases hq with rfl | rfl
        · exact hc.2.2.1
        · exact hc.2.2.2.1
      rw [if_neg this, codeStep_sep hc rfl]
      exact ⟨oks_ended (.inl rfl) h⟩

theorem run_seps {st : State} {s : List Char} (hs : ∀ c ∈ s, Sep c) (h : Clear A st) : Clear A (run st s) := by
  induction s generalizing st with
  | nil => exact h
  | cons c s ih =>
    rw [run_cons]
    exact ih (fun d hd => hs d (by simp [hd])) (step_sep (hs c (by simp)) h.calm)

theorem run_sep {st : State} {s : List Char} (hs : ∀ c ∈ s, Sep c) (hn : s ≠ []) (h : Calm A st) : Clear A (run st s) := by
  cases s with
  | nil => exact absurd rfl hn
  | cons c s =>
    rw [run_cons]
    exact run_seps (fun d hd => hs d (by simp [hd])) (step_sep (hs c (by simp)) h)

/-- Texts without words of other kinds. -/
def Frag (A : List Char → Prop) (s : List Char) : Prop := ∀ st, Clear A st → Calm A (run st s)

/-- Such texts after which a new word begins. -/
def Shut (A : List Char → Prop) (s : List Char) : Prop := ∀ st, Clear A st → Clear A (run st s)

theorem Shut.frag {s : List Char} (h : Shut A s) : Frag A s := fun st hst => (h st hst).calm

theorem Shut.append {s t : List Char} (h : Shut A s) (h' : Shut A t) : Shut A (s ++ t) := by
  intro st hst
  rw [run_append]
  exact h' _ (h _ hst)

theorem Shut.frag_append {s t : List Char} (h : Shut A s) (h' : Frag A t) : Frag A (s ++ t) := by
  intro st hst
  rw [run_append]
  exact h' _ (h _ hst)

theorem Frag.sep {s t : List Char} (h : Frag A s) (ht : ∀ c ∈ t, Sep c) (hn : t ≠ []) : Shut A (s ++ t) := by
  intro st hst
  rw [run_append]
  exact run_sep ht hn (h _ hst)

theorem shut_seps {s : List Char} (h : ∀ c ∈ s, Sep c) : Shut A s := fun _ hst => run_seps h hst

theorem frag_nil : Frag A [] := fun _ hst => hst.calm

theorem run_word {s w : List Char} {ws : List (List Char)} (h : ∀ c ∈ s, wordChar c = true ∧ c ≠ '\n' ∧ c ≠ '\r') {k : List Ctx}
    (hk : k = [] ∨ ∃ r, k = .field :: r) : run ⟨k, w, ws⟩ s = ⟨k, w ++ s, ws⟩ := by
  induction s generalizing w with
  | nil => simp [run_nil]
  | cons c s ih =>
    have hc := h c (by simp)
    have h1 : step ⟨k, w, ws⟩ c = ⟨k, w ++ [c], ws⟩ := by
      unfold step
      rw [if_neg (by simp [hc.2.1, hc.2.2])]
      rcases hk with rfl | ⟨r, rfl⟩ <;> simp [codeStep, hc.1]
    rw [run_cons, h1, ih (fun d hd => h d (by simp [hd]))]
    simp

/-- The characters of words. -/
def Wordy (s : List Char) : Prop := ∀ c ∈ s, wordChar c = true ∧ c ≠ '\n' ∧ c ≠ '\r'

theorem frag_word {w : List Char} (hw : Wordy w) (h : MayEnd A w) : Frag A w := by
  rintro _ ⟨hst⟩
  rw [run_word hw (.inl rfl)]
  exact .code (by simpa using h) hst

/-! ## Literals -/

/-- Inside of a literal. -/
inductive Within (A : List Char → Prop) (q : Char) (f : Bool) : State → Prop
  | opened {ws} : Oks A ws → Within A q f ⟨[.opened q f], [], ws⟩
  | quoted {ws} : Oks A ws → Within A q f ⟨[.quoted q f], [], ws⟩

theorem within_char {q : Char} {f : Bool} {st : State} {c : Char} (h : Within A q f st) (h1 : c ≠ '\n') (h2 : c ≠ '\r') (h3 : c ≠ '\\')
    (h4 : c ≠ q) (h5 : c = '{' → f = false) : Within A q f (step st c) := by
  have h6 : ¬ (c = '{' ∧ f = true) := by
    rintro ⟨rfl, hf⟩
    rw [h5 rfl] at hf
    cases hf
  cases h with
  | opened h =>
    unfold step quotedStep
    rw [if_neg (by simp [h1, h2])]
    dsimp only
    rw [if_neg h4, if_neg h3, if_neg h4, if_neg h6]
    exact .quoted h
  | quoted h =>
    unfold step quotedStep
    rw [if_neg (by simp [h1, h2])]
    dsimp only
    rw [if_neg h3, if_neg h4, if_neg h6]
    exact .quoted h

theorem within_end {q : Char} {f : Bool} {st : State} (hq : q = '"' ∨ q = '\'') (h : Within A q f st) : Calm A (step st q) := by
  have h1 : ¬ (q = '\n' ∨ q = '\r') := by rcases hq with rfl | rfl <;> decide
  have h2 : q ≠ '\\' := by rcases hq with rfl | rfl <;> decide
  cases h with
  | opened h =>
    unfold step
    rw [if_neg h1]
    dsimp only
    rw [if_pos rfl]
    exact .closed hq h
  | quoted h =>
    unfold step quotedStep
    rw [if_neg h1]
    dsimp only
    rw [if_neg h2, if_pos rfl]
    exact .code (.inl rfl) h

theorem within_braces {st : State} (h : Within A '"' true st) : Within A '"' true (run st ['{', '{']) := by
  cases h with
  | opened h => exact .quoted h
  | quoted h => exact .quoted h

/-- A quoted name. -/
theorem within_name {q : Char} {f : Bool} (hq : q = '"' ∨ q = '\'') {st : State} {s : List Char} (h : Within A q f st) (hs : Wordy s) :
    Within A q f (run st s) := by
  induction s generalizing st with
  | nil => exact h
  | cons c s ih =>
    have hc := hs c (by simp)
    have hne : ∀ d : Char, wordChar d = false → c ≠ d := by
      rintro d hd rfl
      rw [hc.1] at hd
      cases hd
    rw [run_cons]
    refine ih ?_ (fun d hd => hs d (by simp [hd]))
    refine within_char h hc.2.1 hc.2.2 (hne _ (by decide)) (hne _ ?_) (fun e => absurd e (hne _ (by decide)))
    rcases hq with rfl | rfl <;> decide

/-- A field with a name or an entry of the dictionary. -/
theorem within_field {st : State} {fl : Flags} {x : List Char} (h : Within A '"' true st) (hx : Wordy x) (hn : x ≠ []) (ha : A x)
    (hv : fl.nonLocal = true → A "vars".toList) : Within A '"' true (run st (StrPart.emit fl (.var x))) := by
  have hb : ∃ ws, Oks A ws ∧ step st '{' = ⟨[.brace, .quoted '"' true], [], ws⟩ := by
    cases h with
    | opened h => exact ⟨_, h, rfl⟩
    | quoted h => exact ⟨_, h, rfl⟩
  obtain ⟨ws, hws, hb⟩ := hb
  show Within A '"' true (run st (if fl.nonLocal then "{vars['".toList ++ x ++ "']}".toList else "{".toList ++ x ++ "}".toList))
  split
  · rename_i hl
    show Within A '"' true (run st ('{' :: "vars['".toList ++ x ++ "']}".toList))
    rw [List.append_assoc, List.cons_append, run_cons, hb, run_append]
    have h1 : run ⟨[.brace, .quoted '"' true], [], ws⟩ "vars['".toList =
        ⟨[.opened '\'' false, .field, .quoted '"' true], [], ws ++ ["vars".toList]⟩ := by
      rfl
    rw [h1, run_append]
    have hw' : Oks A (ws ++ ["vars".toList]) := by
      intro w hw
      rcases List.mem_append.1 hw with hw | hw
      · exact hws w hw
      · rw [List.mem_singleton.1 hw]; exact hv hl
    have key : ∀ (s : List Char), Wordy s → ∀ k, (k = .opened '\'' false ∨ k = .quoted '\'' false) → ∀ ws : List (List Char), ∃ k', (k' = .opened '\'' false ∨ k' = .quoted '\'' false) ∧
        run ⟨[k, .field, .quoted '"' true], [], ws⟩ s = ⟨[k', .field, .quoted '"' true], [], ws⟩ := by
      intro s
      induction s with
      | nil => exact fun _ k hk ws => ⟨k, hk, rfl⟩
      | cons c s ih =>
        intro hs k hk ws
        have hc := hs c (by simp)
        have hne : ∀ d : Char, wordChar d = false → c ≠ d := by
          rintro d hd rfl
          rw [hc.1] at hd
          cases hd
        have hstep : step ⟨[k, .field, .quoted '"' true], [], ws⟩ c = ⟨[.quoted '\'' false, .field, .quoted '"' true], [], ws⟩ := by
          unfold step quotedStep
          rw [if_neg (by simp [hc.2.1, hc.2.2])]
          rcases hk with rfl | rfl
          · dsimp only
            rw [if_neg (hne _ (by decide)), if_neg (hne _ (by decide)), if_neg (hne _ (by decide)), if_neg (by simp)]
          · dsimp only
            rw [if_neg (hne _ (by decide)), if_neg (hne _ (by decide)), if_neg (by simp)]
        rw [run_cons, hstep]
        exact ih (fun d hd => hs d (by simp [hd])) _ (.inr rfl) ws
    obtain ⟨k', hk', hr⟩ := key x hx _ (.inl rfl) (ws ++ ["vars".toList])
    rw [hr]
    rcases hk' with rfl | rfl
    · exact .quoted hw'
    · exact .quoted hw'
  · show Within A '"' true (run st ('{' :: x ++ "}".toList))
    rw [List.cons_append, run_cons, hb]
    cases x with
    | nil => exact absurd rfl hn
    | cons c x =>
      have hc := hx c (by simp)
      have hne : ∀ d : Char, wordChar d = false → c ≠ d := by
        rintro d hd rfl
        rw [hc.1] at hd
        cases hd
      have hstep : step ⟨[.brace, .quoted '"' true], [], ws⟩ c = ⟨[.field, .quoted '"' true], [c], ws⟩ := by
        unfold step
        rw [if_neg (by simp [hc.2.1, hc.2.2])]
        dsimp only
        rw [if_neg (hne _ (by decide))]
        simp [codeStep, hc.1]
      rw [List.cons_append, run_cons, hstep, run_append, run_word (fun d hd => hx d (by simp [hd])) (.inr ⟨_, rfl⟩)]
      refine .quoted ?_
      exact oks_ended (.inr (.inr ha)) hws

theorem within_text {st : State} {s : List Char} (h : Within A '"' true st) (hs : ∀ c ∈ s, TameChar c) :
    Within A '"' true (run st (escapeBraces s)) := by
  induction s generalizing st with
  | nil => exact h
  | cons c s ih =>
    have hc := hs c (by simp)
    unfold TameChar at hc
    have e : escapeBraces (c :: s) = (if c = '{' then ['{', '{'] else if c = '}' then ['}', '}'] else [c]) ++ escapeBraces s := rfl
    rw [e, run_append]
    refine ih ?_ (fun d hd => hs d (by simp [hd]))
    split
    · exact within_braces h
    · rename_i h1
      split
      · show Within A '"' true (step (step st '}') '}')
        refine within_char (within_char h ?_ ?_ ?_ ?_ ?_) ?_ ?_ ?_ ?_ ?_ <;> decide
      · exact within_char h hc.1 hc.2.1 hc.2.2.2 hc.2.2.1 (fun e => absurd e h1)

theorem wordy_start {w : List Char} (h : ∀ c ∈ w, Py.nameStart c = true) : Wordy w := by
  intro c hc
  have h1 := nameChar_of_start (h c hc)
  have h2 : wordChar c = true := by
    unfold wordChar
    unfold Py.nameChar at h1
    rw [h1]
    rfl
  refine ⟨h2, ?_, ?_⟩ <;> rintro rfl <;> exact absurd h2 (by decide)

theorem wordy_var {x : List Char} (h : VarName x) : Wordy x := by
  refine wordy_start fun c hc => ?_
  rcases h.2 c hc with ⟨h1, h2⟩ | rfl
  · have : c.isUpper = true := by
      unfold Char.isUpper
      rw [decide_eq_true_eq]
      exact ⟨h1, h2⟩
    simp [Py.nameStart, Char.isAlpha, this]
  · rfl

theorem wordy_digits {n : List Char} (h : Digits Char.isDigit n) : Wordy n := by
  intro c hc
  have h1 := h.2 c hc
  refine ⟨by simp [wordChar, Char.isAlphanum, h1], ?_, ?_⟩ <;> rintro rfl <;> exact absurd h1 (by decide)

theorem isNumber_digits {n : List Char} (h : Digits Char.isDigit n) : isNumber n = true := by
  cases n with
  | nil => exact absurd rfl h.1
  | cons c n =>
    unfold isNumber
    rw [Bool.and_eq_true]
    refine ⟨h.2 c (by simp), ?_⟩
    rw [List.all_eq_true]
    intro d hd
    rw [h.2 d hd]
    rfl

theorem frag_num {n : List Char} (h : Digits Char.isDigit n) : Frag A n := frag_word (wordy_digits h) (.inr (.inl (isNumber_digits h)))

theorem frag_dec {a b : List Char} (ha : Digits Char.isDigit a) (hb : Digits Char.isDigit b) : Frag A (a ++ ".".toList ++ b) := by
  rintro _ ⟨hst⟩
  rw [run_append, run_append, run_word (wordy_digits ha) (.inl rfl)]
  rename_i ws
  have h1 : run ⟨[], [] ++ a, ws⟩ ".".toList = ⟨[], a ++ ['.'], ws⟩ := by
    show step ⟨[], a, ws⟩ '.' = _
    unfold step codeStep
    rw [if_neg (by decide)]
    dsimp only
    rw [if_neg (by decide), if_pos rfl, if_pos (isNumber_digits ha)]
  rw [h1, run_word (wordy_digits hb) (.inl rfl)]
  refine .code (.inr (.inl ?_)) hst
  cases a with
  | nil => exact absurd rfl ha.1
  | cons c a =>
    unfold isNumber
    rw [Bool.and_eq_true]
    refine ⟨ha.2 c (by simp), ?_⟩
    rw [List.all_eq_true]
    intro d hd
    rcases List.mem_append.1 hd with hd | hd
    · rcases List.mem_append.1 hd with hd | hd
      · rw [ha.2 d hd]; rfl
      · rw [List.mem_singleton.1 hd]; rfl
    · rw [hb.2 d hd]; rfl

/-- What a set of words must contain. -/
structure Fine (fl : Flags) (A : List Char → Prop) : Prop where
  base : ∀ w ∈ baseWords, A w
  var : ∀ x, VarName x → A x
  dummy : ∀ i, A (dummy i)
  copy : fl.nonLocal = true → A "vars".toList ∧ A ".".toList ∧ A "copy".toList

theorem Fine.word {fl : Flags} (F : Fine fl A) (w : String) (h : w.toList ∈ baseWords) (hw : ∀ c ∈ w.toList, Py.nameStart c = true) : Frag A w.toList :=
  frag_word (wordy_start hw) (.inr (.inr (F.base _ h)))

theorem frag_parts {fl : Flags} (F : Fine fl A) {ps : List StrPart} (h : PartsOK TameChar ps) {st : State} (hst : Within A '"' true st) :
    Within A '"' true (run st (ps.flatMap (StrPart.emit fl))) := by
  induction ps generalizing st with
  | nil => exact hst
  | cons p ps ih =>
    rw [List.flatMap_cons, run_append]
    refine ih (fun q hq => h q (by simp [hq])) ?_
    have hp := h p (by simp)
    cases p with
    | text s => exact within_text hst hp
    | var x => exact within_field hst (wordy_var hp) hp.1 (F.var x hp) fun hl => (F.copy hl).1

theorem frag_str {fl : Flags} (F : Fine fl A) {ps : List StrPart} (h : PartsOK TameChar ps) : Frag A (emitStr fl ps) := by
  rintro _ ⟨hst⟩
  rename_i ws
  unfold emitStr
  rw [run_append, run_append]
  have h1 : run ⟨[], [], ws⟩ "f\"".toList = ⟨[.opened '"' true], [], ws⟩ := rfl
  rw [h1]
  exact within_end (.inl rfl) (frag_parts F h (.opened hst))

/-- An entry of a dictionary. -/
theorem frag_key {q : Char} (hq : q = '"' ∨ q = '\'') {x : List Char} (hx : Wordy x) (hv : A "vars".toList) :
    Shut A ("vars[".toList ++ [q] ++ x ++ [q] ++ "]".toList) := by
  refine Frag.sep ?_ (by decide) (by decide)
  rintro _ ⟨hst⟩
  rename_i ws
  rw [run_append, run_append, run_append]
  have h1 : run ⟨[], [], ws⟩ "vars[".toList = ⟨[], [], ws ++ ["vars".toList]⟩ := rfl
  have h2 : run ⟨[], [], ws ++ ["vars".toList]⟩ [q] = ⟨[.opened q false], [], ws ++ ["vars".toList]⟩ := by
    rcases hq with rfl | rfl <;> rfl
  rw [h1, h2]
  refine within_end hq (within_name hq (.opened ?_) hx)
  intro w hw
  rcases List.mem_append.1 hw with hw | hw
  · exact hst w hw
  · rw [List.mem_singleton.1 hw]; exact hv

theorem frag_var {fl : Flags} (F : Fine fl A) {x : List Char} (h : VarName x) : Frag A (emitVar fl x) := by
  unfold emitVar
  split
  · rename_i hl
    have := (frag_key (.inr rfl) (wordy_var h) (F.copy hl).1).frag
    simpa using this
  · exact frag_word (wordy_var h) (.inr (.inr (F.var x h)))

theorem frag_join {sep : List Char} (hs : ∀ c ∈ sep, Sep c) (hn : sep ≠ []) {ls : List (List Char)} (h : ∀ l ∈ ls, Frag A l) : Frag A (join sep ls) := by
  induction ls with
  | nil => exact frag_nil
  | cons p ps ih =>
    cases ps with
    | nil => exact h p (by simp)
    | cons q ps => exact ((h p (by simp)).sep hs hn).frag_append (ih fun l hl => h l (by simp [hl]))

theorem frag_callText {f : List Char} {args : List (List Char)} (hf : Frag A f) (h : ∀ a ∈ args, Frag A a) : Frag A (callText f args) := by
  unfold callText
  exact (((hf.sep (by decide) (by decide)).frag_append (frag_join (by decide) (by decide) h)).sep (by decide) (by decide)).frag

theorem frag_withVars {fl : Flags} (F : Fine fl A) {args : List (List Char)} (h : ∀ a ∈ args, Frag A a) : ∀ a ∈ withVars fl args, Frag A a := by
  unfold withVars
  split
  · rename_i hl
    intro a ha
    rcases List.mem_append.1 ha with ha | ha
    · exact h a ha
    · rw [List.mem_singleton.1 ha]
      exact frag_word (wordy_start (by decide)) (.inr (.inr (F.copy hl).1))
  · exact h

theorem py_seps (op : BinOp) : ∀ c ∈ op.py, Sep c := by
  cases op <;> decide

theorem frag_infix {l r : List Char} (op : BinOp) (hl : Frag A l) (hr : Frag A r) : Frag A (l ++ " ".toList ++ op.py ++ " ".toList ++ r) := by
  have h1 : Shut A (l ++ " ".toList) := hl.sep (by decide) (by decide)
  exact ((h1.append (shut_seps (py_seps op))).append (shut_seps (by decide))).frag_append hr

theorem frag_bin {fl : Flags} (F : Fine fl A) (op : BinOp) {l r : List Char} (hl : Frag A l) (hr : Frag A r) : Frag A (emitBin fl op l r) := by
  unfold emitBin
  split
  · rename_i f hf
    split
    · have h1 : Frag A f := by
        cases op <;> cases hf
        · exact F.word "myMatmul" (by decide) (by decide)
        · exact F.word "myAnd" (by decide) (by decide)
        · exact F.word "myOr" (by decide) (by decide)
      exact frag_callText h1 (by simp [hl, hr])
    · split
      · have h1 : Shut A ("(".toList) := shut_seps (by decide)
        have h2 := (h1.frag_append (frag_infix op hl hr)).sep (t := ")".toList) (by decide) (by decide)
        simpa only [List.append_assoc] using h2.frag
      · exact frag_infix op hl hr
  · exact frag_infix op hl hr

theorem frag_unary {fl : Flags} (F : Fine fl A) (op : UnOp) {e : List Char} (he : Frag A e) : Frag A (emitUnary fl op e) := by
  cases op with
  | plus => exact (shut_seps (s := "+".toList) (by decide)).frag_append he
  | minus => exact (shut_seps (s := "-".toList) (by decide)).frag_append he
  | not_ =>
    show Frag A (if fl.opOnInt then callText "myInvert".toList [e] else "~".toList ++ e)
    split
    · exact frag_callText (F.word "myInvert" (by decide) (by decide)) (by simp [he])
    · exact (shut_seps (s := "~".toList) (by decide)).frag_append he

mutual

theorem frag_expr {fl : Flags} (F : Fine fl A) : ∀ e : Expr, ExprOK Char.isDigit TameChar e → (∀ f ∈ e.calls fl, A f) → Frag A (e.emit fl)
  | .num n, h, _ => frag_num h
  | .dec a b, h, _ => frag_dec h.1 h.2
  | .var x, h, _ => frag_var F h
  | .str ps, h, _ => frag_str F h
  | .group e, h, hc => (((shut_seps (s := "(".toList) (by decide)).frag_append (frag_expr F e h hc)).sep (by decide) (by decide)).frag
  | .bin op l r, h, hc => frag_bin F op (frag_expr F l h.1 fun f hf => hc f (List.mem_append_left _ hf))
      (frag_expr F r h.2 fun f hf => hc f (List.mem_append_right _ hf))
  | .ndm l r, h, hc => by
    have h1 := frag_expr F l h.1 fun f hf => hc f (List.mem_append_left _ hf)
    have h2 := frag_expr F r h.2 fun f hf => hc f (List.mem_append_right _ hf)
    exact frag_callText (F.word "roll" (by decide) (by decide)) (by simp [h1, h2])
  | .dm r, h, hc => by
    have h1 := frag_expr F r h hc
    exact frag_callText (F.word "roll" (by decide) (by decide)) (by simp [h1])
  | .unary op e, h, hc => frag_unary F op (frag_expr F e h hc)
  | .hash e, h, hc => by
    have h1 := frag_expr F e h hc
    refine frag_callText ?_ (by simp [h1])
    split
    · exact F.word "myLen" (by decide) (by decide)
    · exact F.word "len" (by decide) (by decide)
  | .seq es, h, hc => by
    have h1 : Shut A ("get_seq".toList ++ "([".toList) := (F.word "get_seq" (by decide) (by decide)).sep (by decide) (by decide)
    exact ((h1.frag_append (frag_join (by decide) (by decide) (frag_elems F es h hc))).sep (by decide) (by decide)).frag
  | .call cs, h, hc => by
    refine frag_callText (frag_word (wordy_start ?_) (.inr (.inr (hc _ (by simp [Expr.calls])))))
      (frag_withVars F (frag_args F cs h.2 fun f hf => hc f (by simp [Expr.calls, hf])))
    exact (mangle_start fl (names_good cs h.2) (names_ne h.1)).1

theorem frag_elems {fl : Flags} (F : Fine fl A) : ∀ es : Elems, ElemsOK Char.isDigit TameChar es → (∀ f ∈ es.calls fl, A f) →
    ∀ t ∈ es.emit fl, Frag A t
  | .nil, _, _ => fun t ht => by cases ht
  | .expr e es, h, hc => fun t ht => by
    rcases List.mem_cons.1 ht with rfl | ht
    · exact frag_expr F e h.1 fun f hf => hc f (List.mem_append_left _ hf)
    · exact frag_elems F es h.2 (fun f hf => hc f (List.mem_append_right _ hf)) t ht
  | .range l r es, h, hc => fun t ht => by
    rcases List.mem_cons.1 ht with rfl | ht
    · have h1 := frag_expr F l h.1 fun f hf => hc f (List.mem_append_left _ (List.mem_append_left _ hf))
      have h2 := frag_expr F r h.2.1 fun f hf => hc f (List.mem_append_left _ (List.mem_append_right _ hf))
      exact frag_callText (F.word "myrange" (by decide) (by decide)) (by simp [h1, h2])
    · exact frag_elems F es h.2.2 (fun f hf => hc f (List.mem_append_right _ hf)) t ht

theorem frag_args {fl : Flags} (F : Fine fl A) : ∀ cs : CallParts, CallOK Char.isDigit TameChar cs → (∀ f ∈ cs.calls fl, A f) →
    ∀ t ∈ cs.emit fl, Frag A t
  | .nil, _, _ => fun t ht => by cases ht
  | .word w cs, h, hc => fun t ht => frag_args F cs h.2 hc t ht
  | .arg e cs, h, hc => fun t ht => by
    rcases List.mem_cons.1 ht with rfl | ht
    · exact frag_expr F e h.1 fun f hf => hc f (List.mem_append_left _ hf)
    · exact frag_args F cs h.2 (fun f hf => hc f (List.mem_append_right _ hf)) t ht

end

/-! ## Lines -/

theorem join_lines (s : List Char) : join "\n".toList (lines s) = s := by
  induction s with
  | nil => rfl
  | cons c s ih =>
    by_cases hc : c = '\n'
    · subst hc
      rw [lines_newline]
      cases hl : lines s with
      | nil => exact absurd hl (lines_ne s)
      | cons l ls => rw [hl] at ih; rw [join, ih]; rfl
    · obtain ⟨l, ls, h1, h2⟩ := lines_cons hc s
      rw [h2]
      rw [h1] at ih
      cases ls with
      | nil => rw [join] at ih ⊢; rw [ih]
      | cons m ls => rw [join] at ih ⊢; rw [← ih]; rfl

/-- The words after a line. -/
theorem run_line (st : State) (p t : List Char) : ∃ ws, run st (p ++ "\n".toList ++ t) = run ⟨[], [], ws⟩ t ∧ step (run st p) '\n' = ⟨[], [], ws⟩ := by
  refine ⟨ended (run st p).word (run st p).words, ?_, rfl⟩
  rw [run_append, run_append]
  rfl

theorem run_line_congr {st st' : State} {p p' t t' : List Char} (hp : run st p = run st' p') (h : ∀ ws, run ⟨[], [], ws⟩ t = run ⟨[], [], ws⟩ t') :
    run st (p ++ "\n".toList ++ t) = run st' (p' ++ "\n".toList ++ t') := by
  rw [run_append, run_append, run_append (s := p' ++ _), run_append (s := p'), hp]
  exact h _

theorem run_indent (ls : List (List Char)) (ws : List (List Char)) :
    run ⟨[], [], ws⟩ (join "\n".toList (ls.map fun x => "  ".toList ++ x)) = run ⟨[], [], ws⟩ (join "\n".toList ls) := by
  have h0 : ∀ (ws : List (List Char)) (l : List Char), run ⟨[], [], ws⟩ ("  ".toList ++ l) = run ⟨[], [], ws⟩ l := fun _ _ => rfl
  induction ls generalizing ws with
  | nil => rfl
  | cons p ps ih =>
    cases ps with
    | nil => exact h0 ws p
    | cons q ps => exact run_line_congr (h0 ws p) ih

theorem frag_indent {s : List Char} (h : Frag A s) : Frag A (indent s) := by
  rintro _ ⟨hst⟩
  unfold indent
  rw [run_indent, join_lines]
  exact h _ ⟨hst⟩

theorem sep_blank {c : Char} (h : (c == ' ' || (9 ≤ c.toNat && c.toNat ≤ 13) || (28 ≤ c.toNat && c.toNat ≤ 31)) = true) : Sep c := by
  have h1 : c.toNat ≤ 32 := by
    simp only [Bool.or_eq_true, Bool.and_eq_true, decide_eq_true_eq, beq_iff_eq] at h
    rcases h with (rfl | h) | h
    · decide
    · omega
    · omega
  have h2 : ∀ n ≤ 32, Sep (Char.ofNat n) := by decide
  have := h2 _ h1
  rwa [Char.ofNat_toNat] at this

theorem run_blank {l : List Char} (h : blank l = true) (ws : List (List Char)) : run ⟨[], [], ws⟩ l = ⟨[], [], ws⟩ := by
  unfold blank at h
  rw [List.all_eq_true] at h
  induction l with
  | nil => rfl
  | cons c l ih =>
    have hs : Sep c := sep_blank (h c (by simp))
    have h1 : step ⟨[], [], ws⟩ c = ⟨[], [], ws⟩ := by
      unfold step
      split
      · rfl
      · dsimp only
        rw [codeStep_sep hs rfl]
        rfl
    rw [run_cons, h1]
    exact ih fun d hd => h d (by simp [hd])

theorem run_blankLine {p p' : List Char} (h : blank p = true) (h' : blank p' = true) (ls : List (List Char)) (ws : List (List Char)) :
    run ⟨[], [], ws⟩ (join "\n".toList (p :: ls)) = run ⟨[], [], ws⟩ (join "\n".toList (p' :: ls)) := by
  cases ls with
  | nil => exact (run_blank h ws).trans (run_blank h' ws).symm
  | cons q ls => exact run_line_congr ((run_blank h ws).trans (run_blank h' ws).symm) fun _ => rfl

theorem run_squeezeFrom (prev : List Char) (ls : List (List Char)) (ws : List (List Char)) :
    run ⟨[], [], ws⟩ (join "\n".toList (prev :: squeezeFrom prev ls)) = run ⟨[], [], ws⟩ (join "\n".toList (prev :: ls)) := by
  induction ls generalizing prev ws with
  | nil => rfl
  | cons x xs ih =>
    unfold squeezeFrom
    split
    · exact run_line_congr rfl fun ws => ih x ws
    · rename_i hb
      have hx : blank x = true := by
        by_contra h
        exact hb (.inl (by simpa using h))
      have hp : blank prev = true := by
        by_contra h
        exact hb (.inr (by simpa using h))
      rw [run_blankLine hp hx, ih x ws]
      have h1 : join "\n".toList (prev :: x :: xs) = prev ++ "\n".toList ++ join "\n".toList (x :: xs) := rfl
      rw [h1, run_append, run_append, run_blank hp]
      rfl

theorem run_cleanUp (s : List Char) (ws : List (List Char)) : run ⟨[], [], ws⟩ (cleanUp s) = run ⟨[], [], ws⟩ s := by
  unfold cleanUp
  cases hl : lines s with
  | nil => exact absurd hl (lines_ne s)
  | cons l ls =>
    rw [squeeze, run_squeezeFrom, ← hl, join_lines]

/-! ## Statements -/

theorem frag_blockText {fl : Flags} (F : Fine fl A) {ls : List (List Char)} (h : ∀ l ∈ ls, Frag A l) : Frag A (blockText ls) := by
  unfold blockText
  split
  · exact F.word "pass" (by decide) (by decide)
  · exact frag_join (by decide) (by decide) h

/-- A name of a parameter, as written or made up. -/
def ParamName' (n : List Char) : Prop := VarName n ∨ ∃ i, n = dummy i

theorem wordy_param {n : List Char} (h : ParamName' n) : Wordy n := by
  rcases h with h | ⟨i, rfl⟩
  · exact wordy_var h
  · intro c hc
    rcases List.mem_append.1 hc with hc | hc
    · exact wordy_start (w := "dummy".toList) (by decide) c hc
    · rw [Nat.toList_repr] at hc
      have h1 := Nat.isDigit_of_mem_toDigits (by decide) (by decide) hc
      refine ⟨by simp [wordChar, Char.isAlphanum, h1], ?_, ?_⟩ <;> rintro rfl <;> exact absurd h1 (by decide)

theorem frag_param {fl : Flags} (F : Fine fl A) {n : List Char} (h : ParamName' n) : Frag A n := by
  refine frag_word (wordy_param h) (.inr (.inr ?_))
  rcases h with h | ⟨i, rfl⟩
  · exact F.var _ h
  · exact F.dummy i

/-- What the renaming of parameters keeps. -/
def Renamed (A : List Char → Prop) (st : List Param × List (List Char)) : Prop :=
  (∀ p ∈ st.1, ParamName' p.name ∧ ∀ t, p.type = some t → Frag A t) ∧ ∀ n ∈ st.2, ParamName' n

theorem renamed_fixAt {i : ℕ} {st st' : List Param × List (List Char)} (h : fixAt i st = .ok st') (hst : Renamed A st) : Renamed A st' := by
  unfold fixAt at h
  split at h
  · cases h
  · split at h
    · split at h
      · next n t ht =>
        cases h
        refine ⟨fun p hp => ?_, fun m hm => ?_⟩
        · rcases List.mem_or_eq_of_mem_set hp with hp | rfl
          · exact hst.1 p hp
          · exact ⟨Or.inr ⟨i, rfl⟩, fun t' ht' => by cases ht'; exact (hst.1 _ (List.mem_of_getElem? ht)).2 t rfl⟩
        · rcases List.mem_or_eq_of_mem_set hm with hm | rfl
          · exact hst.2 m hm
          · exact Or.inr ⟨i, rfl⟩
      · cases h
    · cases h
      exact hst

theorem renamed_fixLoop {i : ℕ} {st st' : List Param × List (List Char)} (h : fixLoop i st = .ok st') (hst : Renamed A st) : Renamed A st' := by
  induction i generalizing st with
  | zero => cases h; exact hst
  | succ i ih =>
    rw [fixLoop] at h
    cases hf : fixAt i st with
    | error e => rw [hf] at h; cases h
    | ok st1 => rw [hf] at h; exact ih h (renamed_fixAt hf hst)

theorem frag_dtype {fl : Flags} (F : Fine fl A) {t : List Char} (hw : Word t) (h : t = "n".toList ∨ t = "s".toList ∨ t = "d".toList ∨ A t) :
    Frag A (dtype t) := by
  have hv : ∀ x : String, VarName x.toList → Frag A x.toList := fun x hx => frag_word (wordy_var hx) (.inr (.inr (F.var _ hx)))
  unfold dtype
  split
  · exact hv "T_S" ⟨by decide, by decide⟩
  · rename_i h1
    split
    · exact hv "T_N" ⟨by decide, by decide⟩
    · rename_i h2
      split
      · exact hv "T_D" ⟨by decide, by decide⟩
      · rename_i h3
        rcases h with h | h | h | h
        · exact absurd h h2
        · exact absurd h h1
        · exact absurd h h3
        · exact frag_word (wordy_start (start_word hw)) (.inr (.inr h))

/-- The types of the parameters of a function. -/
def TypesOK (A : List Char → Prop) (d : List DefPart) : Prop :=
  ∀ x t, .typed x t ∈ d → t = "n".toList ∨ t = "s".toList ∨ t = "d".toList ∨ A t

theorem renamed_params {fl : Flags} (F : Fine fl A) {sig : List DefPart} (h : ∀ d ∈ sig, DefOK d) (ht : TypesOK A sig)
    {r : List Param × List (List Char)} (hr : fixDups (params sig) = .ok r) : Renamed A r := by
  have h0 : ∀ p ∈ params sig, ParamName' p.name ∧ ∀ t, p.type = some t → Frag A t := by
    intro p hp
    obtain ⟨d, hd, hp⟩ := List.mem_filterMap.1 hp
    have hd' := h d hd
    cases d with
    | word w => cases hp
    | param x => cases hp; exact ⟨Or.inl hd', fun t ht => by cases ht⟩
    | typed x t =>
      cases hp
      refine ⟨Or.inl hd'.1, fun t' e => ?_⟩
      cases e
      exact frag_dtype F hd'.2 (ht x t hd)
  have h1 : Renamed A (params sig, (params sig).map Param.name) := by
    refine ⟨h0, fun n hn => ?_⟩
    obtain ⟨p, hp, rfl⟩ := List.mem_map.1 hn
    exact (h0 p hp).1
  unfold fixDups at hr
  split at hr
  · exact renamed_fixLoop hr h1
  · cases hr
    exact h1

theorem frag_paramText {fl : Flags} (F : Fine fl A) {p : Param} (hn : ParamName' p.name) (ht : ∀ t, p.type = some t → Frag A t) : Frag A p.text := by
  unfold Param.text
  split
  · exact frag_param F hn
  · rename_i t e
    exact ((frag_param F hn).sep (by decide) (by decide)).frag_append (ht t e)

theorem frag_defLine {fl : Flags} (F : Fine fl A) {sig : List DefPart} (h : ∀ d ∈ sig, DefOK d) (hne : sig ≠ [])
    (hm : A (mangle fl (sig.map DefPart.name))) {ps : List Param}
    (hp : ∀ p ∈ ps, ParamName' p.name ∧ ∀ t, p.type = some t → Frag A t) : Shut A (defLine fl sig ps) := by
  have h1 : Shut A ("def".toList ++ " ".toList) := (F.word "def" (by decide) (by decide)).sep (by decide) (by decide)
  have h2 : Frag A (mangle fl (sig.map DefPart.name)) := by
    refine frag_word (wordy_start ?_) (.inr (.inr hm))
    refine (mangle_start fl ?_ (by simpa using hne)).1
    intro w hw
    obtain ⟨d, hd, rfl⟩ := List.mem_map.1 hw
    have := h d hd
    cases d with
    | word w => exact ⟨this.1, start_word this⟩
    | param x => exact ⟨show ['X'] ≠ [] by decide, show ∀ c ∈ ['X'], Py.nameStart c = true by decide⟩
    | typed x t => exact ⟨show ['X'] ≠ [] by decide, show ∀ c ∈ ['X'], Py.nameStart c = true by decide⟩
  have h3 : ∀ a ∈ withVars fl (ps.map Param.text), Frag A a := by
    refine frag_withVars F fun a ha => ?_
    obtain ⟨p, hp', rfl⟩ := List.mem_map.1 ha
    exact frag_paramText F (hp p hp').1 (hp p hp').2
  exact (((h1.frag_append h2).sep (t := "(".toList) (by decide) (by decide)).frag_append (frag_join (by decide) (by decide) h3)).sep
    (by decide) (by decide)

theorem frag_varsLine {fl : Flags} (F : Fine fl A) {names : List (List Char)} (h : ∀ n ∈ names, ParamName' n) : Shut A (varsLine fl names) := by
  unfold varsLine
  split
  · rename_i hl
    obtain ⟨hv, hd, hc⟩ := F.copy hl
    refine Frag.sep (frag_indent ?_) (by decide) (by decide)
    have hvf : Frag A "vars".toList := frag_word (wordy_start (by decide)) (.inr (.inr hv))
    have hcf : Frag A "copy".toList := frag_word (wordy_start (by decide)) (.inr (.inr hc))
    have hpt : Shut A ("vars".toList ++ ['.']) := by
      rintro _ ⟨hst⟩
      rename_i ws
      rw [run_append, run_word (wordy_start (by decide)) (.inl rfl)]
      have e : run ⟨[], [] ++ "vars".toList, ws⟩ ['.'] = ⟨[], [], ws ++ ["vars".toList] ++ [".".toList]⟩ := rfl
      rw [e]
      refine ⟨fun w hw => ?_⟩
      rw [List.append_assoc, List.mem_append, List.mem_append, List.mem_singleton, List.mem_singleton] at hw
      rcases hw with hw | hw | hw
      · exact hst w hw
      · rw [hw]; exact hv
      · rw [hw]; exact hd
    have h1 : Shut A (("vars".toList ++ " = ".toList) ++ ("vars".toList ++ ['.']) ++ ("copy".toList ++ "(); ".toList)) :=
      ((hvf.sep (by decide) (by decide)).append hpt).append (hcf.sep (by decide) (by decide))
    refine h1.frag_append (frag_join (by decide) (by decide) ?_)
    intro l hl'
    obtain ⟨n, hn, rfl⟩ := List.mem_map.1 hl'
    have h2 := (frag_key (.inl rfl) (wordy_param (h n hn)) hv).append (shut_seps (s := " = ".toList) (by decide))
    have h3 := h2.frag_append (frag_param F (h n hn))
    simpa using h3
  · exact shut_seps (by simp)

theorem frag_loopVars {fl : Flags} (F : Fine fl A) {x : List Char} (h : VarName x) : Shut A (loopVars fl x) := by
  unfold loopVars
  split
  · rename_i hl
    refine Frag.sep (frag_indent ?_) (by decide) (by decide)
    have h2 := (frag_key (.inr rfl) (wordy_var h) (F.copy hl).1).append (shut_seps (s := " = ".toList) (by decide))
    have h3 := h2.frag_append (frag_word (wordy_var h) (.inr (.inr (F.var x h))))
    simpa using h3
  · exact shut_seps (by simp)

theorem frag_assign {fl : Flags} (F : Fine fl A) {x e : List Char} (h : VarName x) (he : Frag A e) : Frag A (assignText fl x e) := by
  unfold assignText
  split
  · rename_i hl
    have h2 := (frag_key (.inr rfl) (wordy_var h) (F.copy hl).1).append (shut_seps (s := " = ".toList) (by decide))
    have h3 := h2.frag_append he
    simpa using h3
  · exact ((frag_word (wordy_var h) (.inr (.inr (F.var x h)))).sep (by decide) (by decide)).frag_append he

theorem frag_function {fl : Flags} (F : Fine fl A) {sig : List DefPart} (h : ∀ d ∈ sig, DefOK d) (hne : sig ≠ []) (ht : TypesOK A sig)
    (hm : A (mangle fl (sig.map DefPart.name))) {r : List Param × List (List Char)} (hr : fixDups (params sig) = .ok r) {body : List Char}
    (hb : Frag A body) : Frag A (functionText fl sig r body) := by
  have h0 := renamed_params F h ht hr
  have h1 : Shut A ("@".toList ++ "anydice_casting".toList ++ "()\n".toList) :=
    ((shut_seps (s := "@".toList) (by decide)).frag_append (F.word "anydice_casting" (by decide) (by decide))).sep (by decide) (by decide)
  have h2 : Shut A "\n".toList := shut_seps (by decide)
  exact ((((h1.append (frag_defLine F h hne hm h0.1)).append h2).append (frag_varsLine F h0.2)).frag_append (frag_indent hb) |>.sep
    (by decide) (by decide)).frag

mutual

theorem frag_stmt {fl : Flags} (F : Fine fl A) : ∀ st : Stmt, StmtOK Char.isDigit TameChar st → WrittenS st → (∀ f ∈ st.calls fl, A f) →
    (∀ f ∈ st.defs fl, A f) → (∀ d body, StmtIn (.function d body) (.cons st .nil) → TypesOK A d) → ∀ t, st.emit fl = .ok t → Frag A t
  | .output e, h, _, hc, _, _ => fun t e' => by
    cases e'
    have h1 := frag_expr F e h hc
    exact frag_callText (F.word "output" (by decide) (by decide)) (by simp [h1])
  | .outputNamed e n, h, _, hc, _, _ => fun t e' => by
    cases e'
    have h1 : Shut A ("output".toList ++ "(".toList) := (F.word "output" (by decide) (by decide)).sep (by decide) (by decide)
    have h2 : Shut A ("named".toList ++ "=".toList) := (F.word "named" (by decide) (by decide)).sep (by decide) (by decide)
    have h3 := (h1.frag_append (frag_expr F e h.1 hc)).sep (t := ", ".toList) (by decide) (by decide)
    have h4 := (((h3.append h2).frag_append (frag_str F h.2)).sep (t := ")".toList) (by decide) (by decide)).frag
    simpa using h4
  | .set n v, h, _, hc, _, _ => fun t e' => by
    cases e'
    have h1 := frag_expr F v h.2 hc
    have h2 := frag_str F h.1
    exact frag_callText (F.word "settings_set" (by decide) (by decide)) (by simp [h1, h2])
  | .function sig body, h, hw, hc, hd, ht => fun t e' => by
    rw [Stmt.emit] at e'
    cases hr : fixDups (params sig) with
    | error e => rw [hr] at e'; cases e'
    | ok r =>
      cases hb : body.emit fl with
      | error e => rw [hr, hb] at e'; cases e'
      | ok ls =>
        rw [hr, hb] at e'
        cases e'
        refine frag_function F h.1 hw.1 (ht sig body (.head _ _)) (hd _ (by simp [Stmt.defs])) hr (frag_blockText F ?_)
        exact frag_block F body h.2 hw.2.2 hc (fun f hf => hd f (by simp [Stmt.defs, hf])) (fun d b hi => ht d b (.function hi)) ls hb
  | .result e, h, _, hc, _, _ => fun t e' => by
    cases e'
    exact ((F.word "return" (by decide) (by decide)).sep (t := " ".toList) (by decide) (by decide)).frag_append (frag_expr F e h hc)
  | .cond c body rest, h, hw, hc, hd, ht => fun t e' => by
    rw [Stmt.emit] at e'
    cases hb : body.emit fl with
    | error e => rw [hb] at e'; cases e'
    | ok ls =>
      cases hr : rest.emit fl with
      | error e => rw [hb, hr] at e'; cases e'
      | ok u =>
        rw [hb, hr] at e'
        cases e'
        have h1 : Shut A ("if".toList ++ " ".toList) := (F.word "if" (by decide) (by decide)).sep (by decide) (by decide)
        have h2 := frag_expr F c h.1 fun f hf => hc f (by simp [Stmt.calls, hf])
        have h3 := frag_block F body h.2.1 hw.2.1 (fun f hf => hc f (by simp [Stmt.calls, hf])) (fun f hf => hd f (by simp [Stmt.defs, hf]))
          (fun d b hi => ht d b (.cond hi)) ls hb
        have h4 := frag_else F rest h.2.2 hw.2.2 (fun f hf => hc f (by simp [Stmt.calls, hf])) (fun f hf => hd f (by simp [Stmt.defs, hf]))
          (fun d b hi => ht d b (.condRest hi)) u hr
        have h5 := ((h1.frag_append h2).sep (t := ":\n".toList) (by decide) (by decide)).frag_append (frag_indent (frag_blockText F h3))
        exact ((h4 _ h5).sep (by decide) (by decide)).frag
  | .loop x o body, h, hw, hc, hd, ht => fun t e' => by
    rw [Stmt.emit] at e'
    cases hb : body.emit fl with
    | error e => rw [hb] at e'; cases e'
    | ok ls =>
      rw [hb] at e'
      cases e'
      have h1 : Shut A ("for".toList ++ " ".toList) := (F.word "for" (by decide) (by decide)).sep (by decide) (by decide)
      have h2 : Shut A ("in".toList ++ " ".toList) := (F.word "in" (by decide) (by decide)).sep (by decide) (by decide)
      have hx : Frag A x := frag_word (wordy_var h.1) (.inr (.inr (F.var x h.1)))
      have ho := frag_expr F o h.2.1 fun f hf => hc f (by simp [Stmt.calls, hf])
      have h3 := frag_block F body h.2.2 hw.2 (fun f hf => hc f (by simp [Stmt.calls, hf])) (fun f hf => hd f (by simp [Stmt.defs, hf]))
        (fun d b hi => ht d b (.loop hi)) ls hb
      have h4 := ((h1.frag_append hx).sep (t := " ".toList) (by decide) (by decide)).append h2
      have h5 := ((h4.frag_append ho).sep (t := ":\n".toList) (by decide) (by decide)).append (frag_loopVars F h.1)
      have h6 := ((h5.frag_append (frag_indent (frag_blockText F h3))).sep (t := "\n".toList) (by decide) (by decide)).frag
      simpa using h6
  | .assign x e, h, _, hc, _, _ => fun t e' => by
    cases e'
    exact frag_assign F h.1 (frag_expr F e h.2 hc)

theorem frag_block {fl : Flags} (F : Fine fl A) : ∀ b : Block, BlockOK Char.isDigit TameChar b → WrittenB b → (∀ f ∈ b.calls fl, A f) →
    (∀ f ∈ b.defs fl, A f) → (∀ d body, StmtIn (.function d body) b → TypesOK A d) → ∀ ls, b.emit fl = .ok ls → ∀ l ∈ ls, Frag A l
  | .nil, _, _, _, _, _ => fun ls e => by
    cases e
    intro l hl
    cases hl
  | .cons st b, h, hw, hc, hd, ht => fun ls e => by
    rw [Block.emit] at e
    cases hs : st.emit fl with
    | error e' => rw [hs] at e; cases e
    | ok t =>
      cases hb : b.emit fl with
      | error e' => rw [hs, hb] at e; cases e
      | ok ts =>
        rw [hs, hb] at e
        cases e
        intro l hl
        rcases List.mem_cons.1 hl with rfl | hl
        · refine frag_stmt F st h.1 hw.1 (fun f hf => hc f (by simp [Block.calls, hf])) (fun f hf => hd f (by simp [Block.defs, hf])) ?_ _ hs
          intro d body hi
          refine ht d body ?_
          cases hi with
          | head => exact .head _ _
          | tail hi => cases hi
          | function hi => exact .function hi
          | loop hi => exact .loop hi
          | cond hi => exact .cond hi
          | condRest hi => exact .condRest hi
        · exact frag_block F b h.2 hw.2 (fun f hf => hc f (by simp [Block.calls, hf])) (fun f hf => hd f (by simp [Block.defs, hf]))
            (fun d body hi => ht d body (.tail hi)) ts hb l hl

theorem frag_else {fl : Flags} (F : Fine fl A) : ∀ r : Else, ElseOK Char.isDigit TameChar r → WrittenR r → (∀ f ∈ r.calls fl, A f) →
    (∀ f ∈ r.defs fl, A f) → (∀ d body, StmtInElse (.function d body) r → TypesOK A d) → ∀ t, r.emit fl = .ok t →
      ∀ s, Frag A s → Frag A (s ++ t)
  | .done, _, _, _, _, _ => fun t e s hs => by
    cases e
    simpa using hs
  | .else_ body, h, hw, hc, hd, ht => fun t e s hs => by
    rw [Else.emit] at e
    cases hb : body.emit fl with
    | error e' => rw [hb] at e; cases e
    | ok ls =>
      rw [hb] at e
      cases e
      have h1 : Shut A ("else".toList ++ ":\n".toList) := (F.word "else" (by decide) (by decide)).sep (by decide) (by decide)
      have h2 := frag_block F body h hw hc hd (fun d b hi => ht d b (.else_ hi)) ls hb
      have h3 := ((hs.sep (t := "\n".toList) (by decide) (by decide)).append h1).frag_append (frag_indent (frag_blockText F h2))
      simpa using h3
  | .elif c body rest, h, hw, hc, hd, ht => fun t e s hs => by
    rw [Else.emit] at e
    cases hb : body.emit fl with
    | error e' => rw [hb] at e; cases e
    | ok ls =>
      cases hr : rest.emit fl with
      | error e' => rw [hb, hr] at e; cases e
      | ok u =>
        rw [hb, hr] at e
        cases e
        have h1 : Shut A ("elif".toList ++ " ".toList) := (F.word "elif" (by decide) (by decide)).sep (by decide) (by decide)
        have h2 := frag_expr F c h.1 fun f hf => hc f (by simp [Else.calls, hf])
        have h3 := frag_block F body h.2.1 hw.2.1 (fun f hf => hc f (by simp [Else.calls, hf])) (fun f hf => hd f (by simp [Else.defs, hf]))
          (fun d b hi => ht d b (.elif hi)) ls hb
        have h4 := frag_else F rest h.2.2 hw.2.2 (fun f hf => hc f (by simp [Else.calls, hf])) (fun f hf => hd f (by simp [Else.defs, hf]))
          (fun d b hi => ht d b (.rest hi)) u hr
        have h5 := (((hs.sep (t := "\n".toList) (by decide) (by decide)).append h1).frag_append h2).sep (t := ":\n".toList) (by decide) (by decide)
        have h6 := h4 _ (h5.frag_append (frag_indent (frag_blockText F h3)))
        simpa using h6

end

theorem words_of_calm {st : State} (h : Calm A st) : Oks A (ended st.word st.words) := by
  cases h with
  | code hw h => exact oks_ended hw h
  | closed _ h => exact oks_ended (.inl rfl) h

/-- The words of the generated text. -/
theorem words_program {fl : Flags} (F : Fine fl A) {ls : List (List Char)} (h : ∀ l ∈ ls, Frag A l) :
    ∀ w ∈ wordsOf (cleanUp ((if fl.nonLocal then "vars = {}\n\n".toList else []) ++ blockText ls ++ "\n".toList)), A w := by
  unfold wordsOf
  dsimp only
  rw [run_cleanUp]
  refine words_of_calm ?_
  have h1 : Shut A (if fl.nonLocal then "vars = {}\n\n".toList else []) := by
    split
    · rename_i hl
      have hvf : Frag A "vars".toList := frag_word (wordy_start (by decide)) (.inr (.inr (F.copy hl).1))
      exact hvf.sep (t := " = {}\n\n".toList) (by decide) (by decide)
    · exact shut_seps (by simp)
  exact ((h1.frag_append (frag_blockText F h)).sep (by decide) (by decide)).frag _ ⟨fun w hw => by cases hw⟩

end

end PythonDice.Foreign
