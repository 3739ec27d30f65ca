import Verif.Proofs.Fuel
import Verif.Proofs.Parts
import Verif.Props.Blocks
import Verif.Props.Expressions
import Verif.Spec.PyMeaning

/-!
# Reading the generated lines as statements (C62)
-/

namespace PythonDice

open Spec Compiler
open Spec.Py (Tok lex parse readToks readExpr readKw readItem readPlain readSimple readCopy readCopies readParam readParams readDef readFor
  readHead readNode readBlock readProgram ReadsProgram after before isName noElse decorate nameChar nameStart opHead Forest)

/-- From some bound on, nothing is read. -/
def EvNone {α : Type} (f : ℕ → Option α) : Prop := ∃ N, ∀ n, N ≤ n → f n = none

/-- The text of an expression is read as it is meant. -/
structure Readable (fl : Flags) (e : Compiler.Expr) : Prop where
  lex : LexOK (e.emit fl) (toks fl e)
  good : Good 0 (toks fl e) (mean fl.style e)

theorem readable (fl : Flags) (e : Compiler.Expr) (hg : Grammatical e) (hok : ExprOK Char.isDigit PlainChar e)
    (hc : allSub (clean fl) e = true) : Readable fl e := by
  refine ⟨lexOK_expr fl e hok ⟨fun n hn => of_decide_eq_true (allSub_sound hc hn), fun cs hn => of_decide_eq_true (allSub_sound hc hn)⟩,
    (good_expr fl e hg ?_).le (pyLevel_le fl e) (Nat.zero_le _)⟩
  intro op l r hs
  have := of_decide_eq_true (allSub_sound hc hs)
  exact ⟨this.1, this.2.1, fun h => ⟨(this.2.2 h).1, fun u hu => by rw [(this.2.2 h).2] at hu; cases hu⟩⟩

theorem LexOK.all {s : List Char} {ts : List Tok} (h : LexOK s ts) : Lexes s ts := by
  have := h [] [] boundary_nil lexes_nil
  simpa using this

theorem Good.reads {ts : List Tok} {e : Py.Expr} (h : Good 0 ts e) : Ev (fun n => readToks n ts) e := by
  obtain ⟨N, hN⟩ := h.parses [] (stops_nil 0)
  refine ⟨N, fun n hn => ?_⟩
  have := hN n hn
  rw [List.append_nil] at this
  simp [readToks, this]

theorem Readable.expr {fl : Flags} {e : Compiler.Expr} (h : Readable fl e) : Ev (fun n => readExpr n (e.emit fl)) (mean fl.style e) := by
  obtain ⟨N, hN⟩ := h.lex.all
  obtain ⟨M, hM⟩ := h.good.reads
  refine ⟨max N M, fun n hn => ?_⟩
  simp only [readExpr, hN n (le_trans (le_max_left _ _) hn), Option.bind_some]
  exact hM n (le_trans (le_max_right _ _) hn)

/-! ## No `=` in expressions -/

theorem eq_notin_commas {tss : List (List Tok)} (h : ∀ ts ∈ tss, Tok.op ['='] ∉ ts) : Tok.op ['='] ∉ commas tss := by
  match tss with
  | [] => simp [commas]
  | [ts] => simpa [commas] using h
  | ts :: us :: tss =>
    have := eq_notin_commas (tss := us :: tss) fun t ht => h t (List.mem_cons_of_mem _ ht)
    simp only [commas, List.mem_append, List.mem_cons, not_or]
    exact ⟨h ts (List.mem_cons_self ..), by decide, this⟩

theorem eq_notin_call {f : List Char} {tss : List (List Tok)} (h : ∀ ts ∈ tss, Tok.op ['='] ∉ ts) : Tok.op ['='] ∉ callToks f tss := by
  have := eq_notin_commas h
  simp [callToks, this]

theorem eq_notin_var (fl : Flags) (x : List Char) : Tok.op ['='] ∉ varToks fl x := by
  unfold varToks
  split <;> simp

theorem eq_notin_bin (fl : Flags) (op : BinOp) {l r : List Tok} (hl : Tok.op ['='] ∉ l) (hr : Tok.op ['='] ∉ r) :
    Tok.op ['='] ∉ binToks fl op l r := by
  have : ∀ op : BinOp, op.py ≠ ['='] := by intro op; cases op <;> decide
  have hop := (this op).symm
  unfold binToks
  split
  · split
    · refine eq_notin_call ?_
      intro ts ht
      simp only [List.mem_cons, List.not_mem_nil, or_false] at ht
      rcases ht with rfl | rfl <;> assumption
    · split <;> simp [hl, hr, hop]
  · simp [hl, hr, hop]

theorem eq_notin_unary (fl : Flags) (op : UnOp) {l : List Tok} (hl : Tok.op ['='] ∉ l) : Tok.op ['='] ∉ unaryToks fl op l := by
  unfold unaryToks
  cases op with
  | not_ =>
    simp only
    split
    · refine eq_notin_call ?_
      intro ts ht
      simp only [List.mem_cons, List.not_mem_nil, or_false] at ht
      rw [ht]; exact hl
    · simp [hl]
  | plus => simp [hl]
  | minus => simp [hl]

mutual

theorem eq_notin_toks (fl : Flags) : ∀ e : Compiler.Expr, Tok.op ['='] ∉ toks fl e
  | .num n => by simp [toks]
  | .dec a b => by simp [toks]
  | .var x => by simpa [toks] using eq_notin_var fl x
  | .str ps => by simp [toks]
  | .group e => by simp [toks, eq_notin_toks fl e]
  | .bin op l r => by simpa [toks] using eq_notin_bin fl op (eq_notin_toks fl l) (eq_notin_toks fl r)
  | .ndm l r => by
    rw [toks]
    refine eq_notin_call ?_
    intro ts ht
    simp only [List.mem_cons, List.not_mem_nil, or_false] at ht
    rcases ht with rfl | rfl <;> exact eq_notin_toks fl _
  | .dm r => by
    rw [toks]
    refine eq_notin_call ?_
    intro ts ht
    simp only [List.mem_cons, List.not_mem_nil, or_false] at ht
    rw [ht]; exact eq_notin_toks fl _
  | .unary op e => by simpa [toks] using eq_notin_unary fl op (eq_notin_toks fl e)
  | .hash e => by
    rw [toks]
    refine eq_notin_call ?_
    intro ts ht
    simp only [List.mem_cons, List.not_mem_nil, or_false] at ht
    rw [ht]; exact eq_notin_toks fl _
  | .seq es => by
    have := eq_notin_commas (eq_notin_elems fl es)
    rw [toks]
    simp [this]
  | .call cs => by
    rw [toks]
    refine eq_notin_call ?_
    intro ts ht
    split at ht
    · rcases List.mem_append.1 ht with ht | ht
      · exact eq_notin_args fl cs ts ht
      · simp only [List.mem_cons, List.not_mem_nil, or_false] at ht
        rw [ht]; simp
    · rw [List.append_nil] at ht; exact eq_notin_args fl cs ts ht

theorem eq_notin_elems (fl : Flags) : ∀ (es : Elems), ∀ ts ∈ elemToks fl es, Tok.op ['='] ∉ ts
  | .nil => by simp [elemToks]
  | .expr e es => by
    intro ts ht
    rw [elemToks] at ht
    rcases List.mem_cons.1 ht with rfl | ht
    · exact eq_notin_toks fl e
    · exact eq_notin_elems fl es ts ht
  | .range l r es => by
    intro ts ht
    rw [elemToks] at ht
    rcases List.mem_cons.1 ht with rfl | ht
    · refine eq_notin_call ?_
      intro ts ht
      simp only [List.mem_cons, List.not_mem_nil, or_false] at ht
      rcases ht with rfl | rfl <;> exact eq_notin_toks fl _
    · exact eq_notin_elems fl es ts ht

theorem eq_notin_args (fl : Flags) : ∀ (cs : CallParts), ∀ ts ∈ argToks fl cs, Tok.op ['='] ∉ ts
  | .nil => by simp [argToks]
  | .word _ cs => by
    intro ts ht
    rw [argToks] at ht
    exact eq_notin_args fl cs ts ht
  | .arg e cs => by
    intro ts ht
    rw [argToks] at ht
    rcases List.mem_cons.1 ht with rfl | ht
    · exact eq_notin_toks fl e
    · exact eq_notin_args fl cs ts ht

end

/-! ## Pieces of lines -/

theorem after_append (p s : List Char) : after p (p ++ s) = some s := by simp [after]

theorem before_append (s p : List Char) : before (s ++ p) p = some s := by simp [before]

theorem takeWhile_name {w rest : List Char} (hw : NameOK w) (hr : ∀ c, rest.head? = some c → nameChar c = false) :
    (w ++ rest).takeWhile nameChar = w ∧ (w ++ rest).dropWhile nameChar = rest := takeWhile_all hw.2.2.1 hr

theorem isName_of {w : List Char} (hw : NameOK w) : isName w = true := by
  obtain ⟨h1, h2, h3, h4⟩ := hw
  cases w with
  | nil => exact absurd rfl h1
  | cons c cs =>
    simp only [isName, Bool.and_eq_true, decide_eq_true_eq, List.all_eq_true]
    exact ⟨⟨h4, h2 c rfl⟩, h3⟩

/-- A line that begins with a name does not begin with a keyword. -/
theorem kw_ne {w rest k t : List Char} (hw : NameOK w) (hr : ∀ c, rest.head? = some c → nameChar c = false) (hk : k ∈ Py.keywords)
    (ht : ∀ c, t.head? = some c → nameChar c = false) : w ++ rest ≠ k ++ t := by
  intro h
  have h1 := (takeWhile_name hw hr).1
  have h2 : ∀ k ∈ Py.keywords, ∀ c ∈ k, nameChar c = true := by decide
  rw [h, (takeWhile_all (h2 k hk) ht).1] at h1
  exact hw.2.2.2 (h1 ▸ hk)

theorem after_kw {w rest k : List Char} (hw : NameOK w) (hr : ∀ c, rest.head? = some c → nameChar c = false) (hk : k ∈ Py.keywords) :
    after (k ++ [' ']) (w ++ rest) = none := by
  unfold after
  rw [if_neg]
  intro h
  obtain ⟨t, ht⟩ := List.isPrefixOf_iff_prefix.1 h
  refine kw_ne hw hr hk (t := ' ' :: t) ?_ (by rw [← ht]; simp)
  intro c hc
  cases hc
  decide

theorem readNode_simple (n : ℕ) {infun : Bool} {w rest : List Char} (hw : NameOK w) (hr : ∀ c, rest.head? = some c → nameChar c = false)
    (k k' : Option (Py.Else × Py.Block)) (r : Py.Block) :
    readNode n infun (w ++ rest) k k' true (.done, r) = (readSimple n (w ++ rest)).map fun ss => (.done, Py.Block.prepend ss r) := by
  have h1 : w ++ rest ≠ "else:".toList := kw_ne hw hr (k := "else".toList) (t := ":".toList) (by decide) (by decide)
  have h2 := after_kw hw hr (k := "elif".toList) (by decide)
  have h3 := after_kw hw hr (k := "if".toList) (by decide)
  have h4 := after_kw hw hr (k := "for".toList) (by decide)
  have h5 := after_kw hw hr (k := "def".toList) (by decide)
  have h6 := after_kw hw hr (k := "return".toList) (by decide)
  have h7 : w ++ rest ≠ "@anydice_casting()".toList := by
    intro h
    obtain ⟨g1, g2, _⟩ := hw
    cases w with
    | nil => exact absurd rfl g1
    | cons c cs =>
      have : c = '@' := by
        have := congrArg List.head? h
        simpa using this
      exact absurd (g2 c rfl) (by rw [this]; decide)
  have g2 : readHead n "elif ".toList (w ++ rest) = none := by
    unfold readHead
    rw [show "elif ".toList = "elif".toList ++ [' '] from rfl, h2]; rfl
  have g3 : readHead n "if ".toList (w ++ rest) = none := by
    unfold readHead
    rw [show "if ".toList = "if".toList ++ [' '] from rfl, h3]; rfl
  have g4 : readFor n (w ++ rest) = none := by
    unfold readFor
    rw [show "for ".toList = "for".toList ++ [' '] from rfl, h4]; rfl
  have g5 : readDef (w ++ rest) = none := by
    unfold readDef
    rw [show "def ".toList = "def".toList ++ [' '] from rfl, h5]; rfl
  unfold readNode
  rw [if_neg h1, g2, g3, g4, g5]
  simp only [noElse, Option.bind_some]
  rw [if_neg (by decide), if_neg h7, if_neg]
  rw [show "return ".toList = "return".toList ++ [' '] from rfl, h6]
  simp

theorem readSimple_plain (n : ℕ) {w rest : List Char} (hw : NameOK w) (hr : ∀ c, rest.head? = some c → nameChar c = false)
    (h1 : rest ≠ " = {}".toList) (h2 : ¬ (" = ".toList ++ w ++ ".copy();".toList) <+: rest) :
    readSimple n (w ++ rest) = (lex n (w ++ rest)).bind fun ts => (readPlain n ts).map ([·]) := by
  have g1 : w ++ rest ≠ "pass".toList := by
    have := kw_ne hw hr (k := "pass".toList) (t := []) (by decide) (by decide)
    simpa using this
  have g6 := after_kw hw hr (k := "return".toList) (by decide)
  obtain ⟨t1, t2⟩ := takeWhile_name hw hr
  unfold readSimple
  rw [if_neg g1, show "return ".toList = "return".toList ++ [' '] from rfl, g6]
  simp only
  rw [t1, t2, if_neg (fun h => h1 h.2), if_neg]
  exact fun h => h2 (List.isPrefixOf_iff_prefix.1 h.2)

/-! ## Plain statements -/

theorem ev_plain {w rest : List Char} {ts : List Tok} {s : Py.Stmt} (hw : NameOK w) (hr : ∀ c, rest.head? = some c → nameChar c = false)
    (h1 : rest ≠ " = {}".toList) (h2 : ¬ (" = ".toList ++ w ++ ".copy();".toList) <+: rest) (hl : Lexes (w ++ rest) ts)
    (hp : Ev (fun n => readPlain n ts) s) : Ev (fun n => readSimple n (w ++ rest)) [s] := by
  obtain ⟨N, hN⟩ := hl
  obtain ⟨M, hM⟩ := hp
  refine ⟨max N M, fun n hn => ?_⟩
  simp only
  rw [readSimple_plain n hw hr h1 h2, hN n (le_trans (le_max_left _ _) hn), Option.bind_some]
  have := hM n (le_trans (le_max_right _ _) hn)
  simp only at this
  rw [this]
  rfl

theorem ev_leaf {infun : Bool} {w rest : List Char} {s : Py.Stmt} {f : Forest} {r : Py.Block} (hw : NameOK w)
    (hr : ∀ c, rest.head? = some c → nameChar c = false) (hs : Ev (fun n => readSimple n (w ++ rest)) [s])
    (hf : Ev (fun n => readBlock n infun f) (.done, r)) : Ev (fun n => readBlock n infun (leaf (w ++ rest) f)) (.done, .cons s r) := by
  obtain ⟨N, hN⟩ := hs
  obtain ⟨M, hM⟩ := hf
  refine ⟨max N M, fun n hn => ?_⟩
  have g1 := hN n (le_trans (le_max_left _ _) hn)
  have g2 := hM n (le_trans (le_max_right _ _) hn)
  simp only at g1 g2 ⊢
  rw [leaf, readBlock, g2, Option.bind_some, Py.Forest.isEmpty, readNode_simple n hw hr, g1]
  rfl

/-- A call that has no keyword argument. -/
theorem plain_call {f : List Char} {us : List Tok} {e : Py.Expr} (h : Ev (fun n => readToks n (.name f :: .op ['('] :: us)) e)
    (hk : EvNone fun n => readKw n f us) : Ev (fun n => readPlain n (.name f :: .op ['('] :: us)) (.expr e) := by
  obtain ⟨N, hN⟩ := h
  obtain ⟨M, hM⟩ := hk
  refine ⟨max N M, fun n hn => ?_⟩
  have g1 := hN n (le_trans (le_max_left _ _) hn)
  have g2 := hM n (le_trans (le_max_right _ _) hn)
  simp only at g1 g2 ⊢
  rw [readPlain, if_neg (by decide), if_pos (by decide), g2]
  simp only
  rw [g1]
  rfl

/-- After the first argument there is no keyword argument. -/
theorem kw_none {f : List Char} {ts rest : List Tok} {e : Py.Expr} (h : Good 0 ts e) (hs : Stops 0 rest) (hr : Tok.op ['='] ∉ rest) :
    EvNone fun n => readKw n f (ts ++ rest) := by
  obtain ⟨N, hN⟩ := h.parses rest hs
  refine ⟨N, fun n hn => ?_⟩
  have := hN n hn
  simp only at this ⊢
  rw [readKw, this, Option.bind_some]
  simp only
  split
  · rw [if_neg]
    rintro ⟨_, rfl⟩
    exact hr (by simp)
  · rfl

theorem plain_kw {f k : List Char} {ts us : List Tok} {e v : Py.Expr} (h : Good 0 ts e) (hv : Good 0 us v) :
    Ev (fun n => readPlain n (.name f :: .op ['('] :: (ts ++ .op [','] :: .name k :: .op ['='] :: (us ++ [.op [')']])))) (.exprKw f e k v) := by
  obtain ⟨N, hN⟩ := h.parses (.op [','] :: .name k :: .op ['='] :: (us ++ [.op [')']])) (stops_close (by decide) _ _)
  obtain ⟨M, hM⟩ := hv.parses [.op [')']] (stops_close (by decide) _ _)
  refine ⟨max N M, fun n hn => ?_⟩
  have g1 := hN n (le_trans (le_max_left _ _) hn)
  have g2 := hM n (le_trans (le_max_right _ _) hn)
  simp only at g1 g2 ⊢
  rw [readPlain, if_neg (by decide), if_pos (by decide), readKw, g1]
  simp only [Option.bind_some]
  rw [if_pos (by decide), g2]
  simp only [Option.bind_some]
  rw [if_pos (by decide)]

theorem plain_assign {x : List Char} {us : List Tok} {e : Py.Expr} (h : Good 0 us e) :
    Ev (fun n => readPlain n (.name x :: .op ['='] :: us)) (.assign x e) := by
  obtain ⟨N, hN⟩ := h.reads
  refine ⟨N, fun n hn => ?_⟩
  have := hN n hn
  simp only at this ⊢
  rw [readPlain, if_pos (by decide), this]
  rfl

theorem plain_item {d x : List Char} {us : List Tok} {e : Py.Expr} (h : Good 0 us e) :
    Ev (fun n => readPlain n (.name d :: .op ['['] :: .str x :: .op [']'] :: .op ['='] :: us)) (.setItem d x e) := by
  obtain ⟨N, hN⟩ := h.reads
  refine ⟨N, fun n hn => ?_⟩
  have := hN n hn
  simp only at this ⊢
  rw [readPlain, if_neg (by decide), if_neg (by decide), if_pos (by decide), readItem, if_pos (by decide), this]
  rfl

/-! ## The lines of statements -/

theorem lexes_nameBefore {w s : List Char} {ts : List Tok} (hw : NameOK w) (hb : ∀ c, s.head? = some c → nameChar c = false ∧ c ≠ '"')
    (h : Lexes s ts) : Lexes (w ++ s) (.name w :: ts) := by
  obtain ⟨hne, hstart, hchars, hk⟩ := hw
  cases w with
  | nil => exact absurd rfl hne
  | cons c cs =>
    refine lexes_step h fun n hn _ => ?_
    have hc : nameStart c = true := hstart c rfl
    have htw := takeWhile_all (p := nameChar) (v := cs) (t := s) (fun x hx => hchars x (List.mem_cons_of_mem _ hx)) fun c hc => (hb c hc).1
    have hq : ¬ (c = 'f' ∧ (cs ++ s).head? = some '"') := by
      rintro ⟨_, h'⟩
      cases cs with
      | nil => exact (hb _ h').2 rfl
      | cons d cs =>
        simp only [List.cons_append, List.head?_cons, Option.some.injEq] at h'
        subst h'
        exact absurd (hchars '"' (by simp)) (by decide)
    rw [List.cons_append, Py.lex, if_neg (by rintro rfl; exact absurd hc (by decide)), if_pos hc, if_neg hq, htw.1, htw.2, if_neg hk, hn]
    rfl

theorem nameOK_word {w : List Char} (h : isName w = true) : NameOK w := by
  simp only [isName, Bool.and_eq_true, decide_eq_true_eq, List.all_eq_true] at h
  obtain ⟨⟨h1, h2⟩, h3⟩ := h
  cases w with
  | nil => cases h2
  | cons c cs => exact ⟨by simp, fun d hd => by cases hd; exact h2, h3, h1⟩

theorem head_paren (s : List Char) : ∀ c, ('(' :: s).head? = some c → nameChar c = false := fun c hc => by cases hc; decide
theorem head_bracket (s : List Char) : ∀ c, ('[' :: s).head? = some c → nameChar c = false := fun c hc => by cases hc; decide
theorem head_space (s : List Char) : ∀ c, (' ' :: s).head? = some c → nameChar c = false := fun c hc => by cases hc; decide

theorem not_copy {c : Char} (hc : c ≠ ' ') (s w : List Char) : ¬ (" = ".toList ++ w ++ ".copy();".toList) <+: c :: s := by
  rintro ⟨t, ht⟩
  exact hc (by simpa using (congrArg List.head? ht).symm)

variable {fl : Flags}

theorem line_output {e : Compiler.Expr} (h : Readable fl e) :
    Ev (fun n => readSimple n ("output".toList ++ ("(".toList ++ e.emit fl ++ ")".toList))) [.expr (callOf "output" [mean fl.style e])] := by
  have hw : NameOK "output".toList := nameOK_word (by decide)
  refine ev_plain hw (head_paren _) (by simp) (not_copy (by decide) _ _) (ts := callToks "output".toList [toks fl e]) ?_ ?_
  · have := (lexOK_call hw (.cons h.lex .nil)).all
    simpa [callText, join] using this
  · refine plain_call ?_ ?_
    · exact ((good_call "output".toList (.cons h.good .nil)).le (by decide) (by decide)).reads
    · exact kw_none h.good (stops_close (by decide) _ _) (by simp)

theorem line_outputNamed {e : Compiler.Expr} (h : Readable fl e) {ps : List StrPart} (hp : PartsOK PlainChar ps) :
    Ev (fun n => readSimple n ("output".toList ++ ("(".toList ++ e.emit fl ++ ", named=".toList ++ emitStr fl ps ++ ")".toList)))
      [.exprKw "output".toList (mean fl.style e) "named".toList (.fstr (pieces fl.nonLocal ps))] := by
  have hw : NameOK "output".toList := nameOK_word (by decide)
  refine ev_plain hw (head_paren _) (by simp) (not_copy (by decide) _ _) ?_
    (plain_kw h.good ((good_fstr (pieces fl.nonLocal ps)).le (by decide) (by decide)))
  have h1 := lexOK_str fl hp _ _ (boundary_cons (c := ')') (by decide) []) (lexes_bracket (by decide) lexes_nil)
  have h2 := lexes_op1 (c := '=') (s := emitStr fl ps ++ [')']) (by decide) (by decide) (by simp [emitStr, Py.ops2]) h1
  have h3 := lexes_nameBefore (w := "named".toList) (nameOK_word (by decide)) (fun c hc => by cases hc; decide) h2
  have h4 := h.lex _ _ (boundary_cons (c := ',') (by decide) _) (lexes_bracket (by decide) (lexes_space h3))
  have h5 := lexOK_name hw _ _ (boundary_cons (c := '(') (by decide) _) (lexes_bracket (by decide) h4)
  have e1 : "output".toList ++ ("(".toList ++ e.emit fl ++ ", named=".toList ++ emitStr fl ps ++ ")".toList) =
    "output".toList ++ '(' :: (e.emit fl ++ ',' :: ' ' :: ("named".toList ++ '=' :: (emitStr fl ps ++ [')']))) := by simp
  rw [e1]
  simpa using h5

theorem line_set {e : Compiler.Expr} (h : Readable fl e) {ps : List StrPart} (hp : PartsOK PlainChar ps) :
    Ev (fun n => readSimple n ("settings_set".toList ++ ("(".toList ++ emitStr fl ps ++ ", ".toList ++ e.emit fl ++ ")".toList)))
      [.expr (callOf "settings_set" [.fstr (pieces fl.nonLocal ps), mean fl.style e])] := by
  have hw : NameOK "settings_set".toList := nameOK_word (by decide)
  have hg : Good 0 [Tok.fstr (pieces fl.nonLocal ps)] (.fstr (pieces fl.nonLocal ps)) := (good_fstr _).le (by decide) (by decide)
  refine ev_plain hw (head_paren _) (by simp) (not_copy (by decide) _ _)
    (ts := callToks "settings_set".toList [[.fstr (pieces fl.nonLocal ps)], toks fl e]) ?_ ?_
  · have := (lexOK_call hw (.cons (lexOK_str fl hp) (.cons h.lex .nil))).all
    simpa [callText, join] using this
  · refine plain_call ?_ ?_
    · exact ((good_call "settings_set".toList (.cons hg (.cons h.good .nil))).le (by decide) (by decide)).reads
    · have := kw_none (f := "settings_set".toList) hg (stops_close (o := [',']) (by decide) _ (toks fl e ++ [.op [')']]))
        (by simp [eq_notin_toks fl e])
      simpa [commas] using this

theorem not_lexes_braces : ¬ ∃ ts, Lexes "{}".toList ts := by
  rintro ⟨ts, N, hN⟩
  have := hN (N + 1) (Nat.le_succ N)
  rw [show "{}".toList = '{' :: ['}'] from rfl, Py.lex, if_neg (by decide), if_neg (by decide), if_neg (by decide), if_neg (by decide),
    if_neg (by decide), if_neg (by decide)] at this
  cases this

theorem not_lexes_dot {w s : List Char} (hw : NameOK w) : ¬ ∃ ts, Lexes (w ++ '.' :: s) ts := by
  rintro ⟨ts, N, hN⟩
  have := hN (N + 2) (by omega)
  obtain ⟨hne, hstart, hchars, hk⟩ := hw
  cases w with
  | nil => exact absurd rfl hne
  | cons c cs =>
    have hc : nameStart c = true := hstart c rfl
    have htw := takeWhile_all (p := nameChar) (v := cs) (t := '.' :: s) (fun x hx => hchars x (List.mem_cons_of_mem _ hx))
      (fun c hc => by cases hc; decide)
    have hq : ¬ (c = 'f' ∧ (cs ++ '.' :: s).head? = some '"') := by
      rintro ⟨_, h'⟩
      cases cs with
      | nil => cases h'
      | cons d cs =>
        simp only [List.cons_append, List.head?_cons, Option.some.injEq] at h'
        subst h'
        exact absurd (hchars '"' (by simp)) (by decide)
    rw [List.cons_append, Py.lex, if_neg (by rintro rfl; exact absurd hc (by decide)), if_pos hc, if_neg hq, htw.1, htw.2, if_neg hk,
      Py.lex, if_neg (by decide), if_neg (by decide), if_neg (by decide), if_neg (by decide), if_neg, if_neg (by decide)] at this
    · cases this
    · intro h
      have h' : ∀ o ∈ Py.ops2, o.head? ≠ some '.' := by decide
      exact h' _ h rfl

theorem line_assign {x : List Char} (hx : NameOK x) {e : Compiler.Expr} (h : Readable fl e) :
    Ev (fun n => readSimple n (x ++ (" = ".toList ++ e.emit fl))) [.assign x (mean fl.style e)] := by
  refine ev_plain hx (head_space _) ?_ ?_ ?_ (plain_assign h.good)
  · intro he
    have : e.emit fl = "{}".toList := by simpa using he
    exact not_lexes_braces ⟨_, this ▸ h.lex.all⟩
  · rintro ⟨t, ht⟩
    have : e.emit fl = x ++ '.' :: ("copy();".toList ++ t) := by
      have h1 : " = ".toList ++ (x ++ '.' :: ("copy();".toList ++ t)) = " = ".toList ++ e.emit fl := by rw [← ht]; simp
      exact (List.append_cancel_left h1).symm
    exact not_lexes_dot hx ⟨_, this ▸ h.lex.all⟩
  · have h1 := lexes_op1 (c := '=') (s := ' ' :: e.emit fl) (by decide) (by decide) (by simp only [List.take]; decide) (lexes_space h.lex.all)
    have h2 := lexOK_name hx _ _ (boundary_cons (c := ' ') (by decide) _) (lexes_space h1)
    simpa using h2

theorem line_item {x : List Char} (hx : VarName x) {s : List Char} {ts : List Tok} {e : Py.Expr} (hl : LexOK s ts) (hg : Good 0 ts e) :
    Ev (fun n => readSimple n ("vars".toList ++ ("['".toList ++ x ++ "'] = ".toList ++ s))) [.setItem "vars".toList x e] := by
  have hw : NameOK "vars".toList := nameOK_word (by decide)
  refine ev_plain hw (head_bracket _) (by simp) (not_copy (by decide) _ _) ?_ (plain_item hg)
  have h1 := lexes_op1 (c := '=') (s := ' ' :: s) (by decide) (by decide) (by simp only [List.take]; decide) (lexes_space hl.all)
  have h2 := lexOK_name hw _ _ (boundary_cons (c := '[') (by decide) _) (lexes_bracket (by decide)
    (lexes_str (x := x) (fun c hc => upLetter_ne (hx.2 c hc) (by decide)) (lexes_bracket (c := ']') (by decide) (lexes_space h1))))
  simpa using h2

/-! ## The lines of functions -/

/-- The text of a parameter. -/
def paramText (p : List Char × Option (List Char)) : List Char :=
  match p.2 with
  | none => p.1
  | some t => p.1 ++ ": ".toList ++ t

theorem readParam_text {p : List Char × Option (List Char)} (h1 : NameOK p.1) (h2 : ∀ t, p.2 = some t → NameOK t) :
    readParam (paramText p) = some p := by
  obtain ⟨x, o⟩ := p
  cases o with
  | none => simp [paramText, readParam, isName_of h1]
  | some t =>
    have h3 := (takeWhile_name h1 (rest := ": ".toList ++ t) (fun c hc => by cases hc; decide)).1
    have h4 : isName (x ++ (": ".toList ++ t)) = false := by
      rw [Bool.eq_false_iff]
      intro h
      have := (nameOK_word h).2.2.1 ':' (by simp)
      exact absurd this (by decide)
    simp only at h1
    unfold readParam
    rw [show paramText (x, some t) = x ++ (": ".toList ++ t) by simp [paramText], h4, if_neg (by simp), h3, ← List.append_assoc, after_append]
    simp [isName_of h1, isName_of (h2 t rfl)]

theorem nameOK_no {w : List Char} (h : NameOK w) {c : Char} (hc : nameChar c = false) : c ∉ w := fun hm => by
  rw [h.2.2.1 c hm] at hc
  cases hc

theorem paramText_no {p : List Char × Option (List Char)} (h1 : NameOK p.1) (h2 : ∀ t, p.2 = some t → NameOK t) : ',' ∉ paramText p := by
  obtain ⟨x, o⟩ := p
  cases o with
  | none => exact nameOK_no h1 (by decide)
  | some t =>
    have h3 := nameOK_no h1 (c := ',') (by decide)
    have h4 := nameOK_no (h2 t rfl) (c := ',') (by decide)
    simp only at h3
    simp [paramText, h3, h4]

theorem nameOK_trim {w : List Char} (h : NameOK w) (s : List Char) : (w ++ s).dropWhile (· == ' ') = w ++ s := by
  obtain ⟨h1, h2, _⟩ := h
  cases w with
  | nil => exact absurd rfl h1
  | cons c cs =>
    have : (c == ' ') = false := by
      rw [beq_eq_false_iff_ne]
      rintro rfl
      exact absurd (h2 ' ' rfl) (by decide)
    simp [this]

theorem paramText_trim {p : List Char × Option (List Char)} (h1 : NameOK p.1) : (paramText p).dropWhile (· == ' ') = paramText p := by
  obtain ⟨x, o⟩ := p
  cases o with
  | none =>
    have := nameOK_trim h1 []
    rw [List.append_nil] at this
    exact this
  | some t => simpa [paramText] using nameOK_trim h1 (": ".toList ++ t)

theorem join_split (c : Char) (x : List Char) (xs : List (List Char)) :
    join [c, ' '] (x :: xs) = [c].intercalate (x :: xs.map (' ' :: ·)) := by
  induction xs generalizing x with
  | nil => simp [join]
  | cons y ys ih =>
    rw [join, ih y, List.map_cons]
    cases ys <;> simp [List.intercalate]

theorem readParams_map {ps : List (List Char × Option (List Char))} (h : ∀ p ∈ ps, NameOK p.1 ∧ ∀ t, p.2 = some t → NameOK t)
    (ls : List (List Char)) (hl : ls.map (List.dropWhile (· == ' ')) = ps.map paramText) : readParams ls = some ps := by
  induction ps generalizing ls with
  | nil =>
    cases ls with
    | nil => rfl
    | cons l ls => simp at hl
  | cons p ps ih =>
    cases ls with
    | nil => simp at hl
    | cons l ls =>
      simp only [List.map_cons, List.cons.injEq] at hl
      obtain ⟨h1, h2⟩ := h p (List.mem_cons_self ..)
      rw [readParams, hl.1, readParam_text h1 h2, Option.bind_some, ih (fun p hp => h p (List.mem_cons_of_mem _ hp)) ls hl.2]
      rfl

theorem readDef_text {f : List Char} (hf : NameOK f) {ps : List (List Char × Option (List Char))}
    (h : ∀ p ∈ ps, NameOK p.1 ∧ ∀ t, p.2 = some t → NameOK t) (hd : (ps.map Prod.fst).Nodup) :
    readDef ("def ".toList ++ f ++ "(".toList ++ join ", ".toList (ps.map paramText) ++ "):".toList) = some (f, ps) := by
  have e : "def ".toList ++ f ++ "(".toList ++ join ", ".toList (ps.map paramText) ++ "):".toList =
    "def ".toList ++ (f ++ ("(".toList ++ (join ", ".toList (ps.map paramText) ++ "):".toList))) := by simp
  have h1 := (takeWhile_name hf (rest := "(".toList ++ (join ", ".toList (ps.map paramText) ++ "):".toList)) (head_paren _)).1
  unfold readDef
  rw [e, after_append, Option.bind_some, h1, ← List.append_assoc, after_append, Option.bind_some, before_append, Option.bind_some]
  have h2 : (if join ", ".toList (ps.map paramText) = [] then some [] else readParams ((join ", ".toList (ps.map paramText)).splitOn ',')) =
      some ps := by
    cases ps with
    | nil => simp [join]
    | cons p ps =>
      rw [if_neg]
      · rw [List.map_cons, show ", ".toList = [',', ' '] from rfl, join_split, List.splitOn_intercalate]
        · refine readParams_map h _ ?_
          simp only [List.map_cons, List.map_map, List.cons.injEq]
          refine ⟨paramText_trim (h p (List.mem_cons_self ..)).1, List.map_congr_left fun q hq => ?_⟩
          have := paramText_trim (h q (List.mem_cons_of_mem _ hq)).1
          simpa [List.dropWhile] using this
        · intro l hl
          rcases List.mem_cons.1 hl with rfl | hl
          · have := h p (List.mem_cons_self ..)
            exact paramText_no this.1 this.2
          · simp only [List.map_map, List.mem_map] at hl
            obtain ⟨q, hq, rfl⟩ := hl
            have := h q (List.mem_cons_of_mem _ hq)
            have := paramText_no this.1 this.2
            simp [this]
        · simp
      · rw [List.map_cons, show ", ".toList = [',', ' '] from rfl, join_split]
        have h3 : paramText p ≠ [] := by
          have := (h p (List.mem_cons_self ..)).1.1
          unfold paramText
          split <;> simp [this]
        cases ps <;> simp [List.intercalate, h3]
  rw [h2, Option.bind_some, if_pos ⟨isName_of hf, hd⟩]

theorem readCopy_text {x : List Char} (hx : NameOK x) : readCopy "vars".toList ("vars[\"".toList ++ x ++ "\"] = ".toList ++ x) =
    some (.setItem "vars".toList x (.name x)) := by
  have e : "vars[\"".toList ++ x ++ "\"] = ".toList ++ x = ("vars".toList ++ "[\"".toList) ++ (x ++ ("\"] = ".toList ++ x)) := by simp
  have h1 := (takeWhile_all (p := (· != '"')) (v := x) (t := "\"] = ".toList ++ x) (fun c hc => by
    have := nameOK_no hx (c := '"') (by decide)
    simp only [bne_iff_ne]
    rintro rfl
    exact this hc) (fun c hc => by cases hc; decide)).1
  unfold readCopy
  rw [e, after_append, Option.bind_some, h1, ← List.append_assoc, after_append, Option.bind_some, if_pos (isName_of hx)]

theorem readCopies_map {xs : List (List Char)} (h : ∀ x ∈ xs, NameOK x) (ls : List (List Char))
    (hl : ls.map (List.dropWhile (· == ' ')) = xs.map fun x => "vars[\"".toList ++ x ++ "\"] = ".toList ++ x) :
    readCopies "vars".toList ls = some (pyCopies xs) := by
  induction xs generalizing ls with
  | nil =>
    cases ls with
    | nil => rfl
    | cons l ls => simp at hl
  | cons p ps ih =>
    cases ls with
    | nil => simp at hl
    | cons l ls =>
      simp only [List.map_cons, List.cons.injEq] at hl
      have h1 := h p (List.mem_cons_self ..)
      rw [readCopies, hl.1, if_neg (by simp), readCopy_text h1, Option.bind_some, ih (fun p hp => h p (List.mem_cons_of_mem _ hp)) ls hl.2]
      rfl

theorem line_copies {xs : List (List Char)} (h : ∀ x ∈ xs, NameOK x) (n : ℕ) :
    readSimple n ("vars".toList ++ (" = vars.copy(); ".toList ++ join "; ".toList (xs.map fun x => "vars[\"".toList ++ x ++ "\"] = ".toList ++ x))) =
      some (.copyDict "vars".toList :: pyCopies xs) := by
  generalize hj : join "; ".toList (xs.map fun x => "vars[\"".toList ++ x ++ "\"] = ".toList ++ x) = j
  have hw : NameOK "vars".toList := nameOK_word (by decide)
  have hr : ∀ c, (" = vars.copy(); ".toList ++ j).head? = some c → nameChar c = false := head_space _
  obtain ⟨t1, t2⟩ := takeWhile_name hw hr
  have g1 : "vars".toList ++ (" = vars.copy(); ".toList ++ j) ≠ "pass".toList := by simp
  have g6 := after_kw hw hr (k := "return".toList) (by decide)
  have g7 : " = vars.copy(); ".toList ++ j ≠ " = {}".toList := by simp
  have e : " = vars.copy(); ".toList ++ j = (" = ".toList ++ "vars".toList ++ ".copy();".toList) ++ (' ' :: j) := by simp
  unfold readSimple
  rw [if_neg g1, show "return ".toList = "return".toList ++ [' '] from rfl, g6]
  simp only
  rw [t1, t2, if_neg (fun h => g7 h.2), if_pos ⟨isName_of hw, by rw [e]; simp⟩, e, List.drop_left]
  have hs : readCopies "vars".toList ((' ' :: j).splitOn ';') = some (pyCopies xs) := by
    cases xs with
    | nil =>
      rw [← hj]
      rfl
    | cons x xs =>
      have h1 : (' ' :: j) = [';'].intercalate (((x :: xs).map fun x => "vars[\"".toList ++ x ++ "\"] = ".toList ++ x).map (' ' :: ·)) := by
        rw [← hj, List.map_cons, show "; ".toList = [';', ' '] from rfl, join_split, List.map_cons]
        cases xs <;> simp [List.intercalate]
      rw [h1, List.splitOn_intercalate]
      · refine readCopies_map h _ ?_
        simp only [List.map_map]
        refine List.map_congr_left fun y hy => ?_
        simp [List.dropWhile]
      · intro l hl
        simp only [List.map_map, List.mem_map] at hl
        obtain ⟨y, hy, rfl⟩ := hl
        have := nameOK_no (h y hy) (c := ';') (by decide)
        simp [this]
      · simp
  rw [hs]
  rfl

/-! ## Statements and blocks -/

/-- The parameters of a definition can be read. -/
def ParamsRead (d : List DefPart) : Prop :=
  (∀ p ∈ d, DefOK p) ∧ RepeatsTyped (params d) ∧ ∀ x t, DefPart.typed x t ∈ d → NameOK (annotate t)

mutual

/-- Everything in a statement can be read. -/
def ReadS (fl : Flags) : Stmt → Prop
  | .output e => Readable fl e
  | .outputNamed e n => Readable fl e ∧ PartsOK PlainChar n
  | .set n v => Readable fl v ∧ PartsOK PlainChar n
  | .function d body => NameOK (pyName fl.libConflict (defSig d)) ∧ ParamsRead d ∧ ReadB fl body
  | .result e => Readable fl e
  | .cond c b r => Readable fl c ∧ ReadB fl b ∧ ReadE fl r
  | .loop x e b => VarName x ∧ Readable fl e ∧ ReadB fl b
  | .assign x e => VarName x ∧ Readable fl e

/-- The same of a block. -/
def ReadB (fl : Flags) : Block → Prop
  | .nil => True
  | .cons s b => ReadS fl s ∧ ReadB fl b

/-- The same of alternatives. -/
def ReadE (fl : Flags) : Else → Prop
  | .done => True
  | .else_ b => ReadB fl b
  | .elif c b r => Readable fl c ∧ ReadB fl b ∧ ReadE fl r

end

theorem pyName_def (fl : Flags) (d : List DefPart) : pyName fl.libConflict (defSig d) = mangle fl (d.map DefPart.name) := by
  have h : (defSig d).map (fun w => w.getD ['X']) = d.map DefPart.name := by
    rw [def_names]; rfl
  unfold pyName mangle
  rw [h, join_eq_intercalate]
  cases fl.libConflict <;> rfl

theorem dtype_eq (t : List Char) : dtype t = annotate t := by
  unfold dtype annotate
  by_cases h1 : t = "s".toList
  · subst h1; decide
  · rw [if_neg h1, if_neg h1]

/-- A parameter as a pair. -/
def pairOf (p : Param) : List Char × Option (List Char) := (p.name, p.type)

theorem params_pair (d : List DefPart) : (params d).map pairOf = d.filterMap pyParam := by
  unfold params
  rw [List.map_filterMap]
  congr 1
  funext p
  cases p with
  | word w => rfl
  | param x => rfl
  | typed x t => simp [DefPart.param?, pyParam, pairOf, dtype_eq]

theorem paramText_pair (p : Param) : paramText (pairOf p) = p.text := by
  obtain ⟨n, t⟩ := p
  cases t <;> rfl

theorem nameOK_dummy (k : ℕ) : NameOK ("dummy".toList ++ (toString k).toList) := by
  refine ⟨by simp, fun c hc => by cases hc; decide, ?_, ?_⟩
  · intro c hc
    rcases List.mem_append.1 hc with hc | hc
    · exact (by decide : ∀ c ∈ "dummy".toList, nameChar c = true) c hc
    · rw [show (toString k).toList = (Nat.repr k).toList from rfl, Nat.toList_repr] at hc
      have : c.isDigit = true := Nat.isDigit_of_mem_toDigits (by decide) (by decide) hc
      simp [nameChar, Char.isAlphanum, this]
  · intro h
    have h' : ∀ k ∈ Py.keywords, ¬ "dummy".toList <+: k := by decide
    exact h' _ h ⟨_, rfl⟩

theorem fixDups_pyParams {d : List DefPart} (h : ParamsRead d) :
    ∃ qs, fixDups (params d) = .ok (qs, qs.map Param.name) ∧ qs.map pairOf = pyParams d ∧ ((pyParams d).map Prod.fst).Nodup := by
  obtain ⟨qs, h1, h2, h3, h4⟩ := C41_renamed_partial (params d) (paramsOK_of_defs h.1) h.2.1
  have h5 : qs.map pairOf = pyParams d := by
    refine List.ext_getElem? fun k => ?_
    unfold pyParams
    rw [← params_pair]
    by_cases hk : k < (params d).length
    · rw [List.getElem?_map, h4 k hk, List.getElem?_mapIdx, List.getElem?_map, List.getElem?_eq_getElem hk]
      have e : (List.take k ((params d).map pairOf)).map Prod.fst = ((params d).take k).map Param.name := by
        rw [← List.map_take, List.map_map]; rfl
      simp only [Option.map_some, e]
      have e2 : (pairOf (params d)[k]).1 = (params d)[k].name := rfl
      rw [e2]
      split <;> rfl
    · rw [List.getElem?_eq_none (by simp; omega), List.getElem?_eq_none (by simp; omega)]
  refine ⟨qs, h1, h5, ?_⟩
  rw [← h5, List.map_map]
  exact h3

theorem pyParams_names {d : List DefPart} (h : ParamsRead d) : ∀ p ∈ pyParams d, NameOK p.1 ∧ p.1 ≠ "vars".toList ∧ ∀ t, p.2 = some t → NameOK t := by
  intro p hp
  unfold pyParams at hp
  obtain ⟨k, hk, rfl⟩ := List.mem_mapIdx.1 hp
  have hm : (d.filterMap pyParam)[k] ∈ d.filterMap pyParam := List.getElem_mem hk
  obtain ⟨q, hq, he⟩ := List.mem_filterMap.1 hm
  have hn : VarName (d.filterMap pyParam)[k].1 ∧ ∀ t, (d.filterMap pyParam)[k].2 = some t → NameOK t := by
    have hd := h.1 q hq
    cases q with
    | word w => cases he
    | param x => simp only [pyParam, Option.some.injEq] at he; rw [← he]; exact ⟨hd, fun t ht => by cases ht⟩
    | typed x t => simp only [pyParam, Option.some.injEq] at he; rw [← he]; exact ⟨hd.1, fun t' ht => by cases ht; exact h.2.2 x t hq⟩
  simp only
  refine ⟨?_, ?_, hn.2⟩
  · split
    · exact nameOK_dummy k
    · exact nameOK_var hn.1
  · split
    · simp
    · intro h
      have := hn.1.2
      rw [h] at this
      exact absurd this (by decide)

theorem suite_ev {infun : Bool} {b : Block} (h : Ev (fun n => readBlock n infun (blockOutline fl b)) (.done, meanB fl.style b)) :
    Ev (fun n => readBlock n infun (suite (blockOutline fl b))) (.done, pySuite (meanB fl.style b)) := by
  cases b with
  | nil =>
    refine ⟨0, fun n _ => ?_⟩
    cases infun <;> rfl
  | cons s b =>
    have h1 : suite (blockOutline fl (.cons s b)) = blockOutline fl (.cons s b) := by
      have := outline_ne fl s (blockOutline fl b)
      rw [blockOutline]
      unfold suite
      split
      · next h => exact absurd h this
      · rfl
    rw [h1]
    exact h

theorem noElse_done (b : Py.Block) : noElse (.done, b) = some b := rfl

theorem meanB_cons (s : Stmt) (b : Block) : meanB fl.style (.cons s b) = .cons (meanS fl.style s) (meanB fl.style b) := by rw [meanB]

theorem prepend_cons (s : Py.Stmt) (ss : List Py.Stmt) (b : Py.Block) : Py.Block.prepend (s :: ss) b = .cons s (Py.Block.prepend ss b) := rfl

/-- A line with a block. -/
theorem ev_node {infun : Bool} {line : List Char} {kids f : Forest} {o x : Py.Else × Py.Block} {k : Py.Block} {inf : Bool}
    (hk : Ev (fun n => readBlock n inf kids) (.done, k)) (hf : Ev (fun n => readBlock n infun f) o)
    (hn : ∃ N, ∀ n, N ≤ n → (readBlock n inf kids = some (.done, k)) → readNode n infun line (readBlock n infun kids) (readBlock n true kids) kids.isEmpty o = some x) :
    Ev (fun n => readBlock n infun (.cons (.node line kids) f)) x := by
  obtain ⟨N, hN⟩ := hk
  obtain ⟨M, hM⟩ := hf
  obtain ⟨K, hK⟩ := hn
  refine ⟨N + M + K, fun n hn => ?_⟩
  have g1 := hN n (by omega)
  have g2 := hM n (by omega)
  have g3 := hK n (by omega) g1
  simp only at g2 ⊢
  rw [readBlock, g2, Option.bind_some, g3]

theorem readHead_text {n : ℕ} (w : List Char) {s : List Char} {e : Py.Expr} (h : readExpr n s = some e) :
    readHead n w (w ++ s ++ ":".toList) = some e := by
  unfold readHead
  rw [List.append_assoc, after_append, Option.bind_some, before_append, Option.bind_some, h]

theorem after_none {c d : Char} (hcd : c ≠ d) (s t : List Char) : after (c :: s) (d :: t) = none := by
  unfold after
  rw [if_neg]
  simp [List.isPrefixOf, hcd]

theorem readFor_text {n : ℕ} {x s : List Char} (hx : NameOK x) {e : Py.Expr} (h : readExpr n s = some e) :
    readFor n ("for ".toList ++ x ++ " in ".toList ++ s ++ ":".toList) = some (x, e) := by
  have e1 : "for ".toList ++ x ++ " in ".toList ++ s ++ ":".toList = "for ".toList ++ (x ++ (" in ".toList ++ (s ++ ":".toList))) := by simp
  have h1 := (takeWhile_name hx (rest := " in ".toList ++ (s ++ ":".toList)) (head_space _)).1
  unfold readFor
  rw [e1, after_append, Option.bind_some, h1, ← List.append_assoc, after_append, Option.bind_some, before_append, Option.bind_some, h,
    Option.bind_some, if_pos (isName_of hx)]

theorem head_none (n : ℕ) (w : List Char) {s : List Char} (h : after w s = none) : readHead n w s = none := by
  unfold readHead; rw [h]; rfl

mutual

theorem ev_stmt (fl : Flags) (s : Stmt) (h : ReadS fl s) (infun : Bool) (hr : infun = true ∨ noResultS s = true) (f : Forest) (r : Py.Block)
    (hf : Ev (fun n => readBlock n infun f) (.done, r)) : Ev (fun n => readBlock n infun (outline fl s f)) (.done, .cons (meanS fl.style s) r) := by
  match s with
  | .output e =>
    have := ev_leaf (nameOK_word (w := "output".toList) (by decide)) (by exact head_paren _) (line_output h) hf
    rw [outline, meanS]
    simpa using this
  | .outputNamed e m =>
    have := ev_leaf (nameOK_word (w := "output".toList) (by decide)) (by exact head_paren _) (line_outputNamed h.1 h.2) hf
    rw [outline, meanS, show fl.style.dict = fl.nonLocal from rfl]
    simpa using this
  | .set m v =>
    have := ev_leaf (nameOK_word (w := "settings_set".toList) (by decide)) (by exact head_paren _) (line_set h.1 h.2) hf
    rw [outline, meanS, show fl.style.dict = fl.nonLocal from rfl]
    simpa using this
  | .function d body =>
    rw [ReadS] at h
    have hb := suite_ev (ev_block fl body h.2.2 true (.inl rfl))
    obtain ⟨qs, g1, g2, g3⟩ := fixDups_pyParams h.2.1
    have g4 := pyParams_names h.2.1
    rw [outline, meanS]
    have hline : defHeader fl d = "def ".toList ++ pyName fl.libConflict (defSig d) ++ "(".toList ++
        join ", ".toList ((pyParams d ++ if fl.nonLocal then [("vars".toList, none)] else []).map paramText) ++ "):".toList := by
      unfold defHeader
      rw [g1]
      simp only
      unfold defLine
      have e : (pyParams d).map paramText = qs.map Param.text := by
        rw [← g2, List.map_map]
        exact List.map_congr_left fun q _ => paramText_pair q
      rw [pyName_def, List.map_append, e, withVars]
      cases fl.nonLocal <;> simp [paramText]
    have hdef : readDef (defHeader fl d) = some (pyName fl.libConflict (defSig d), pyParams d ++ if fl.nonLocal then [("vars".toList, none)] else []) := by
      rw [hline]
      refine readDef_text h.1 ?_ ?_
      · intro p hp
        rcases List.mem_append.1 hp with hp | hp
        · exact ⟨(g4 p hp).1, (g4 p hp).2.2⟩
        · split at hp
          · simp only [List.mem_cons, List.not_mem_nil, or_false] at hp
            subst hp
            exact ⟨nameOK_word (by decide), fun t ht => by cases ht⟩
          · cases hp
      · rw [List.map_append, List.nodup_append]
        refine ⟨g3, by split <;> simp, ?_⟩
        intro a ha b hb
        obtain ⟨p, hp, rfl⟩ := List.mem_map.1 ha
        split at hb
        · simp only [List.map_cons, List.map_nil, List.mem_cons, List.not_mem_nil, or_false] at hb
          rw [hb]
          exact (g4 p hp).2.1
        · cases hb
    have hhead : ∃ t, defHeader fl d = 'd' :: t := by rw [hline]; exact ⟨_, rfl⟩
    obtain ⟨t, ht⟩ := hhead
    have hkids : Ev (fun n => readBlock n true (if fl.nonLocal then leaf (copyLine d) (suite (blockOutline fl body)) else suite (blockOutline fl body)))
        (.done, pyBody fl.nonLocal ((pyParams d).map Prod.fst) (meanB fl.style body)) := by
      unfold pyBody
      cases fl.nonLocal with
      | false => simpa using hb
      | true =>
        simp only [if_true]
        obtain ⟨N, hN⟩ := hb
        refine ⟨N, fun n hn => ?_⟩
        have q1 := hN n hn
        simp only at q1 ⊢
        have q2 : copyLine d = "vars".toList ++ (" = vars.copy(); ".toList ++
            join "; ".toList (((pyParams d).map Prod.fst).map fun x => "vars[\"".toList ++ x ++ "\"] = ".toList ++ x)) := by
          unfold copyLine
          rw [g1, ← g2]
          simp only [List.map_map]
          rfl
        have q3 : ∀ k k' r, readNode n true (copyLine d) k k' true (.done, r) =
            (readSimple n (copyLine d)).map fun ss => (.done, Py.Block.prepend ss r) := by
          rw [q2]
          exact fun k k' r => readNode_simple n (nameOK_word (by decide)) (by exact head_space _) k k' r
        rw [leaf, readBlock, q1, Option.bind_some, Py.Forest.isEmpty, q3, q2,
          line_copies (fun x hx => by obtain ⟨p, hp, rfl⟩ := List.mem_map.1 hx; exact (g4 p hp).1)]
        rfl
    have hinner : Ev (fun n => readBlock n infun (.cons (.node (defHeader fl d)
        (if fl.nonLocal then leaf (copyLine d) (suite (blockOutline fl body)) else suite (blockOutline fl body))) f))
        (.done, .cons (.def_ false (pyName fl.libConflict (defSig d)) (pyParams d ++ if fl.nonLocal then [("vars".toList, none)] else [])
          (pyBody fl.nonLocal ((pyParams d).map Prod.fst) (meanB fl.style body))) r) := by
      refine ev_node hkids hf ⟨0, fun n _ hk => ?_⟩
      unfold readNode
      rw [if_neg (by rw [ht]; simp), head_none n _ (by rw [ht]; exact after_none (by decide) _ _),
        head_none n _ (by rw [ht]; exact after_none (by decide) _ _)]
      simp only [noElse_done, Option.bind_some]
      have : readFor n (defHeader fl d) = none := by
        unfold readFor
        rw [ht, show "for ".toList = 'f' :: "or ".toList from rfl, after_none (by decide)]
        rfl
      rw [this, hdef]
      simp only
      rw [hk]
      rfl
    obtain ⟨N, hN⟩ := hinner
    refine ⟨N, fun n hn => ?_⟩
    have := hN n hn
    simp only at this ⊢
    rw [leaf, readBlock, this, Option.bind_some, Py.Forest.isEmpty]
    unfold readNode
    have c1 : "@anydice_casting()".toList ≠ "else:".toList := by decide
    have c2 : ∀ k ∈ ["elif ".toList, "if ".toList, "for ".toList, "def ".toList], after k "@anydice_casting()".toList = none := by decide
    have c3 : readFor n "@anydice_casting()".toList = none := by unfold readFor; rw [c2 _ (by simp)]; rfl
    have c4 : readDef "@anydice_casting()".toList = none := by unfold readDef; rw [c2 _ (by simp)]; rfl
    rw [if_neg c1, head_none n _ (c2 _ (by simp)), head_none n _ (c2 _ (by simp))]
    simp only [noElse_done, Option.bind_some]
    rw [c3, c4]
    rfl
  | .result e =>
    rw [ReadS] at h
    have hin : infun = true := by
      rcases hr with hr | hr
      · exact hr
      · cases hr
    subst hin
    obtain ⟨N, hN⟩ := Readable.expr h
    obtain ⟨M, hM⟩ := hf
    refine ⟨N + M, fun n hn => ?_⟩
    have q1 := hN n (by omega)
    have q2 := hM n (by omega)
    simp only at q1 q2 ⊢
    rw [outline, meanS, leaf, readBlock, q2, Option.bind_some, Py.Forest.isEmpty]
    have ht : ∃ t, "return ".toList ++ e.emit fl = 'r' :: t := ⟨_, rfl⟩
    have hs : readSimple n ("return ".toList ++ e.emit fl) = some [.ret (mean fl.style e)] := by
      unfold readSimple
      rw [if_neg (by simp), after_append]
      simp only
      rw [q1]
      rfl
    obtain ⟨t, ht⟩ := ht
    unfold readNode
    rw [if_neg (by rw [ht]; simp), head_none n _ (by rw [ht]; exact after_none (by decide) _ _),
        head_none n _ (by rw [ht]; exact after_none (by decide) _ _)]
    simp only [noElse_done, Option.bind_some]
    have c3 : readFor n ("return ".toList ++ e.emit fl) = none := by
      unfold readFor
      rw [ht, show "for ".toList = 'f' :: "or ".toList from rfl, after_none (by decide)]
      rfl
    have c4 : readDef ("return ".toList ++ e.emit fl) = none := by
      unfold readDef
      rw [ht, show "def ".toList = 'd' :: "ef ".toList from rfl, after_none (by decide)]
      rfl
    rw [c3, c4]
    simp only
    rw [if_neg (by decide), if_neg (by simp), if_neg (by simp), hs]
    rfl
  | .cond c b e =>
    rw [ReadS] at h
    have hn : (infun = true ∨ noResultB b = true) ∧ (infun = true ∨ noResultE e = true) := by
      rcases hr with hr | hr
      · exact ⟨.inl hr, .inl hr⟩
      · rw [noResultS, Bool.and_eq_true] at hr
        exact ⟨.inr hr.1, .inr hr.2⟩
    have hb := suite_ev (ev_block fl b h.2.1 infun hn.1)
    have he := ev_else fl e h.2.2 infun hn.2 f r hf
    obtain ⟨N, hN⟩ := Readable.expr h.1
    rw [outline, meanS]
    refine ev_node hb he ⟨N, fun n hn hk => ?_⟩
    have q1 := hN n hn
    simp only at q1
    have ht : ∃ t, "if ".toList ++ c.emit fl ++ ":".toList = 'i' :: t := ⟨_, rfl⟩
    have hd := readHead_text "if ".toList q1
    obtain ⟨t, ht⟩ := ht
    unfold readNode
    rw [if_neg (by rw [ht]; simp), head_none n _ (by rw [ht]; exact after_none (by decide) _ _), hd, hk]
    rfl
  | .loop x e b =>
    rw [ReadS] at h
    have hn : infun = true ∨ noResultB b = true := by
      rcases hr with hr | hr
      · exact .inl hr
      · rw [noResultS] at hr
        exact .inr hr
    have hb := suite_ev (ev_block fl b h.2.2 infun hn)
    have hx := nameOK_var h.1
    obtain ⟨N, hN⟩ := Readable.expr h.2.1
    have hb' : Ev (fun n => readBlock n infun (if fl.nonLocal then leaf ("vars['".toList ++ x ++ "'] = ".toList ++ x) (suite (blockOutline fl b))
        else suite (blockOutline fl b))) (.done, if fl.style.dict then .cons (.setItem "vars".toList x (.name x)) (pySuite (meanB fl.style b))
          else pySuite (meanB fl.style b)) := by
      rw [show fl.style.dict = fl.nonLocal from rfl]
      cases fl.nonLocal with
      | false => simpa using hb
      | true =>
        simp only [if_true]
        have := ev_leaf (nameOK_word (w := "vars".toList) (by decide)) (by exact head_bracket _)
          (line_item h.1 (lexOK_name hx) ((good_name x).le (by decide) (by decide))) hb
        simpa using this
    rw [outline, meanS]
    refine ev_node hb' hf ⟨N, fun n hn hk => ?_⟩
    have q1 := hN n hn
    simp only at q1
    have ht : ∃ t, "for ".toList ++ x ++ " in ".toList ++ e.emit fl ++ ":".toList = 'f' :: t := ⟨_, rfl⟩
    have hd := readFor_text hx q1
    obtain ⟨t, ht⟩ := ht
    unfold readNode
    rw [if_neg (by rw [ht]; simp), head_none n _ (by rw [ht]; exact after_none (by decide) _ _),
      head_none n _ (by rw [ht]; exact after_none (by decide) _ _), hd, hk]
    rfl
  | .assign x e =>
    rw [ReadS] at h
    rw [outline, meanS, show fl.style.dict = fl.nonLocal from rfl]
    cases hnl : fl.nonLocal with
    | false =>
      simp only [Bool.false_eq_true, if_false]
      have := ev_leaf (nameOK_var h.1) (by exact head_space _) (line_assign (nameOK_var h.1) h.2) hf
      simpa using this
    | true =>
      simp only [if_true]
      have := ev_leaf (nameOK_word (w := "vars".toList) (by decide)) (by exact head_bracket _) (line_item h.1 h.2.lex h.2.good) hf
      simpa using this

theorem ev_block (fl : Flags) (b : Block) (h : ReadB fl b) (infun : Bool) (hr : infun = true ∨ noResultB b = true) :
    Ev (fun n => readBlock n infun (blockOutline fl b)) (.done, meanB fl.style b) := by
  match b with
  | .nil => exact ⟨0, fun n _ => rfl⟩
  | .cons s b =>
    rw [ReadB] at h
    have hn : (infun = true ∨ noResultS s = true) ∧ (infun = true ∨ noResultB b = true) := by
      rcases hr with hr | hr
      · exact ⟨.inl hr, .inl hr⟩
      · rw [noResultB, Bool.and_eq_true] at hr
        exact ⟨.inr hr.1, .inr hr.2⟩
    rw [blockOutline, meanB]
    exact ev_stmt fl s h.1 infun hn.1 _ _ (ev_block fl b h.2 infun hn.2)

theorem ev_else (fl : Flags) (e : Else) (h : ReadE fl e) (infun : Bool) (hr : infun = true ∨ noResultE e = true) (f : Forest) (r : Py.Block)
    (hf : Ev (fun n => readBlock n infun f) (.done, r)) : Ev (fun n => readBlock n infun (elseOutline fl e f)) (meanElse fl.style e, r) := by
  match e with
  | .done => rw [elseOutline, meanElse]; exact hf
  | .else_ b =>
    rw [ReadE] at h
    have hn : infun = true ∨ noResultB b = true := by
      rcases hr with hr | hr
      · exact .inl hr
      · rw [noResultE] at hr
        exact .inr hr
    have hb := suite_ev (ev_block fl b h infun hn)
    rw [elseOutline, meanElse]
    refine ev_node hb hf ⟨0, fun n _ hk => ?_⟩
    unfold readNode
    rw [if_pos rfl, hk]
    rfl
  | .elif c b e =>
    rw [ReadE] at h
    have hn : (infun = true ∨ noResultB b = true) ∧ (infun = true ∨ noResultE e = true) := by
      rcases hr with hr | hr
      · exact ⟨.inl hr, .inl hr⟩
      · rw [noResultE, Bool.and_eq_true] at hr
        exact ⟨.inr hr.1, .inr hr.2⟩
    have hb := suite_ev (ev_block fl b h.2.1 infun hn.1)
    have he := ev_else fl e h.2.2 infun hn.2 f r hf
    obtain ⟨N, hN⟩ := Readable.expr h.1
    rw [elseOutline, meanElse]
    refine ev_node hb he ⟨N, fun n hn hk => ?_⟩
    have q1 := hN n hn
    simp only at q1
    have ht : ∃ t, "elif ".toList ++ c.emit fl ++ ":".toList = 'e' :: 'l' :: 'i' :: t := ⟨_, rfl⟩
    have hd := readHead_text "elif ".toList q1
    obtain ⟨t, ht⟩ := ht
    unfold readNode
    rw [if_neg (by rw [ht]; simp), hd, hk]
    rfl

end

theorem ev_newDict {f : Forest} {r : Py.Block} (hf : Ev (fun n => readBlock n false f) (.done, r)) :
    Ev (fun n => readBlock n false (leaf "vars = {}".toList f)) (.done, .cons (.newDict "vars".toList) r) := by
  have := ev_leaf (infun := false) (nameOK_word (w := "vars".toList) (by decide)) (rest := " = {}".toList) (by decide)
    (s := .newDict "vars".toList) (f := f) (r := r) ⟨0, fun n _ => rfl⟩ hf
  exact this

/-- The program is read as it is meant. -/
theorem ev_program (fl : Flags) (b : Block) (h : ReadB fl b) (hr : noResultB b = true) :
    Ev (fun n => readBlock n false (if fl.nonLocal then leaf "vars = {}".toList (blockOutline fl b) else blockOutline fl b))
      (.done, meanP fl.style b) := by
  have h1 := ev_block fl b h false (.inr hr)
  unfold meanP
  rw [show fl.style.dict = fl.nonLocal from rfl]
  cases fl.nonLocal with
  | false => simpa using h1
  | true =>
    simp only [if_true]
    exact ev_newDict h1

end PythonDice
