import Verif.Proofs.ParseEnds
import Verif.Proofs.Parts
import Verif.Spec.Compile
import Verif.Props.Parse
import Verif.Props.Blocks

/-!
# C59, C60, C61: compilation of a source text

`compile` is `compile_anydice`: the lexer, the parser with its recovery from errors, and the code generator.
-/

namespace PythonDice

open Compiler Spec Lexer
open Spec.Py (BlankLine ReadsAs readFile)

/-! ## C59 -/

theorem tokens_ok (dig : Char → Bool) (s : List Char) : ∀ t ∈ tokens dig s, Spec.TokenOK t := fun _ ht => tokenOK_of_form (form_of_tokens ht)

/-- **C59** (src/parser/ply/yacc.py:295-581): the parser ends on every text, with all its recoveries from errors, within a number of turns that is
linear in the number of tokens; it gives the tree of a program, or nothing, or fails with an IndexError. -/
theorem C59_parser_ends (dig : Char → Bool) (s : List Char) : ∃ p, Yacc.parse Yacc.tables (tokens dig s) = some p ∧
    (∀ v, p.result = .ok (some v) → ∃ b, v = .block b) ∧ ∀ e, p.result = .error e → e = .indexError := by
  rw [Yacc.tables_eq]
  obtain ⟨p, hp, h1, h2⟩ := Yacc.parse_ends Yacc.isTable (tokens_ok dig s)
  exact ⟨p, hp, h2, fun e he => (h1 e he).1⟩

theorem run_none {T : Yacc.Tables} (n : ℕ) : ∀ {c : Yacc.Config}, Yacc.run T n c = none → ∀ {k bad}, Yacc.loop T n c k bad = none := by
  induction n with
  | zero => intro c _ k bad; rfl
  | succ n ih =>
    intro c h k bad
    simp only [Yacc.run] at h
    split at h
    · cases h
    · cases h
    · rename_i d hd
      simp only [Yacc.loop, hd]
      exact ih h

/-- The parser without errors. -/
theorem parse_ok {T : Yacc.Tables} (hT : Yacc.IsTable T) {ts : List Token} (hts : ∀ t ∈ ts, Spec.TokenOK t) (b : Block) :
    Yacc.parse T ts = some ⟨.ok (some (.block b)), []⟩ ↔ SourceOf ts b := by
  have hr := Yacc.run_iff_derives hT ts (.block b) ⟨b, rfl⟩
  have hd : Yacc.Derives 0 (.n .multilineCode) (.block b) ts [] ↔ SourceOf ts b := by
    constructor
    · intro h
      obtain ⟨c, e, h1, h2⟩ := Yacc.written_of_derives h hts
      cases e
      exact ⟨h1.symm, h2⟩
    · rintro ⟨rfl, h⟩
      exact Yacc.derives_of_written h
  unfold Yacc.parse
  rw [Yacc.loop_ok]
  constructor
  · intro h
    exact hd.1 (hr.1 ⟨_, h⟩)
  · intro h
    obtain ⟨n, hn⟩ := hr.2 (hd.2 h)
    obtain ⟨p, hp, hE⟩ := Yacc.parse_ends hT hts
    unfold Yacc.parse at hp
    cases hrun : Yacc.run T (10 * ts.length + 4) (Yacc.start ts) with
    | some r => rw [run_unique hn hrun]
    | none =>
      rw [run_none _ hrun] at hp
      cases hp

/-- **C59** (src/parser/parse_and_exec.py:76-86): a text compiles to a Python text exactly if it is not blank, all its characters are legal, it
is the text of a program, and the code generator gives the Python text for the tree of this program. -/
theorem C59_compile (fl : Flags) (dig : Char → Bool) (s t : List Char) : compile fl dig s = .ok t ↔
    ¬ BlankLine s ∧ reports dig s = [] ∧ ∃ b, SourceOf (tokens dig s) b ∧ resolve fl b = .ok t := by
  have hp := parse_ok Yacc.isTable (tokens_ok dig s)
  unfold compile compileWith
  rw [Yacc.tables_eq]
  by_cases hb : blank s = true
  · have := (blank_iff s).1 hb
    simp [hb, this]
  · have hb' : ¬ BlankLine s := fun h => hb ((blank_iff s).2 h)
    rw [if_neg hb]
    by_cases hr : reports dig s = []
    · simp only [hr, ne_eq, not_true_eq_false, if_false]
      simp only [hb', not_false_eq_true, true_and]
      unfold compileTree
      constructor
      · intro h
        split at h
        · rename_i b he
          refine ⟨b, (hp b).1 he, ?_⟩
          cases hres : resolve fl b with
          | ok t' => rw [hres] at h; cases h; rfl
          | error e => rw [hres] at h; cases h
        all_goals cases h
      · rintro ⟨b, hsrc, hres⟩
        rw [(hp b).2 hsrc]
        simp only [hres]
    · simp [hr]

/-- The parts of a program from a source text. -/
theorem block_ok {dig : Char → Bool} {s : List Char} {b : Block} (h : SourceOf (tokens dig s) b) : BlockOK dig (fun _ => True) b :=
  blockOK_of_formed b h.2 ⟨by rw [h.1]; exact fun _ ht => form_of_tokens ht, fun _ _ _ _ _ => trivial⟩

/-- The names in a source text have the forms of names. -/
theorem source_names {dig : Char → Bool} {s : List Char} {b : Block} (h : SourceOf (tokens dig s) b) : NamesOK b := by
  have hb := block_ok h
  constructor
  · rintro _ ⟨st, e, cs, h1, h2, h3, rfl⟩
    exact callSig_ok cs (subExpr_ok h3 (exprOf_ok h2 (stmtIn_ok h1 hb))).2
  · rintro _ ⟨d, body, h1, rfl⟩
    exact defSig_ok (stmtIn_ok h1 hb).1

theorem source_params {dig : Char → Bool} {s : List Char} {b : Block} (h : SourceOf (tokens dig s) b) :
    ∀ d body, StmtIn (.function d body) b → ParamsOK (params d) := fun _ _ h1 => paramsOK_of_defs (stmtIn_ok h1 (block_ok h)).1

theorem mem_params {p : Param} {a : List DefPart} : p ∈ params a ↔ (p.type = none ∧ .param p.name ∈ a) ∨ ∃ t, p.type = some (dtype t) ∧ .typed p.name t ∈ a := by
  obtain ⟨n, ty⟩ := p
  simp only [params, List.mem_filterMap]
  constructor
  · rintro ⟨q, hq, e⟩
    cases q with
    | word w => cases e
    | param x => cases e; exact .inl ⟨rfl, hq⟩
    | typed x t => cases e; exact .inr ⟨t, rfl, hq⟩
  · rintro (⟨h1, h2⟩ | ⟨t, h1, h2⟩)
    · cases h1; exact ⟨_, h2, rfl⟩
    · cases h1; exact ⟨_, h2, rfl⟩

theorem name_mem_params {x : List Char} {a : List DefPart} : x ∈ (params a).map Param.name ↔ .param x ∈ a ∨ ∃ t, .typed x t ∈ a := by
  constructor
  · intro h
    obtain ⟨p, hp, rfl⟩ := List.mem_map.1 h
    rcases mem_params.1 hp with ⟨_, h⟩ | ⟨t, _, h⟩
    · exact .inl h
    · exact .inr ⟨t, h⟩
  · rintro (h | ⟨t, h⟩)
    · exact List.mem_map.2 ⟨⟨x, none⟩, mem_params.2 (.inl ⟨rfl, h⟩), rfl⟩
    · exact List.mem_map.2 ⟨⟨x, some (dtype t)⟩, mem_params.2 (.inr ⟨t, rfl, h⟩), rfl⟩

/-- The two ways to speak of repeated parameters. -/
theorem repeatsTyped_iff (d : List DefPart) : RepeatsTyped (params d) ↔ ¬ RepeatsUntyped d := by
  constructor
  · rintro h ⟨a, x, b, rfl, hx⟩
    refine h (params a) ⟨x, none⟩ (params b) ?_ (name_mem_params.2 hx) rfl
    simp [params, DefPart.param?]
  · intro h a p b he hm ht
    obtain ⟨n, ty⟩ := p
    cases ht
    unfold params at he
    obtain ⟨d1, d2, rfl, h1, h2⟩ := List.filterMap_eq_append_iff.1 he
    obtain ⟨d3, q, d4, rfl, h3, h4, h5⟩ := List.filterMap_eq_cons_iff.1 h2
    have hq : q = .param n := by
      cases q with
      | word w => cases h4
      | param x => cases h4; rfl
      | typed x t => cases h4
    subst hq
    refine h ⟨d1 ++ d3, n, d4, by simp, ?_⟩
    have : n ∈ (params d1).map Param.name := by unfold params; rw [h1]; exact hm
    rcases name_mem_params.1 this with h | ⟨t, h⟩
    · exact .inl (List.mem_append_left _ h)
    · exact .inr ⟨t, List.mem_append_left _ h⟩

theorem mayCollide_names (fl : Flags) (h : fl.libConflict = false) : mayCollide = protectedSigs.map fun s => mangle fl (sigParts s) := by
  have : ∀ l, mangle fl l = join "_".toList l := by intro l; unfold mangle; rw [h]; rfl
  simp only [this]
  decide

theorem protectedSigs_ok : ∀ s ∈ protectedSigs, SigOK s := by
  intro s hs w hw
  have : ∀ s ∈ protectedSigs, ∀ o ∈ s, o = none ∨ (o.getD [] ≠ [] ∧ ∀ c ∈ o.getD [], LowLetter c) := by decide
  rcases this s hs _ hw with h | h
  · cases h
  · exact h

theorem collides_iff (fl : Flags) (b : Block) (hb : NamesOK b) (hl : fl.libConflict = false) : collides fl b ↔ DefinesProtected b := by
  unfold collides
  constructor
  · rintro ⟨f, hf, hd⟩
    rcases List.mem_append.1 hd with hd | hd
    · exact absurd hd ((by decide : ∀ f ∈ mayCollide, f ∉ library) f hf)
    · obtain ⟨s, hs, rfl⟩ := (mem_defs fl b f).1 hd
      rw [mayCollide_names fl hl] at hf
      obtain ⟨q, hq, he⟩ := List.mem_map.1 hf
      have := mangle_inj fl (protectedSigs_ok q hq) (hb.2 s hs) he
      subst this
      exact ⟨q, hq, hs⟩
  · rintro ⟨s, hs, hd⟩
    refine ⟨mangle fl (sigParts s), ?_, List.mem_append_right _ ((mem_defs fl b _).2 ⟨s, hd, rfl⟩)⟩
    rw [mayCollide_names fl hl]
    exact List.mem_map_of_mem hs

theorem resolveOnce_iff (fl : Flags) (p : Block) : (∃ t, resolveOnce fl p = .ok t) ↔
    Emits fl p ∧ (fl.existCheck = true → ∀ f ∈ p.calls fl, f ∈ defined fl p) ∧ p.outputs ≠ 0 := by
  constructor
  · rintro ⟨t, h⟩
    obtain ⟨⟨ls, h1, _⟩, h2, h3⟩ := resolveOnce_ok h
    exact ⟨⟨ls, h1⟩, h2, h3⟩
  · rintro ⟨⟨ls, h1⟩, h2, h3⟩
    have hd : ¬ (fl.existCheck = true ∧ ¬ ∀ f ∈ p.calls fl, f ∈ defined fl p) := fun h => h.2 (h2 h.1)
    unfold resolveOnce
    simp only [h1, bind, Except.bind, if_neg hd, if_neg h3]
    exact ⟨_, rfl⟩

/-- What the code generator accepts. -/
theorem resolve_accepts (fl : Flags) (b : Block) (hn : NamesOK b) (hp : ∀ d body, StmtIn (.function d body) b → ParamsOK (params d)) :
    (∃ t, resolve fl b = .ok t) ↔ (∀ d body, StmtIn (.function d body) b → ¬ RepeatsUntyped d) ∧ Outputs b ∧
      (fl.existCheck = true → ∀ s, Calls b s → Defines b s ∨ s ∈ librarySigs ∧ fl.libConflict = false ∧ ¬ DefinesProtected b) := by
  have he : ∀ fl, Emits fl b ↔ ∀ d body, StmtIn (.function d body) b → ¬ RepeatsUntyped d := by
    intro fl
    rw [C41_programs fl b hp]
    exact ⟨fun h d body hd => (repeatsTyped_iff d).1 (h d body hd), fun h d body hd => (repeatsTyped_iff d).2 (h d body hd)⟩
  cases hl : fl.libConflict with
  | true =>
    rw [C38_exactly_prefixed fl b hn hl, he]
    simp
  | false =>
    by_cases hc : collides fl b
    · have hprot := (collides_iff fl b hn hl).1 hc
      have hl' : (prefixed fl).libConflict = true := rfl
      have h1 := C38_exactly_prefixed (prefixed fl) b hn hl'
      rw [resolve_eq, if_neg (not_collides_prefixed _ hl' b)] at h1
      have h2 : (∃ t, resolve fl b = .ok t) ↔ (∃ t, resolveOnce fl b = .ok t) ∧ ∃ t, (resolveOnce (prefixed fl) b).map cleanUp = .ok t := by
        rw [resolve_eq, if_pos hc]
        cases resolveOnce fl b with
        | error e => simp [bind, Except.bind]
        | ok r => simp [bind, Except.bind]
      rw [h2, h1, he, resolveOnce_iff, he]
      simp only [hprot, not_true_eq_false, and_false, or_false]
      constructor
      · rintro ⟨_, h3, h4, h5⟩; exact ⟨h3, h4, h5⟩
      · rintro ⟨h3, h4, h5⟩
        exact ⟨⟨h3, fun hx => defined_calls fun s hs => .inl (h5 hx s hs), (outputs_iff b).2 h4⟩, h3, h4, h5⟩
    · have hprot : ¬ DefinesProtected b := fun h => hc ((collides_iff fl b hn hl).2 h)
      rw [C38_exactly fl b hn hl hc, he]
      simp [hprot]

/-- **C59** (src/parser/parse_and_exec.py:76-86): the texts that compile: not blank, of legal characters, the text of a program in which no
parameter without a type repeats a name, which outputs something, and in which, if the check is on, every function that is called is defined
or in the library; the library is out of reach if the flag is set or the program defines one of the protected names. -/
theorem C59_accepts (fl : Flags) (dig : Char → Bool) (s : List Char) : (∃ t, compile fl dig s = .ok t) ↔
    ¬ BlankLine s ∧ reports dig s = [] ∧ ∃ b, SourceOf (tokens dig s) b ∧ (∀ d body, StmtIn (.function d body) b → ¬ RepeatsUntyped d) ∧
      Outputs b ∧ (fl.existCheck = true → ∀ q, Calls b q →
        Defines b q ∨ q ∈ librarySigs ∧ fl.libConflict = false ∧ ¬ DefinesProtected b) := by
  simp only [C59_compile]
  constructor
  · rintro ⟨t, h1, h2, b, h3, h4⟩
    exact ⟨h1, h2, b, h3, (resolve_accepts fl b (source_names h3) (source_params h3)).1 ⟨t, h4⟩⟩
  · rintro ⟨h1, h2, b, h3, h4⟩
    obtain ⟨t, ht⟩ := (resolve_accepts fl b (source_names h3) (source_params h3)).2 h4
    exact ⟨t, h1, h2, b, h3, ht⟩

/-- A program with a function, and what it compiles to. -/
example : compile {} Char.isDigit "function: twice A:n { result: A*2 }\noutput [twice 4] + 2d6 named \"x\"".toList =
    .ok "@anydice_casting()\ndef twice_X(A: T_N):\n  return A * 2\n\noutput(twice_X(4) + roll(2, 6), named=f\"x\")\n".toList := by
  rw [compile, Yacc.tables_eq]
  decide +kernel

/-! ## C60 -/

/-- The two places in which an action of the parser fails. -/
theorem C60_function_counterexample :
    compile {} Char.isDigit "function: { result: 1 } output 1".toList = .error (.action .indexError) ∧
      compile {} Char.isDigit "output [[f] 1]".toList = .error (.action .indexError) ∧
        compile {} Char.isDigit "function: f A A { result: A } output [f 1 2]".toList = .error (.resolver .indexError) := by
  rw [compile, compile, compile, Yacc.tables_eq]
  decide +kernel

/-- Assertions. -/
def IsAssertion : CompileErr → Prop
  | .empty => True
  | .lex rs => rs ≠ []
  | .yacc _ => True
  | .action _ => False
  | .resolver e => e = .unknownFunction ∨ e = .noOutput
  | .internal => False

theorem resolve_error {fl : Flags} {b : Block} (hp : ∀ d body, StmtIn (.function d body) b → ParamsOK (params d)) {e : Err}
    (h : resolve fl b = .error e) :
    e = .unknownFunction ∨ e = .noOutput ∨ e = .indexError ∧ ∃ d body, StmtIn (.function d body) b ∧ RepeatsUntyped d := by
  have once : ∀ {fl e}, resolveOnce fl b = .error e →
      e = .unknownFunction ∨ e = .noOutput ∨ e = .indexError ∧ ∃ d body, StmtIn (.function d body) b ∧ RepeatsUntyped d := by
    intro fl e h
    unfold resolveOnce at h
    cases he : b.emit fl with
    | ok ls =>
      rw [he] at h
      simp only [bind, Except.bind] at h
      split_ifs at h <;> cases h <;> simp
    | error e' =>
      rw [he] at h
      rcases block_emitCases fl b with ⟨⟨t, ht⟩, _⟩ | ⟨ht, _⟩
      · rw [he] at ht; cases ht
      · rw [he] at ht
        cases ht
        cases h
        refine .inr (.inr ⟨rfl, ?_⟩)
        by_contra hno
        have hem : Emits fl b := by
          rw [C41_programs fl b hp]
          exact fun d body hd => (repeatsTyped_iff d).2 fun hr => hno ⟨d, body, hd, hr⟩
        obtain ⟨ls, hls⟩ := hem
        rw [he] at hls
        cases hls
  rw [resolve_eq] at h
  split_ifs at h
  · cases h1 : resolveOnce fl b with
    | error e' => rw [h1] at h; cases h; exact once h1
    | ok r =>
      rw [h1] at h
      cases h2 : resolveOnce (prefixed fl) b with
      | error e' => rw [h2] at h; cases h; exact once h2
      | ok r => rw [h2] at h; cases h
  · cases h1 : resolveOnce fl b with
    | error e' => rw [h1] at h; cases h; exact once h1
    | ok r => rw [h1] at h; cases h

/-- **C60**, what holds: compilation ends with a text or a failed assertion, except for an IndexError if a function without a name is defined, a
call begins with a call, or a parameter without a type repeats a name.  Missing: these three, for which the claim is false. -/
theorem C60_assertions_partial (fl : Flags) (dig : Char → Bool) (s : List Char) (e : CompileErr) (h : compile fl dig s = .error e) :
    IsAssertion e ∨ e = .action .indexError ∧ (NamelessFunction (tokens dig s) ∨ CallOfCall (tokens dig s)) ∨
      e = .resolver .indexError ∧ ∃ b, SourceOf (tokens dig s) b ∧ ∃ d body, StmtIn (.function d body) b ∧ RepeatsUntyped d := by
  have hp := parse_ok Yacc.isTable (tokens_ok dig s)
  obtain ⟨p, hpar, hend, hblk⟩ := Yacc.parse_ends Yacc.isTable (tokens_ok dig s)
  unfold compile compileWith at h
  rw [Yacc.tables_eq] at h
  split_ifs at h with h1 h2
  · cases h; exact .inl trivial
  · cases h; exact .inl h2
  · unfold compileTree at h
    split at h
    · rename_i b he
      have hsrc := (hp b).1 he
      cases hr : resolve fl b with
      | ok t => rw [hr] at h; cases h
      | error e' =>
        rw [hr] at h
        cases h
        rcases resolve_error (source_params hsrc) hr with rfl | rfl | ⟨rfl, hx⟩
        · exact .inl (.inl rfl)
        · exact .inl (.inr rfl)
        · exact .inr (.inr ⟨rfl, b, hsrc, hx⟩)
    · cases h; exact .inl trivial
    · rename_i e' bad he
      cases h
      rw [hpar] at he
      cases he
      obtain ⟨rfl, htrap⟩ := hend e' rfl
      exact .inr (.inl ⟨rfl, htrap⟩)
    · rename_i he
      rw [hpar] at he
      cases he

/-! ## C61 -/

/-- Where the token with a number stands. -/
def StandsAt (ps : List Piece) (pos line i : ℕ) : Option (Token × ℕ × ℕ) → Prop
  | some x => ∃ ps1 ps2, ps = ps1 ++ .token x.1 :: ps2 ∧ (ps1.filterMap Piece.token?).length = i ∧
      x.2.1 = pos + ((ps1.map Piece.text).flatten).length ∧ x.2.2 = line + (ps1.map Piece.lineno).sum
  | none => (ps.filterMap Piece.token?).length ≤ i

theorem standsAt_skip {q : Piece} (hq : q.token? = none) {ps : List Piece} {pos line i : ℕ} {x : Option (Token × ℕ × ℕ)}
    (h : StandsAt ps (pos + q.text.length) (line + q.lineno) i x) : StandsAt (q :: ps) pos line i x := by
  cases x with
  | none => simpa [StandsAt, hq] using h
  | some x =>
    obtain ⟨ps1, ps2, e1, e2, e3, e4⟩ := h
    exact ⟨q :: ps1, ps2, by simp [e1], by simp [hq, e2], by simp [e3]; omega, by simp [e4]; omega⟩

theorem placed_spec (ps : List Piece) : ∀ (pos line i : ℕ), StandsAt ps pos line i (placed pos line ps)[i]? := by
  induction ps with
  | nil => intro pos line i; simp [placed, StandsAt]
  | cons q ps ih =>
    intro pos line i
    cases q with
    | token t =>
      cases i with
      | zero => exact ⟨[], ps, rfl, rfl, by simp, by simp⟩
      | succ i =>
        have := ih (pos + t.value.length) line i
        simp only [placed, List.getElem?_cons_succ]
        cases hg : (placed (pos + t.value.length) line ps)[i]? with
        | none => rw [hg] at this; simpa [StandsAt, Piece.token?] using this
        | some x =>
          rw [hg] at this
          obtain ⟨ps1, ps2, e1, e2, e3, e4⟩ := this
          exact ⟨.token t :: ps1, ps2, by simp [e1], by simp [Piece.token?, e2], by simp [e3, Piece.text]; omega, by simp [e4, Piece.lineno]⟩
    | ignored c => exact standsAt_skip rfl (ih _ _ i)
    | newlines c => exact standsAt_skip rfl (ih _ _ i)
    | comment c => exact standsAt_skip rfl (ih _ _ i)
    | quote => exact standsAt_skip rfl (ih _ _ i)
    | illegal c => exact standsAt_skip rfl (ih _ _ i)

theorem placed_length (ps : List Piece) : ∀ (pos line : ℕ), (placed pos line ps).length = (ps.filterMap Piece.token?).length := by
  induction ps with
  | nil => intro pos line; rfl
  | cons q ps ih =>
    intro pos line
    cases q <;> simp [placed, Piece.token?, ih, List.filterMap_cons]

/-- The report for a token. -/
theorem report_spec (dig : Char → Bool) (s : List Char) {pre : List Token} {t : Token} {rest : List Token} (h : tokens dig s = pre ++ t :: rest) :
    ∃ ps1 ps2, (Lexer.run dig .initial s).1 = ps1 ++ .token t :: ps2 ∧ ps1.filterMap Piece.token? = pre ∧ ps2.filterMap Piece.token? = rest ∧
      (let toks := placed 0 (lineAfter 1 (Lexer.run dig .initial s).1) (Lexer.run dig .initial s).1
      (toks[toks.length - (t :: rest).length]?).map (yaccReport s) = some ⟨t.value, ((ps1.map Piece.text).flatten).length,
        lineAfter 1 (Lexer.run dig .initial s).1 + (ps1.map Piece.lineno).sum, findColumn s ((ps1.map Piece.text).flatten).length⟩) := by
  have hl : (placed 0 (lineAfter 1 (Lexer.run dig .initial s).1) (Lexer.run dig .initial s).1).length - (t :: rest).length = pre.length := by
    rw [placed_length]
    change (tokens dig s).length - _ = _
    rw [h]
    simp
  have hsp := placed_spec (Lexer.run dig .initial s).1 0 (lineAfter 1 (Lexer.run dig .initial s).1) pre.length
  simp only [hl]
  cases hg : (placed 0 (lineAfter 1 (Lexer.run dig .initial s).1) (Lexer.run dig .initial s).1)[pre.length]? with
  | none =>
    rw [hg] at hsp
    change (tokens dig s).length ≤ _ at hsp
    rw [h] at hsp
    simp at hsp
  | some x =>
    rw [hg] at hsp
    obtain ⟨t', p, l⟩ := x
    obtain ⟨ps1, ps2, e1, e2, e3, e4⟩ := hsp
    have he : ps1.filterMap Piece.token? ++ t' :: ps2.filterMap Piece.token? = pre ++ t :: rest := by
      rw [← h, tokens, e1]
      simp [Piece.token?]
    obtain ⟨h1, h2⟩ := List.append_inj he e2
    cases h2
    refine ⟨ps1, ps2, e1, h1, rfl, ?_⟩
    simp only at e3 e4
    rw [Nat.zero_add] at e3
    simp [yaccReport, e3, e4]

/-- The first entry of the list of syntax errors. -/
theorem first_report {fl : Flags} {dig : Char → Bool} {s : List Char} {r : YaccReport} {rs : List YaccReport}
    (h : compile fl dig s = .error (.yacc (r :: rs))) : ∃ pre t rest, tokens dig s = pre ++ t :: rest ∧
      (∀ rest' b, ¬ (Yacc.Derives 0 (.n .multilineCode) (.block b) (pre ++ t :: rest') [])) ∧
      ∃ ps1 ps2, (Lexer.run dig .initial s).1 = ps1 ++ .token t :: ps2 ∧
        r = ⟨t.value, ((ps1.map Piece.text).flatten).length, lineAfter 1 (Lexer.run dig .initial s).1 + (ps1.map Piece.lineno).sum,
          findColumn s ((ps1.map Piece.text).flatten).length⟩ := by
  obtain ⟨p, hpar, hend, hblk⟩ := Yacc.parse_ends Yacc.isTable (tokens_ok dig s)
  unfold compile compileWith at h
  rw [Yacc.tables_eq] at h
  split_ifs at h with h1 h2
  · cases h
  · cases h
  unfold compileTree at h
  rw [hpar] at h
  obtain ⟨res, bad⟩ := p
  have hbad : yaccReports dig s bad = r :: rs := by
    split at h
    · rename_i b he
      cases hr : resolve fl b with
      | ok t => rw [hr] at h; cases h
      | error e' => rw [hr] at h; cases h
    · rename_i he
      cases he
      simpa using h
    · cases h
    · cases h
  cases bad with
  | nil => simp [yaccReports] at hbad
  | cons x l =>
    unfold Yacc.parse at hpar
    obtain ⟨l', hl', hx⟩ := Yacc.loop_suffix _ _ _ _ _ hpar
    simp only [List.nil_append] at hl'
    obtain ⟨hne, hsuf⟩ := hx x (by rw [← hl']; simp)
    obtain ⟨t, rest, rfl⟩ := List.exists_cons_of_ne_nil hne
    obtain ⟨pre, hpre, hno⟩ := Yacc.first_error Yacc.isTable _ (Yacc.start (tokens dig s)) [] 0 _ t rest l (.nil _) .nil
      (by simpa [Yacc.start] using tokens_ok dig s) hpar rfl
    refine ⟨pre, t, rest, hpre, ?_, ?_⟩
    · intro rest' b hd
      obtain ⟨n, hn⟩ := (Yacc.run_iff_derives Yacc.isTable _ (.block b) ⟨b, rfl⟩).2 hd
      exact hno rest' n _ hn
    · obtain ⟨ps1, ps2, e1, _, _, e2⟩ := report_spec dig s (hpre : tokens dig s = _)
      refine ⟨ps1, ps2, e1, ?_⟩
      simp only [yaccReports, List.filterMap_cons] at hbad
      rw [e2] at hbad
      simp only [List.cons.injEq] at hbad
      exact hbad.1.symm

/-- **C61** (src/parser/myparser.py:617-622, src/parser/ply/yacc.py:477-540): the first syntax error that is reported is at a token with which no
program can go on after the tokens before it; its text is given, its position, and its column counted from the last newline, from 1. -/
theorem C61_first {fl : Flags} {dig : Char → Bool} {s : List Char} {r : YaccReport} {rs : List YaccReport}
    (h : compile fl dig s = .error (.yacc (r :: rs))) : ∃ pre t rest, tokens dig s = pre ++ t :: rest ∧
      (∀ rest' b, ¬ SourceOf (pre ++ t :: rest') b) ∧ r.value = t.value ∧ (∃ a c, s = a ++ t.value ++ c ∧ r.pos = a.length) ∧
        r.col = ((s.take r.pos).reverse.takeWhile (· ≠ '\n')).length + 1 := by
  obtain ⟨pre, t, rest, h1, h2, ps1, ps2, h3, rfl⟩ := first_report h
  have hs := (C42_lossless dig s).1
  rw [h3] at hs
  have hs' : s = (ps1.map Piece.text).flatten ++ t.value ++ (ps2.map Piece.text).flatten := by rw [← hs]; simp [Piece.text]
  refine ⟨pre, t, rest, h1, ?_, rfl, ⟨_, _, hs', rfl⟩, ?_⟩
  · rintro rest' b ⟨e, hw⟩
    exact h2 rest' b (e ▸ Yacc.derives_of_written hw)
  · refine column s _ ?_
    conv_rhs => rw [hs']
    simp

/-- **C61**: a syntax error is reported for no program. -/
theorem C61_sound {fl : Flags} {dig : Char → Bool} {s : List Char} {rs : List YaccReport} (h : compile fl dig s = .error (.yacc rs)) (b : Block) :
    ¬ SourceOf (tokens dig s) b := by
  intro hb
  have hp := (parse_ok Yacc.isTable (tokens_ok dig s) b).2 hb
  unfold compile compileWith at h
  rw [Yacc.tables_eq] at h
  split_ifs at h with h1 h2
  · cases h
  · cases h
  unfold compileTree at h
  rw [hp] at h
  simp only at h
  cases hr : resolve fl b with
  | ok t => rw [hr] at h; cases h
  | error e' => rw [hr] at h; cases h

/-- **C61** fails for the line: the second pass of the lexer goes on counting where the first has ended (src/parser/parse_and_exec.py:17-29,
src/parser/ply/lex.py:152-155). -/
theorem C61_line_counterexample : compile {} Char.isDigit "X: 1\nY: 2\noutput 2 3\n".toList = .error (.yacc [⟨"3".toList, 19, 6, 10⟩]) ∧
    ("X: 1\nY: 2\noutput 2 3\n".toList.take 19).count '\n' + 1 = 3 := by
  rw [compile, Yacc.tables_eq]
  decide +kernel

theorem newlines_of_pieces {dig : Char → Bool} (hd : AsciiDigits dig) (ps : List Piece) (hf : ∀ p ∈ ps, PieceForm dig p)
    (hc : ∀ t, .comment t ∈ ps → '\n' ∉ t) (hi : .illegal '\n' ∉ ps) : ((ps.map Piece.text).flatten).count '\n' = (ps.map Piece.lineno).sum := by
  induction ps with
  | nil => rfl
  | cons p ps ih =>
    have hp := piece_count hd (hf p List.mem_cons_self) (fun s hs => hc s (by rw [← hs]; exact List.mem_cons_self))
      (fun h => hi (by rw [← h]; exact List.mem_cons_self))
    simp only [List.map_cons, List.flatten_cons, List.count_append, List.sum_cons, hp]
    rw [ih (fun q hq => hf q (List.mem_cons_of_mem _ hq)) (fun t ht => hc t (List.mem_cons_of_mem _ ht))
      (fun h => hi (List.mem_cons_of_mem _ h))]

theorem illegal_reported (data : List Char) (m : Mode) (c : Char) (ps : List Piece) (h : .illegal c ∈ ps) : ∀ pos line, reportsFrom data m pos line ps ≠ [] := by
  induction ps with
  | nil => cases h
  | cons p ps ih =>
    intro pos line he
    rw [reportsFrom, List.append_eq_nil_iff] at he
    rcases List.mem_cons.1 h with rfl | h
    · cases he.1
    · exact ih h _ _ he.2

/-- **C61**, what holds of the line: if no comment contains a newline, the newlines of the whole text have been added to it, so that it is right
in texts of one line.  Missing: all others, for which it is wrong. -/
theorem C61_line_partial {fl : Flags} {dig : Char → Bool} (hd : AsciiDigits dig) {s : List Char} {r : YaccReport} {rs : List YaccReport}
    (h : compile fl dig s = .error (.yacc (r :: rs))) (hc : ∀ t, .comment t ∈ (Lexer.run dig .initial s).1 → '\n' ∉ t) :
    r.line = (s.take r.pos).count '\n' + 1 + s.count '\n' := by
  have hrep : reports dig s = [] := by
    unfold compile compileWith at h
    split_ifs at h with h1 h2
    · cases h
    · cases h
    · simpa using h2
  have hi : .illegal '\n' ∉ (Lexer.run dig .initial s).1 := fun hm => illegal_reported s _ '\n' _ hm 0 1 hrep
  obtain ⟨pre, t, rest, h1, h2, ps1, ps2, h3, rfl⟩ := first_report h
  have hs := (C42_lossless dig s).1
  have hf := (C42_lossless dig s).2
  have hall := newlines_of_pieces hd _ hf hc hi
  have hone := newlines_of_pieces hd ps1 (fun p hp => hf p (by rw [h3]; simp [hp])) (fun t ht => hc t (by rw [h3]; simp [ht]))
    (fun hm => hi (by rw [h3]; simp [hm]))
  rw [hs] at hall
  have hs' : s = (ps1.map Piece.text).flatten ++ (t.value ++ (ps2.map Piece.text).flatten) := by
    rw [← hs, h3]; simp [Piece.text]
  have ht : s.take ((ps1.map Piece.text).flatten).length = (ps1.map Piece.text).flatten := by
    conv_lhs => rw [hs']
    exact List.take_left
  simp only [ht, lineAfter, hone, hall]
  omega

/-- One error on a line of its own; the parser starts again after it and finds another. -/
example : compile {} Char.isDigit "output 2 3 output 1 output 1 ) 5".toList =
    .error (.yacc [⟨"3".toList, 9, 1, 10⟩, ⟨")".toList, 29, 1, 30⟩]) := by
  rw [compile, Yacc.tables_eq]
  decide +kernel

/-- A text that ends too early: no token is reported. -/
example : compile {} Char.isDigit "output 2 +".toList = .error (.yacc []) := by
  rw [compile, Yacc.tables_eq]
  decide +kernel

/-! ## The claims about trees, for source texts -/

/-- **C36** for source texts: a call in a program is linked to a definition in it exactly if both have the same words and argument positions. -/
theorem C36_source (fl : Flags) {dig : Char → Bool} {s : List Char} {b : Block} (h : SourceOf (tokens dig s) b) {st : Stmt} {e : Expr}
    {cs : CallParts} {d : List DefPart} {body : Block} (h1 : StmtIn st b) (h2 : ExprOf e st) (h3 : SubExpr (.call cs) e)
    (h4 : StmtIn (.function d body) b) : mangle fl (d.map DefPart.name) = mangle fl cs.names ↔ defSig d = callSig cs :=
  C36_link fl d cs ((source_names h).2 _ ⟨d, body, h4, rfl⟩) ((source_names h).1 _ ⟨st, e, cs, h1, h2, h3, rfl⟩)

/-- **C35** for source texts: every expression of a program is read by Python as it was meant, if its literals are plain and no operands are of
the kinds that are misread. -/
theorem C35_source_partial (fl : Flags) {s : List Char} {b : Block} (h : SourceOf (tokens Char.isDigit s) b)
    (hlit : LiteralsIn PlainChar (tokens Char.isDigit s)) {st : Stmt} {e : Expr} (h1 : StmtIn st b) (h2 : ExprOf e st)
    (hc : allSub (clean fl) e = true) (f : Py.Expr) : ReadsAs (e.emit fl) f ↔ f = mean fl.style e := by
  have hb : BlockOK Char.isDigit PlainChar b := blockOK_of_formed b h.2 ⟨by rw [h.1]; exact fun _ ht => form_of_tokens ht, by rw [h.1]; exact hlit⟩
  exact C35_clean fl e (grammatical_of_written e (exprOf_written h2 (stmtIn_written h1 h.2))) (exprOf_ok h2 (stmtIn_ok h1 hb)) hc f

/-- **C40** for source texts: the Python text has the block structure of the program, if no literal contains a character that ends a line. -/
theorem C40_source_partial (fl : Flags) {dig : Char → Bool} (hd : AsciiDigits dig) {s t : List Char} (h : compile fl dig s = .ok t)
    (hlit : LiteralsIn LineChar (tokens dig s)) : ∃ b, SourceOf (tokens dig s) b ∧
      readFile t = some (if fl.nonLocal then leaf "vars = {}".toList (blockOutline (passFlags fl b) b) else blockOutline (passFlags fl b) b) := by
  obtain ⟨_, _, b, hs, hr⟩ := (C59_compile fl dig s t).1 h
  have hb : BlockOK dig LineChar b := blockOK_of_formed b hs.2 ⟨by rw [hs.1]; exact fun _ ht => form_of_tokens ht, by rw [hs.1]; exact hlit⟩
  exact ⟨b, hs, C40_blocks_partial hd fl b hb t hr⟩

end PythonDice
