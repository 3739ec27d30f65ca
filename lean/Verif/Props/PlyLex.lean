import Verif.Proofs.PlyLex

/-!
# C99: PLY makes of the rules the tokenizer that is meant
-/

namespace PythonDice

open PlyLex Regex

variable {dig : Char → Bool}

/-! ## Regular expressions, stated on their own -/

/-- The character is the member of a set, lies in the range, or is a digit. -/
def ItemOf (dig : Char → Bool) : Item → Char → Prop
  | .one a, c => c = a
  | .span a b, c => a ≤ c ∧ c ≤ b
  | .digit, c => dig c = true

/-- The texts a regular expression stands for. -/
inductive InLanguage (dig : Char → Bool) : Re → List Char → Prop
  | empty : InLanguage dig .empty []
  | pos {items : List Item} {c : Char} : (∃ i ∈ items, ItemOf dig i c) → InLanguage dig (.set false items) [c]
  | neg {items : List Item} {c : Char} : (¬∃ i ∈ items, ItemOf dig i c) → InLanguage dig (.set true items) [c]
  | cat {a b : Re} {u v : List Char} : InLanguage dig a u → InLanguage dig b v → InLanguage dig (.cat a b) (u ++ v)
  | left {a b : Re} {u : List Char} : InLanguage dig a u → InLanguage dig (.alt a b) u
  | right {a b : Re} {u : List Char} : InLanguage dig b u → InLanguage dig (.alt a b) u
  | none {g : Bool} {a : Re} : InLanguage dig (.star g a) []
  | more {g : Bool} {a : Re} {u v : List Char} : InLanguage dig a u → InLanguage dig (.star g a) v → InLanguage dig (.star g a) (u ++ v)
  | group {i : ℕ} {a : Re} {u : List Char} : InLanguage dig a u → InLanguage dig (.group i a) u

theorem itemOf_iff (i : Item) (c : Char) : i.has dig c = true ↔ ItemOf dig i c := by
  cases i with
  | one a => simp [Item.has, ItemOf]
  | span a b =>
    simp only [Item.has, decide_eq_true_eq, ItemOf, Char.le_def, UInt32.le_iff_toNat_le]
    rfl
  | digit => rfl

theorem inSet_iff (neg : Bool) (items : List Item) (c : Char) :
    inSet dig neg items c = true ↔ InLanguage dig (.set neg items) [c] := by
  have h : (items.any fun i => i.has dig c) = true ↔ ∃ i ∈ items, ItemOf dig i c := by
    simp only [List.any_eq_true, itemOf_iff]
  cases neg with
  | false =>
    rw [inSet, bne_iff_ne, ne_eq, Bool.not_eq_false, h]
    exact ⟨.pos, fun H => by cases H; assumption⟩
  | true =>
    rw [inSet, bne_iff_ne, ne_eq, h]
    exact ⟨.neg, fun H => by cases H; assumption⟩

theorem repeats_self (f : Spot → List Spot) (g : Bool) (n : ℕ) (x : Spot) : x ∈ repeats f g n x := by
  cases n with
  | zero => exact List.mem_singleton_self x
  | succ n => cases g <;> simp [repeats]

theorem mem_repeats (f : Spot → List Spot) (g : Bool) (n : ℕ) (x y : Spot) :
    y ∈ repeats f g (n + 1) x ↔ (∃ z ∈ f x, z.1.length < x.1.length ∧ y ∈ repeats f g n z) ∨ y = x := by
  cases g <;> simp [repeats, and_assoc, or_comm]

theorem ways_sound : ∀ (r : Re) (x y : Spot), y ∈ ways dig r x → ∃ w, x.1 = w ++ y.1 ∧ InLanguage dig r w
  | .empty, x, y, h => by
      rw [ways, List.mem_singleton] at h
      exact ⟨[], by rw [h]; rfl, .empty⟩
  | .set neg items, (s, i), y, h => by
      cases s with
      | nil => exact absurd h (by simp [ways])
      | cons c cs =>
        rw [ways_set] at h
        split_ifs at h with hc
        · rw [List.mem_singleton] at h
          exact ⟨[c], by rw [h]; rfl, (inSet_iff _ _ _).1 hc⟩
        · exact absurd h List.not_mem_nil
  | .cat a b, x, y, h => by
      rw [ways, List.mem_flatMap] at h
      obtain ⟨z, hz, hy⟩ := h
      obtain ⟨u, hu, iu⟩ := ways_sound a x z hz
      obtain ⟨v, hv, iv⟩ := ways_sound b z y hy
      exact ⟨u ++ v, by rw [hu, hv, List.append_assoc], .cat iu iv⟩
  | .alt a b, x, y, h => by
      rw [ways, List.mem_append] at h
      rcases h with h | h
      · obtain ⟨u, hu, iu⟩ := ways_sound a x y h
        exact ⟨u, hu, .left iu⟩
      · obtain ⟨u, hu, iu⟩ := ways_sound b x y h
        exact ⟨u, hu, .right iu⟩
  | .star g a, x, y, h => by
      rw [ways] at h
      have key : ∀ (n : ℕ) (x : Spot), y ∈ repeats (ways dig a) g n x → ∃ w, x.1 = w ++ y.1 ∧ InLanguage dig (.star g a) w := by
        intro n
        induction n with
        | zero =>
          intro x hx
          rw [repeats, List.mem_singleton] at hx
          exact ⟨[], by rw [hx]; rfl, .none⟩
        | succ n ih =>
          intro x hx
          rcases (mem_repeats _ _ _ _ _).1 hx with ⟨z, hz, _, hy⟩ | hx
          · obtain ⟨u, hu, iu⟩ := ways_sound a x z hz
            obtain ⟨v, hv, iv⟩ := ih z hy
            exact ⟨u ++ v, by rw [hu, hv, List.append_assoc], .more iu iv⟩
          · exact ⟨[], by rw [hx]; rfl, .none⟩
      exact key _ x h
  | .group i a, x, y, h => by
      rw [ways, List.mem_map] at h
      obtain ⟨z, hz, rfl⟩ := h
      obtain ⟨u, hu, iu⟩ := ways_sound a x z hz
      exact ⟨u, hu, .group iu⟩

theorem ways_complete : ∀ (r : Re) (w : List Char), InLanguage dig r w → ∀ (rest : List Char) (i : Option ℕ),
    ∃ j, (rest, j) ∈ ways dig r (w ++ rest, i)
  | .empty, w, h, rest, i => by
      cases h
      exact ⟨i, List.mem_singleton_self _⟩
  | .set neg items, w, h, rest, i => by
      have hw : ∃ c, w = [c] := by cases h <;> exact ⟨_, rfl⟩
      obtain ⟨c, rfl⟩ := hw
      refine ⟨i, ?_⟩
      rw [List.singleton_append, ways_set, if_pos ((inSet_iff _ _ _).2 h)]
      exact List.mem_singleton_self _
  | .cat a b, w, h, rest, i => by
      cases h with
      | cat hu hv =>
        rename_i u v
        obtain ⟨j, hj⟩ := ways_complete a u hu (v ++ rest) i
        obtain ⟨k, hk⟩ := ways_complete b v hv rest j
        refine ⟨k, ?_⟩
        rw [ways, List.mem_flatMap, List.append_assoc]
        exact ⟨_, hj, hk⟩
  | .alt a b, w, h, rest, i => by
      cases h with
      | left hu =>
        obtain ⟨j, hj⟩ := ways_complete a w hu rest i
        exact ⟨j, by rw [ways, List.mem_append]; exact Or.inl hj⟩
      | right hu =>
        obtain ⟨j, hj⟩ := ways_complete b w hu rest i
        exact ⟨j, by rw [ways, List.mem_append]; exact Or.inr hj⟩
  | .star g a, w, h, rest, i => by
      have key : ∀ (r : Re) (w : List Char), InLanguage dig r w → r = .star g a → ∀ (n : ℕ) (i : Option ℕ), (w ++ rest).length ≤ n →
          ∃ j, (rest, j) ∈ repeats (ways dig a) g n (w ++ rest, i) := by
        intro r w h
        induction h with
        | none =>
          intro _ n i _
          exact ⟨i, repeats_self _ _ _ _⟩
        | @more g' a' u v hu hv _ ih =>
          intro e n i hn
          injection e with e1 e2
          subst e1 e2
          by_cases hnil : u = []
          · subst hnil
            exact ih rfl n i hn
          · have hpos : 0 < u.length := List.length_pos_iff.2 hnil
            rw [List.append_assoc, List.length_append] at hn
            obtain ⟨n, rfl⟩ : ∃ n', n = n' + 1 := ⟨n - 1, by omega⟩
            obtain ⟨j, hj⟩ := ways_complete a' u hu (v ++ rest) i
            obtain ⟨k, hk⟩ := ih rfl n j (by omega)
            refine ⟨k, (mem_repeats _ _ _ _ _).2 (Or.inl ⟨_, ?_, ?_, hk⟩)⟩
            · rw [List.append_assoc]
              exact hj
            · show (v ++ rest).length < (u ++ v ++ rest).length
              rw [List.append_assoc, List.length_append (as := u)]
              omega
        | _ => intro e; exact absurd e (by simp)
      exact key _ w h rfl _ i le_rfl
  | .group k a, w, h, rest, i => by
      cases h with
      | group hu =>
        obtain ⟨j, hj⟩ := ways_complete a w hu rest i
        exact ⟨some k, by rw [ways, List.mem_map]; exact ⟨_, hj, rfl⟩⟩

/-- The matcher tries exactly the prefixes that belong to the language of the regular expression. -/
theorem C99_language (r : Re) (s rest : List Char) (i : Option ℕ) :
    (∃ j, (rest, j) ∈ ways dig r (s, i)) ↔ ∃ w, s = w ++ rest ∧ InLanguage dig r w := by
  constructor
  · rintro ⟨j, h⟩
    exact ways_sound r _ _ h
  · rintro ⟨w, rfl, h⟩
    exact ways_complete r w h rest i

/-! ## The tokenizer -/

open Lexer (Mode Kind Token Piece tokens reports)

/-- `lex()` accepts the rules, whatever the digits are, and there is a master regular expression for each state. -/
theorem C99_built (dig : Char → Bool) : ∃ ts, build dig symbols = some ts ∧ ts.map (·.state) = [modeName .initial, modeName .instring] :=
  ⟨_, build_eq dig, rfl⟩

/-- The master regular expression of a state that is built from the rules tries them in this order. -/
theorem C99_order : (rules symbols (modeName .initial)).map (fun r => String.ofList r.type) =
      ["ignore_COMMENT", "NUMBER", "LOWERNAME", "begin_instring", "ignore_newline", "UPPERNAME", "DOUBLE_DOT", "PLUS", "TIMES", "POWER",
        "NOTEQUALS", "AT", "HASH", "OR", "DOT", "LPAREN", "RPAREN", "LBRACE", "RBRACE", "LBRACKET", "RBRACKET", "MINUS", "DIVIDE", "COLON",
        "LESS", "GREATER", "EQUALS", "AND", "EXCLAMATION", "COMMA"] ∧
    (rules symbols (modeName .instring)).map (fun r => String.ofList r.type) = ["end", "INSTRING_VAR", "INSTRING_NONVAR", "INSTRING_ANY"] := by
  decide +kernel

/-- Every run of PLY's lexer over a text, from any state and line it is in, gives the tokens that the direct description of the tokenizer
gives, with their positions and lines; it ends in the same state, on the same line and with the same reports. -/
theorem C99_tokenizer {ts : List Table} (h : build dig symbols = some ts) (m : Mode) (l : Lex) (hs : l.state = modeName m) (s : List Char) :
    doLex dig ts s l =
      ((Compiler.placed 0 l.lineno (Lexer.run dig m s).1).map tokOf,
        ⟨s.length, Compiler.lineAfter l.lineno (Lexer.run dig m s).1, modeName (Lexer.run dig m s).2,
          l.illegal ++ Lexer.reportsFrom s (Lexer.run dig m s).2 0 l.lineno (Lexer.run dig m s).1⟩) := by
  rw [build_eq] at h
  cases h
  exact doLex_eq s m l hs

theorem map_placed (ps : List Piece) : ∀ (pos line : ℕ), (Compiler.placed pos line ps).map (·.1) = ps.filterMap Piece.token? := by
  induction ps with
  | nil => intro pos line; rfl
  | cons p ps ih =>
    intro pos line
    cases p with
    | token t => exact congrArg (t :: ·) (ih _ _)
    | _ => exact ih _ _

/-- With a new lexer: the types and values of the tokens, and `LEX_ILLEGAL_CHARS`, are those the theorems about `compile` speak of. -/
theorem C99_new {ts : List Table} (h : build dig symbols = some ts) (s : List Char) :
    (doLex dig ts s .new).1.map (fun t => (t.type, t.value)) = (tokens dig s).map (fun t => (kindName t.kind, t.value)) ∧
      (doLex dig ts s .new).2.illegal = reports dig s := by
  rw [C99_tokenizer h .initial .new rfl s]
  refine ⟨?_, rfl⟩
  rw [tokens, ← map_placed _ 0 1, List.map_map, List.map_map]
  rfl

/-- If there are no reports, the second pass over the text (`do_yacc`) gives the same tokens in the same places; only the lines go on where the
first pass has ended. -/
theorem C99_second_pass {ts : List Table} (h : build dig symbols = some ts) (s : List Char) (hr : reports dig s = []) :
    let second := doLex dig ts s (doLex dig ts s .new).2
    second.1 = (doLex dig ts s .new).1.map (fun t => { t with lineno := t.lineno + ((doLex dig ts s .new).2.lineno - 1) }) ∧
      second.2.illegal = [] := by
  have hfin : (Lexer.run dig .initial s).2 = .initial := by
    have key : ∀ (ps : List Piece) (m : Mode) (pos line : ℕ), Lexer.reportsFrom s m pos line ps = [] → m = .initial := by
      intro ps
      induction ps with
      | nil =>
        intro m pos line h
        cases m with
        | initial => rfl
        | instring => exact absurd h (by simp [Lexer.reportsFrom])
      | cons p ps ih =>
        intro m pos line h
        rw [Lexer.reportsFrom, List.append_eq_nil_iff] at h
        exact ih m _ _ h.2
    exact key _ _ 0 1 hr
  have hshift : ∀ (ps : List Piece) (pos line k : ℕ), (Compiler.placed pos (line + k) ps).map tokOf =
      ((Compiler.placed pos line ps).map tokOf).map fun t => { t with lineno := t.lineno + k } := by
    intro ps
    induction ps with
    | nil => intro pos line k; rfl
    | cons p ps ih =>
      intro pos line k
      cases p with
      | token t => exact congrArg (_ :: ·) (ih _ _ _)
      | _ =>
        simp only [Compiler.placed, Nat.add_right_comm line k]
        exact ih _ _ _
  have hnone : ∀ (ps : List Piece) (m : Mode) (pos line line' : ℕ), Lexer.reportsFrom s m pos line ps = [] →
      Lexer.reportsFrom s m pos line' ps = [] := by
    intro ps
    induction ps with
    | nil =>
      intro m pos line line' h
      cases m with
      | initial => rfl
      | instring => exact absurd h (by simp [Lexer.reportsFrom])
    | cons p ps ih =>
      intro m pos line line' h
      rw [Lexer.reportsFrom, List.append_eq_nil_iff] at h ⊢
      refine ⟨?_, ih m _ _ _ h.2⟩
      cases p with
      | illegal c => exact absurd h.1 (by simp [Piece.reports])
      | _ => rfl
  have h1 := C99_tokenizer h .initial .new rfl s
  dsimp only
  rw [h1]
  dsimp only
  rw [hfin]
  rw [C99_tokenizer h .initial _ rfl s]
  dsimp only
  have hline : Compiler.lineAfter Lex.new.lineno (Lexer.run dig .initial s).1 =
      Lex.new.lineno + (Compiler.lineAfter Lex.new.lineno (Lexer.run dig .initial s).1 - 1) := by
    rw [Compiler.lineAfter, show Lex.new.lineno = 1 from rfl]
    omega
  constructor
  · rw [← hshift, ← hline]
  · have hrep : Lexer.reportsFrom s (Lexer.run dig .initial s).2 0 1 (Lexer.run dig .initial s).1 = [] := hr
    rw [hfin] at hrep
    rw [show Lex.new.lineno = 1 from rfl, hrep, hfin, hnone _ _ _ _ _ hrep]
    rfl

/-! ## Examples -/

-- `_statetoken` on the names of the rules
example : stateToken "t_ignore_COMMENT".toList = (["INITIAL".toList], "ignore_COMMENT".toList) ∧
    stateToken "t_begin_instring".toList = (["INITIAL".toList], "begin_instring".toList) ∧
    stateToken "t_instring_INSTRING_VAR".toList = (["instring".toList], "INSTRING_VAR".toList) ∧
    stateToken "t_ANY_error".toList = (stateNames, "error".toList) ∧ stateToken "t_ignore".toList = (["INITIAL".toList], "ignore".toList) := by
  decide +kernel

-- tokens of a text with a string, a comment and an illegal character
example : ((build Char.isDigit symbols).map fun ts => (doLex Char.isDigit ts "3d6!=\"a[X]\"\\c\\\n..?".toList .new)) =
    some ([⟨"NUMBER".toList, ['3'], 1, 0⟩, ⟨"D_OP".toList, ['d'], 1, 1⟩, ⟨"NUMBER".toList, ['6'], 1, 2⟩,
      ⟨"NOTEQUALS".toList, ['!', '='], 1, 3⟩, ⟨"INSTRING_ANY".toList, ['a'], 1, 6⟩, ⟨"INSTRING_VAR".toList, ['[', 'X', ']'], 1, 7⟩,
      ⟨"DOUBLE_DOT".toList, ['.', '.'], 2, 15⟩], ⟨18, 2, "INITIAL".toList, [⟨some '?', 17, 2, 3⟩]⟩) := by
  decide +kernel

-- the longer of two symbols has to be tried first, as PLY does: the order of alternatives counts
example : ((Regex.compile r"(?P<a>!)|(?P<b>!=)".toList).map fun e => matchAt Char.isDigit e.1 "!=".toList) = some (some (['='], some 1)) ∧
    ((Regex.compile r"(?P<b>!=)|(?P<a>!)".toList).map fun e => matchAt Char.isDigit e.1 "!=".toList) = some (some ([], some 1)) := by
  decide +kernel

-- `lastindex` is the group closed last: the rule, not the group inside it
example : ((Regex.compile r"(?P<c>\\(.|\n)*?\\)|(?P<d>x)".toList).map fun e =>
      ["\\a\n\\b\\".toList, ['x']].map (matchAt Char.isDigit e.1)) =
    some [some (['b', '\\'], some 1), some ([], some 3)] := by
  decide +kernel

-- with `re.VERBOSE` a bare `#` starts a comment: the rule would match the empty text and `lex()` would refuse it
example : valid Char.isDigit ⟨"t_HASH".toList, "HASH".toList, "#".toList, none⟩ = false ∧
    valid Char.isDigit ⟨"t_HASH".toList, "HASH".toList, r"\#".toList, none⟩ = true := by
  decide +kernel

-- an unclosed string leaves the lexer in the state `instring`; the next text is read as the rest of the string
example : ((build Char.isDigit symbols).map fun ts =>
      let first := doLex Char.isDigit ts "\"a".toList .new
      (first.2, (doLex Char.isDigit ts "1+2".toList first.2).1)) =
    some (⟨2, 1, "instring".toList, [⟨none, 2, 1, 3⟩]⟩, [⟨"INSTRING_ANY".toList, ['1', '+', '2'], 1, 0⟩]) := by
  decide +kernel

-- a text without reports, for `C99_second_pass`
example : reports Char.isDigit "1\n+2".toList = [] := by decide +kernel

-- a member of a language, for `C99_language`
example : InLanguage Char.isDigit (.cat (.set false [.digit]) (.star true (.set false [.digit]))) ['4', '2'] :=
  .cat (u := ['4']) (v := ['2']) (.pos ⟨.digit, List.mem_singleton_self _, rfl⟩)
    (.more (u := ['2']) (v := []) (.pos ⟨.digit, List.mem_singleton_self _, rfl⟩) .none)

end PythonDice
