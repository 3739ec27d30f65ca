import Verif.Model.PlyLex
import Verif.Model.Compile
import Verif.Proofs.Lexer

/-!
# Lemmas about PLY's tokenizer
-/

namespace PythonDice.PlyLex

open Regex Lexer

variable {dig : Char → Bool}

/-! ## Matching -/

theorem head_append {α : Type} (a b : List α) : (a ++ b).head? = a.head?.or b.head? := by cases a <;> rfl

theorem head_flatMap {α β : Type} (f : α → List β) (a : α) (l : List α) :
    ((a :: l).flatMap f).head? = (f a).head?.or (l.flatMap f).head? := by
  rw [List.flatMap_cons, head_append]

/-- The text left by the first way to match. -/
def first (dig : Char → Bool) (r : Re) (s : Regex.Text) : Option Regex.Text := (ways dig r (s, none)).head?.map (·.1)

/-- A character. -/
def one (c : Char) : Re := .set false [.one c]

/-- One or more of the characters of a set. -/
def runOf (neg : Bool) (items : List Item) : Re := .cat (.set neg items) (.star true (.set neg items))

/-- Alternatives, each in its group. -/
def altsRe : ℕ × Re → List (ℕ × Re) → Re
  | e, [] => .group e.1 e.2
  | e, e' :: l => .alt (.group e.1 e.2) (altsRe e' l)

theorem ways_group (i : ℕ) (r : Re) (s : Regex.Text) :
    (ways dig (.group i r) (s, none)).head? = (first dig r s).map fun t => (t, some i) := by
  rw [ways, List.head?_map, first, Option.map_map]
  rfl

theorem matchAt_alts (e : ℕ × Re) (l : List (ℕ × Re)) (s : Regex.Text) :
    matchAt dig (altsRe e l) s = (e :: l).findSome? fun e => (first dig e.2 s).map fun t => (t, some e.1) := by
  induction l generalizing e with
  | nil =>
    rw [altsRe, matchAt, ways_group, List.findSome?_cons]
    cases first dig e.2 s <;> rfl
  | cons e' l ih =>
    rw [altsRe, matchAt, ways, head_append, ways_group, List.findSome?_cons]
    have h := ih e'
    rw [matchAt] at h
    rw [h]
    cases first dig e.2 s <;> rfl

theorem ways_set (neg : Bool) (items : List Item) (c : Char) (cs : Regex.Text) (i : Option ℕ) :
    ways dig (.set neg items) (c :: cs, i) = if inSet dig neg items c then [(cs, i)] else [] := rfl

theorem inSet_one (a c : Char) : inSet dig false [.one a] c = (c == a) := by
  simp [inSet, Item.has]

theorem ways_one (a c : Char) (cs : Regex.Text) (i : Option ℕ) :
    ways dig (one a) (c :: cs, i) = if c = a then [(cs, i)] else [] := by
  rw [one, ways_set, inSet_one]
  simp

theorem first_one (a c : Char) (cs : Regex.Text) : first dig (one a) (c :: cs) = if c = a then some cs else none := by
  rw [first, ways_one]
  split_ifs <;> rfl

theorem first_two (a b c : Char) (cs : Regex.Text) :
    first dig (.cat (one a) (one b)) (c :: cs) = if c = a ∧ cs.head? = some b then some cs.tail else none := by
  rw [first, ways, ways_one]
  by_cases h : c = a
  · cases cs with
    | nil => simp [h, one, ways]
    | cons d ds =>
      rw [if_pos h, List.flatMap_singleton, ways_one]
      by_cases h' : d = b <;> simp [h, h']
  · simp [h]

/-- The ways to repeat a set greedily. -/
theorem repeats_cons (neg : Bool) (items : List Item) (n : ℕ) (c : Char) (cs : Regex.Text) (i : Option ℕ) (greedy : Bool) :
    repeats (ways dig (.set neg items)) greedy (n + 1) (c :: cs, i) =
      if inSet dig neg items c then
        (if greedy then repeats (ways dig (.set neg items)) greedy n (cs, i) ++ [(c :: cs, i)]
          else (c :: cs, i) :: repeats (ways dig (.set neg items)) greedy n (cs, i))
      else [(c :: cs, i)] := by
  rw [repeats, ways_set]
  by_cases h : inSet dig neg items c = true <;> cases greedy <;> simp [h]

theorem head_repeats (neg : Bool) (items : List Item) (i : Option ℕ) (s : Regex.Text) :
    (repeats (ways dig (.set neg items)) true s.length (s, i)).head? = some (s.dropWhile (inSet dig neg items), i) := by
  induction s with
  | nil => rfl
  | cons c cs ih =>
    rw [List.length_cons, repeats_cons]
    by_cases h : inSet dig neg items c = true
    · rw [if_pos h, if_pos rfl, head_append, ih, List.dropWhile_cons, if_pos h]
      rfl
    · rw [if_neg h, List.dropWhile_cons, if_neg h]
      rfl

theorem first_run (neg : Bool) (items : List Item) (c : Char) (cs : Regex.Text) :
    first dig (runOf neg items) (c :: cs) =
      if inSet dig neg items c then some (cs.dropWhile (inSet dig neg items)) else none := by
  rw [first, runOf, ways, ways_set]
  split_ifs
  · rw [List.flatMap_singleton, ways, head_repeats]
    rfl
  · rfl

theorem first_after (a : Char) (neg : Bool) (items : List Item) (c : Char) (cs : Regex.Text) :
    first dig (.cat (one a) (.star true (.set neg items))) (c :: cs) =
      if c = a then some (cs.dropWhile (inSet dig neg items)) else none := by
  rw [first, ways, ways_one]
  split_ifs
  · rw [List.flatMap_singleton, ways, head_repeats]
    rfl
  · rfl

/-- A greedy run followed by a character that is not in the set. -/
theorem head_run_one (neg : Bool) (items : List Item) (a : Char) (ha : inSet dig neg items a = false) (i : Option ℕ) (s : Regex.Text) :
    ((repeats (ways dig (.set neg items)) true s.length (s, i)).flatMap (ways dig (one a))).head? =
      if (s.dropWhile (inSet dig neg items)).head? = some a then some ((s.dropWhile (inSet dig neg items)).tail, i) else none := by
  induction s with
  | nil => rfl
  | cons c cs ih =>
    rw [List.length_cons, repeats_cons]
    by_cases h : inSet dig neg items c = true
    · have hc : c ≠ a := by
        rintro rfl
        rw [ha] at h
        exact Bool.noConfusion h
      rw [if_pos h, if_pos rfl, List.flatMap_append, head_append, ih, List.dropWhile_cons, if_pos h, List.flatMap_singleton, ways_one,
        if_neg hc, List.head?_nil, Option.or_none]
    · rw [if_neg h, List.dropWhile_cons, if_neg h, List.flatMap_singleton, ways_one]
      by_cases hc : c = a <;> simp [hc]

/-- `\[[A-Z_]+\]` and the like. -/
theorem first_bracketed (a b : Char) (neg : Bool) (items : List Item) (hb : inSet dig neg items b = false) (c : Char) (cs : Regex.Text) :
    first dig (.cat (.cat (one a) (runOf neg items)) (one b)) (c :: cs) =
      if c = a ∧ cs.takeWhile (inSet dig neg items) ≠ [] ∧ (cs.dropWhile (inSet dig neg items)).head? = some b then
        some (cs.dropWhile (inSet dig neg items)).tail else none := by
  rw [first, ways, ways, ways_one]
  by_cases h : c = a
  · rw [if_pos h, List.flatMap_singleton]
    cases cs with
    | nil => simp [runOf, ways]
    | cons d ds =>
      rw [runOf, ways, ways_set]
      by_cases hd : inSet dig neg items d = true
      · rw [if_pos hd, List.flatMap_singleton, ways, head_run_one neg items b hb, List.takeWhile_cons, if_pos hd, List.dropWhile_cons, if_pos hd]
        by_cases h' : (ds.dropWhile (inSet dig neg items)).head? = some b <;> simp [h, h']
      · rw [if_neg hd, List.takeWhile_cons, if_neg hd]
        simp
  · rw [if_neg h]
    simp [h]

/-- `(.|\n)` matches every character. -/
theorem ways_any (j : ℕ) (c : Char) (cs : Regex.Text) (i : Option ℕ) :
    ways dig (.group j (.alt (.set true [.one '\n']) (one '\n'))) (c :: cs, i) = [(cs, some j)] := by
  rw [ways, ways, ways_one, ways_set]
  by_cases h : c = '\n' <;> simp [h, inSet, Item.has]

/-- The lazy repetition of any character up to a character. -/
theorem head_lazy (j : ℕ) (a : Char) (i : Option ℕ) (s : Regex.Text) :
    (((repeats (ways dig (.group j (.alt (.set true [.one '\n']) (one '\n')))) false s.length (s, i)).flatMap (ways dig (one a))).head?).map
      (·.1) = if a ∈ s then some (s.dropWhile (· != a)).tail else none := by
  induction s generalizing i with
  | nil => rfl
  | cons c cs ih =>
    rw [List.length_cons, repeats, ways_any]
    have hf : ([((cs, some j) : Spot)].filter fun y => decide (y.1.length < (c :: cs).length)) = [(cs, some j)] := by simp
    dsimp only
    rw [if_neg (by decide), head_flatMap, hf, List.flatMap_singleton, ways_one]
    by_cases hc : c = a
    · subst hc
      simp
    · rw [if_neg hc, List.head?_nil, Option.none_or, ih]
      have hc' : a ≠ c := fun h => hc h.symm
      have h3 : (c != a) = true := by simpa using hc
      simp [hc', h3]

theorem first_comment (j : ℕ) (a c : Char) (cs : Regex.Text) :
    first dig (.cat (.cat (one a) (.star false (.group j (.alt (.set true [.one '\n']) (one '\n'))))) (one a)) (c :: cs) =
      if c = a ∧ a ∈ cs then some (cs.dropWhile (· != a)).tail else none := by
  rw [first, ways, ways, ways_one]
  by_cases h : c = a
  · rw [if_pos h, List.flatMap_singleton, ways, head_lazy]
    simp [h]
  · rw [if_neg h]
    simp [h]

/-! ## No rule matches the empty text -/

theorem ways_nil (dig dig' : Char → Bool) : ∀ (r : Re) (i : Option ℕ),
    ways dig r ([], i) = ways dig' r ([], i) ∧ ∀ y ∈ ways dig r ([], i), y.1 = []
  | .empty, i => ⟨rfl, fun y hy => by rw [ways, List.mem_singleton] at hy; rw [hy]⟩
  | .set _ _, i => ⟨rfl, fun y hy => absurd hy (by simp [ways])⟩
  | .star g a, i => ⟨rfl, fun y hy => by
      have : y ∈ [(([], i) : Spot)] := hy
      rw [List.mem_singleton] at this
      rw [this]⟩
  | .group j a, i => by
      obtain ⟨h1, h2⟩ := ways_nil dig dig' a i
      refine ⟨by rw [ways, ways, h1], fun y hy => ?_⟩
      rw [ways, List.mem_map] at hy
      obtain ⟨z, hz, rfl⟩ := hy
      exact h2 z hz
  | .alt a b, i => by
      obtain ⟨h1, h2⟩ := ways_nil dig dig' a i
      obtain ⟨h3, h4⟩ := ways_nil dig dig' b i
      refine ⟨by rw [ways, ways, h1, h3], fun y hy => ?_⟩
      rw [ways, List.mem_append] at hy
      exact hy.elim (h2 y) (h4 y)
  | .cat a b, i => by
      obtain ⟨h1, h2⟩ := ways_nil dig dig' a i
      have h3 := ways_nil dig dig' b
      refine ⟨?_, fun y hy => ?_⟩
      · rw [ways, ways, ← h1]
        refine List.flatMap_congr fun y hy => ?_
        obtain ⟨t, k⟩ := y
        have ht : t = [] := h2 _ hy
        subst ht
        exact (h3 k).1
      · rw [ways, List.mem_flatMap] at hy
        obtain ⟨z, hz, hy⟩ := hy
        obtain ⟨t, k⟩ := z
        have ht : t = [] := h2 _ hz
        subst ht
        exact (h3 k).2 y hy

theorem valid_eq (dig dig' : Char → Bool) (r : Rule) : valid dig r = valid dig' r := by
  unfold valid
  cases Regex.compile r.master with
  | none => rfl
  | some e => simp only [matchAt, (ways_nil dig dig' e.1 none).1]

/-! ## The tables -/

/-- The rules of `INITIAL` with the numbers of their groups. -/
def restI : List (ℕ × Re) :=
  [ (3, runOf false [.digit]), (4, .cat (.set false [.span 'a' 'z']) (.star true (.set false [.span 'a' 'z']))), (5, one '"'),
    (6, runOf false [.one '\n']), (7, runOf false [.span 'A' 'Z', .one '_']), (8, .cat (one '.') (one '.')),
    (9, one '+'), (10, one '*'), (11, one '^'), (12, .cat (one '!') (one '=')), (13, one '@'), (14, one '#'), (15, one '|'), (16, one '.'),
    (17, one '('), (18, one ')'), (19, one '{'), (20, one '}'), (21, one '['), (22, one ']'), (23, one '-'), (24, one '/'), (25, one ':'),
    (26, one '<'), (27, one '>'), (28, one '='), (29, one '&'), (30, one '!'), (31, one ',') ]

/-- The rule for comments. -/
def commentI : ℕ × Re :=
  (1, .cat (.cat (one '\\') (.star false (.group 2 (.alt (.set true [.one '\n']) (one '\n'))))) (one '\\'))

/-- The table of `INITIAL`. -/
def tableI : Table where
  state := "INITIAL".toList
  regex := altsRe commentI restI
  index :=
    [ (1, some .comment, some "ignore_COMMENT".toList), (3, some .number, some "NUMBER".toList),
      (4, some .lowername, some "LOWERNAME".toList), (5, some .beginString, some "begin_instring".toList),
      (6, some .newlines, some "ignore_newline".toList), (7, none, some "UPPERNAME".toList), (8, none, some "DOUBLE_DOT".toList),
      (9, none, some "PLUS".toList), (10, none, some "TIMES".toList), (11, none, some "POWER".toList),
      (12, none, some "NOTEQUALS".toList), (13, none, some "AT".toList), (14, none, some "HASH".toList), (15, none, some "OR".toList),
      (16, none, some "DOT".toList), (17, none, some "LPAREN".toList), (18, none, some "RPAREN".toList),
      (19, none, some "LBRACE".toList), (20, none, some "RBRACE".toList), (21, none, some "LBRACKET".toList),
      (22, none, some "RBRACKET".toList), (23, none, some "MINUS".toList), (24, none, some "DIVIDE".toList),
      (25, none, some "COLON".toList), (26, none, some "LESS".toList), (27, none, some "GREATER".toList),
      (28, none, some "EQUALS".toList), (29, none, some "AND".toList), (30, none, some "EXCLAMATION".toList),
      (31, none, some "COMMA".toList) ]
  ignore := [' ', '\t']
  error := some .error
  eof := some .eof

/-- The items of `[^\n"[]`. -/
def bodyItems : List Item := [.one '\n', .one '"', .one '[']

/-- The table of `instring`. -/
def tableS : Table where
  state := "instring".toList
  regex := altsRe (1, one '"') [(2, .cat (.cat (one '[') (runOf false [.span 'A' 'Z', .one '_'])) (one ']')),
    (3, .cat (one '[') (.star true (.set true bodyItems))), (4, runOf true bodyItems)]
  index :=
    [ (1, some .endString, some "end".toList), (2, none, some "INSTRING_VAR".toList), (3, none, some "INSTRING_NONVAR".toList),
      (4, none, some "INSTRING_ANY".toList) ]
  ignore := []
  error := some .error
  eof := some .eof

theorem table_initial : table symbols "INITIAL".toList = some tableI := by decide +kernel

theorem table_instring : table symbols "instring".toList = some tableS := by decide +kernel

theorem all_valid (dig : Char → Bool) : (stateNames.all fun st => (rules symbols st).all (valid dig)) = true := by
  have h : (stateNames.all fun st => (rules symbols st).all (valid fun _ => false)) = true := by decide +kernel
  have h' : valid dig = valid fun _ => false := funext fun r => valid_eq dig _ r
  rw [h']
  exact h

theorem build_eq (dig : Char → Bool) : build dig symbols = some [tableI, tableS] := by
  rw [build, if_pos (all_valid dig)]
  show [_, _].mapM (table symbols) = _
  simp only [List.mapM_cons, List.mapM_nil, table_initial, table_instring]
  rfl

/-! ## One turn -/

/-- The name of a state. -/
def modeName : Mode → Lexer.Text
  | .initial => "INITIAL".toList
  | .instring => "instring".toList

/-- The type of a token, src/parser/myparser.py:20-33. -/
def kindName : Kind → Lexer.Text
  | .plus => "PLUS".toList | .minus => "MINUS".toList | .times => "TIMES".toList | .divide => "DIVIDE".toList | .power => "POWER".toList
  | .colon => "COLON".toList | .less => "LESS".toList | .greater => "GREATER".toList | .equals => "EQUALS".toList
  | .notequals => "NOTEQUALS".toList | .at_ => "AT".toList | .hash => "HASH".toList | .or_ => "OR".toList | .and_ => "AND".toList
  | .exclamation => "EXCLAMATION".toList | .dot => "DOT".toList | .doubleDot => "DOUBLE_DOT".toList | .comma => "COMMA".toList
  | .lparen => "LPAREN".toList | .rparen => "RPAREN".toList | .lbrace => "LBRACE".toList | .rbrace => "RBRACE".toList
  | .lbracket => "LBRACKET".toList | .rbracket => "RBRACKET".toList | .lowername => "LOWERNAME".toList
  | .uppername => "UPPERNAME".toList | .number => "NUMBER".toList | .dOp => "D_OP".toList | .instringAny => "INSTRING_ANY".toList
  | .instringVar => "INSTRING_VAR".toList | .instringNonvar => "INSTRING_NONVAR".toList | .output => "OUTPUT".toList
  | .function => "FUNCTION".toList | .loop => "LOOP".toList | .over => "OVER".toList | .named => "NAMED".toList | .set => "SET".toList
  | .to => "TO".toList | .if_ => "IF".toList | .else_ => "ELSE".toList | .result => "RESULT".toList

/-- The tables of both states. -/
abbrev tabs : List Table := [tableI, tableS]

theorem tableOf_initial : tableOf tabs (modeName .initial) = some tableI := by decide +kernel

theorem tableOf_instring : tableOf tabs (modeName .instring) = some tableS := by decide +kernel

/-- The lexer after a piece. -/
def after (data : Lexer.Text) (p : Piece) (m : Mode) (l : Lex) : Lex :=
  ⟨l.lexpos + p.text.length, l.lineno + p.lineno, modeName m, l.illegal ++ p.reports data l.lexpos l.lineno⟩

theorem value_eq {v rest s : Lexer.Text} (h : v ++ rest = s) : s.take (s.length - rest.length) = v := by
  subst h
  simp

section
variable {data : Lexer.Text} {l : Lex} {c : Char} {cs : Lexer.Text} {tab : Table} {n : ℕ}

theorem turn_ignored (ht : tableOf tabs l.state = some tab) (hd : data.drop l.lexpos = c :: cs) (hc : c ∈ tab.ignore) :
    token dig tabs data (n + 1) l = token dig tabs data n { l with lexpos := l.lexpos + 1 } := by
  rw [token, ht]
  dsimp only
  rw [hd]
  dsimp only
  rw [if_pos hc]

theorem turn_plain (ht : tableOf tabs l.state = some tab) (hd : data.drop l.lexpos = c :: cs) (hc : c ∉ tab.ignore)
    {rest v type : Lexer.Text} {i : ℕ} (hm : matchAt dig tab.regex (c :: cs) = some (rest, some i)) (hv : v ++ rest = c :: cs)
    (hi : tab.index.find? (fun e => some e.1 = some i) = some (i, none, some type)) :
    token dig tabs data (n + 1) l = (some ⟨type, v, l.lineno, l.lexpos⟩, { l with lexpos := l.lexpos + v.length }) := by
  rw [token, ht]
  dsimp only
  rw [hd]
  dsimp only
  rw [if_neg hc, hm]
  dsimp only
  rw [hi, value_eq hv]

theorem turn_act (ht : tableOf tabs l.state = some tab) (hd : data.drop l.lexpos = c :: cs) (hc : c ∉ tab.ignore)
    {rest v type : Lexer.Text} {i : ℕ} {f : Act} (hm : matchAt dig tab.regex (c :: cs) = some (rest, some i)) (hv : v ++ rest = c :: cs)
    (hi : tab.index.find? (fun e => some e.1 = some i) = some (i, some f, some type)) :
    token dig tabs data (n + 1) l =
      match f.run data ⟨type, v, l.lineno, l.lexpos⟩ { l with lexpos := l.lexpos + v.length } with
      | (some t, l'') => (some t, l'')
      | (none, l'') => token dig tabs data n l'' := by
  rw [token, ht]
  dsimp only
  rw [hd]
  dsimp only
  rw [if_neg hc, hm]
  dsimp only
  rw [hi, value_eq hv]
  rfl

theorem turn_error (ht : tableOf tabs l.state = some tab) (hd : data.drop l.lexpos = c :: cs) (hc : c ∉ tab.ignore)
    (hm : matchAt dig tab.regex (c :: cs) = none) (he : tab.error = some .error) :
    token dig tabs data (n + 1) l = token dig tabs data n { l with
      illegal := l.illegal ++ [⟨some c, l.lexpos, l.lineno, findColumn data l.lexpos⟩], lexpos := l.lexpos + 1 } := by
  rw [token, ht]
  dsimp only
  rw [hd]
  dsimp only
  rw [if_neg hc, hm]
  dsimp only
  rw [he]
  rfl

/-- What a turn gives for a piece. -/
def turnOf (dig : Char → Bool) (data : Lexer.Text) (n : ℕ) (l : Lex) (m : Mode) : Piece → Option Tok × Lex
  | .token t => (some ⟨kindName t.kind, t.value, l.lineno, l.lexpos⟩, after data (.token t) m l)
  | p => token dig tabs data n (after data p m l)

theorem inSet_low (c : Char) : inSet dig false [.span 'a' 'z'] c = isLow c := by
  simp [inSet, Item.has, isLow]

theorem inSet_up (c : Char) : inSet dig false [.span 'A' 'Z', .one '_'] c = isUp c := by
  simp [inSet, Item.has, isUp]

theorem inSet_digit (c : Char) : inSet dig false [.digit] c = dig c := by
  simp [inSet, Item.has]

theorem inSet_body (c : Char) : inSet dig true bodyItems c = strBody c := by
  simp only [inSet, Item.has, strBody, bodyItems, List.any_cons, List.any_nil, Bool.or_false, bne]
  cases c == '\n' <;> cases c == '"' <;> cases c == '[' <;> rfl

theorem lower_name (w : Lexer.Text) : (if w = ['d'] then "D_OP".toList else if w ∈ reserved then upper w else "LOWERNAME".toList) =
    kindName (lowerKind w) := by
  by_cases h : w ∈ ['d'] :: reserved
  · have hall : ∀ w ∈ ['d'] :: reserved, (if w = ['d'] then "D_OP".toList else if w ∈ reserved then upper w else "LOWERNAME".toList) =
        kindName (lowerKind w) := by decide +kernel
    exact hall w h
  · have h1 : w ≠ ['d'] := fun e => h (e ▸ List.mem_cons_self)
    have h2 : w ∉ reserved := fun e => h (List.mem_cons_of_mem _ e)
    rw [if_neg h1, if_neg h2]
    have h3 : ∀ x ∈ ['d'] :: reserved, w ≠ x := fun x hx e => h (e ▸ hx)
    simp only [reserved, List.map_cons, List.map_nil, List.forall_mem_cons, List.not_mem_nil, false_imp_iff, implies_true, and_true] at h3
    obtain ⟨a, b, c', d, e, f, g, h', i, j, k⟩ := h3
    rw [lowerKind]
    simp only [show "d".toList = ['d'] from rfl, a, b, c', d, e, f, g, h', i, j, k, if_false]
    rfl

end

/-- The rules for symbols. -/
def symI : List (ℕ × Re) := restI.drop 5

theorem match_initial (c : Char) (cs : Lexer.Text) : matchAt dig tableI.regex (c :: cs) =
    if c = '\\' ∧ '\\' ∈ cs then some ((cs.dropWhile (· != '\\')).tail, some 1)
    else if dig c then some (cs.dropWhile dig, some 3)
    else if isLow c then some (cs.dropWhile isLow, some 4)
    else if c = '"' then some (cs, some 5)
    else if c = '\n' then some (cs.dropWhile (· == '\n'), some 6)
    else if isUp c then some (cs.dropWhile isUp, some 7)
    else symI.findSome? fun e => (first dig e.2 (c :: cs)).map fun t => (t, some e.1) := by
  have hlow : inSet dig false [.span 'a' 'z'] = isLow := funext inSet_low
  have hup : inSet dig false [.span 'A' 'Z', .one '_'] = isUp := funext inSet_up
  have hdig : inSet dig false [.digit] = dig := funext inSet_digit
  have hnl : inSet dig false [.one '\n'] = (· == '\n') := funext (inSet_one '\n')
  have hlow' := first_run (dig := dig) false [.span 'a' 'z'] c cs
  rw [runOf] at hlow'
  have hl : commentI :: restI = commentI :: restI.take 5 ++ symI := rfl
  show matchAt dig (altsRe commentI restI) (c :: cs) = _
  rw [matchAt_alts, hl]
  simp only [commentI, restI, List.take_succ_cons, List.take_zero, List.cons_append, List.nil_append, List.findSome?_cons, first_comment,
    first_run, hlow', first_one, hlow, hup, hdig, hnl, beq_iff_eq]
  split_ifs <;> rfl

theorem symbol_step (c : Char) (cs : Lexer.Text) :
    (∃ i k v rest, symI.findSome? (fun e => (first dig e.2 (c :: cs)).map fun t => (t, some e.1)) = some (rest, some i) ∧
      stepSymbol c cs = (.token ⟨k, v⟩, rest) ∧ tableI.index.find? (fun e => some e.1 = some i) = some (i, none, some (kindName k))) ∨
    (symI.findSome? (fun e => (first dig e.2 (c :: cs)).map fun t => (t, some e.1)) = none ∧ stepSymbol c cs = (.illegal c, cs)) := by
  have hsym : symI = restI.drop 5 := rfl
  simp only [restI, List.drop_succ_cons, List.drop_zero] at hsym
  by_cases h : c ∈ ['+', '*', '^', '@', '#', '|', '(', ')', '{', '}', '[', ']', '-', '/', ':', '<', '>', '=', '&', ',']
  · simp only [List.mem_cons, List.not_mem_nil, or_false] at h
    rcases h with rfl | rfl | rfl | rfl | rfl | rfl | rfl | rfl | rfl | rfl | rfl | rfl | rfl | rfl | rfl | rfl | rfl | rfl | rfl | rfl
    · exact Or.inl ⟨9, .plus, ['+'], cs, by simp [hsym, first_one, first_two], rfl, by decide +kernel⟩
    · exact Or.inl ⟨10, .times, ['*'], cs, by simp [hsym, first_one, first_two], rfl, by decide +kernel⟩
    · exact Or.inl ⟨11, .power, ['^'], cs, by simp [hsym, first_one, first_two], rfl, by decide +kernel⟩
    · exact Or.inl ⟨13, .at_, ['@'], cs, by simp [hsym, first_one, first_two], rfl, by decide +kernel⟩
    · exact Or.inl ⟨14, .hash, ['#'], cs, by simp [hsym, first_one, first_two], rfl, by decide +kernel⟩
    · exact Or.inl ⟨15, .or_, ['|'], cs, by simp [hsym, first_one, first_two], rfl, by decide +kernel⟩
    · exact Or.inl ⟨17, .lparen, ['('], cs, by simp [hsym, first_one, first_two], rfl, by decide +kernel⟩
    · exact Or.inl ⟨18, .rparen, [')'], cs, by simp [hsym, first_one, first_two], rfl, by decide +kernel⟩
    · exact Or.inl ⟨19, .lbrace, ['{'], cs, by simp [hsym, first_one, first_two], rfl, by decide +kernel⟩
    · exact Or.inl ⟨20, .rbrace, ['}'], cs, by simp [hsym, first_one, first_two], rfl, by decide +kernel⟩
    · exact Or.inl ⟨21, .lbracket, ['['], cs, by simp [hsym, first_one, first_two], rfl, by decide +kernel⟩
    · exact Or.inl ⟨22, .rbracket, [']'], cs, by simp [hsym, first_one, first_two], rfl, by decide +kernel⟩
    · exact Or.inl ⟨23, .minus, ['-'], cs, by simp [hsym, first_one, first_two], rfl, by decide +kernel⟩
    · exact Or.inl ⟨24, .divide, ['/'], cs, by simp [hsym, first_one, first_two], rfl, by decide +kernel⟩
    · exact Or.inl ⟨25, .colon, [':'], cs, by simp [hsym, first_one, first_two], rfl, by decide +kernel⟩
    · exact Or.inl ⟨26, .less, ['<'], cs, by simp [hsym, first_one, first_two], rfl, by decide +kernel⟩
    · exact Or.inl ⟨27, .greater, ['>'], cs, by simp [hsym, first_one, first_two], rfl, by decide +kernel⟩
    · exact Or.inl ⟨28, .equals, ['='], cs, by simp [hsym, first_one, first_two], rfl, by decide +kernel⟩
    · exact Or.inl ⟨29, .and_, ['&'], cs, by simp [hsym, first_one, first_two], rfl, by decide +kernel⟩
    · exact Or.inl ⟨31, .comma, [','], cs, by simp [hsym, first_one, first_two], rfl, by decide +kernel⟩
  · by_cases h1 : c = '!'
    · subst h1
      by_cases h2 : cs.head? = some '='
      · exact Or.inl ⟨12, .notequals, ['!', '='], cs.tail, by simp [hsym, first_one, first_two, h2], by simp [stepSymbol, h2],
          by decide +kernel⟩
      · exact Or.inl ⟨30, .exclamation, ['!'], cs, by simp [hsym, first_one, first_two, h2], by simp [stepSymbol, h2, symKind],
          by decide +kernel⟩
    · by_cases h3 : c = '.'
      · subst h3
        by_cases h2 : cs.head? = some '.'
        · exact Or.inl ⟨8, .doubleDot, ['.', '.'], cs.tail, by simp [hsym, first_one, first_two, h2], by simp [stepSymbol, h2],
            by decide +kernel⟩
        · exact Or.inl ⟨16, .dot, ['.'], cs, by simp [hsym, first_one, first_two, h2], by simp [stepSymbol, h2, symKind],
            by decide +kernel⟩
      · right
        simp only [List.mem_cons, List.not_mem_nil, or_false, not_or] at h
        constructor
        · simp [hsym, first_one, first_two, h, h1, h3]
        · simp [stepSymbol, symKind, h, h1, h3]

theorem run_begin (data : Lexer.Text) (t : Tok) (l : Lex) :
    Act.run data t l .beginString = (none, { l with state := modeName .instring }) := rfl

theorem run_end (data : Lexer.Text) (t : Tok) (l : Lex) :
    Act.run data t l .endString = (none, { l with state := modeName .initial }) := rfl

theorem turn_initial (n : ℕ) {data : Lexer.Text} {l : Lex} {c : Char} {cs : Lexer.Text} (hs : l.state = modeName .initial)
    (hd : data.drop l.lexpos = c :: cs) :
    token dig tabs data (n + 1) l = turnOf dig data n l (step dig .initial c cs).2.1 (step dig .initial c cs).1 := by
  have ht : tableOf tabs l.state = some tableI := by rw [hs]; exact tableOf_initial
  have hst : ∀ q : ℕ, ({ l with lexpos := q } : Lex) = ⟨q, l.lineno, modeName .initial, l.illegal⟩ := fun q => by rw [← hs]
  have hm := match_initial (dig := dig) c cs
  have htext := step_text (dig := dig) .initial c cs
  rw [show step dig .initial c cs = stepInitial dig c cs from rfl] at htext ⊢
  rw [stepInitial] at htext ⊢
  by_cases h0 : c = ' ' ∨ c = '\t'
  · rw [if_pos h0, turn_ignored ht hd (by rcases h0 with rfl | rfl <;> decide)]
    simp [turnOf, after, Piece.text, Piece.lineno, Piece.reports, hst]
  have hc : c ∉ tableI.ignore := by
    show c ∉ [' ', '\t']
    simpa using h0
  rw [if_neg h0] at htext ⊢
  by_cases h1 : c = '\\' ∧ '\\' ∈ cs
  · rw [if_pos h1] at hm htext ⊢
    rw [turn_act (f := .comment) (type := "ignore_COMMENT".toList) ht hd hc hm htext (by decide +kernel)]
    simp [turnOf, after, Piece.text, Piece.lineno, Piece.reports, hst, Act.run]
  rw [if_neg h1] at hm htext ⊢
  by_cases h2 : dig c = true
  · rw [if_pos h2] at hm htext ⊢
    rw [turn_act (f := .number) (type := kindName .number) ht hd hc hm htext (by decide +kernel)]
    simp [turnOf, after, Piece.text, Piece.lineno, Piece.reports, hst, Act.run]
  rw [if_neg h2] at hm htext ⊢
  by_cases h3 : isLow c = true
  · rw [if_pos h3] at hm htext ⊢
    rw [turn_act (f := .lowername) (type := "LOWERNAME".toList) ht hd hc hm htext (by decide +kernel)]
    rw [Act.run]
    dsimp only
    rw [lower_name]
    simp [turnOf, after, Piece.text, Piece.lineno, Piece.reports, hst]
  rw [if_neg h3] at hm htext ⊢
  by_cases h4 : c = '"'
  · rw [if_pos h4] at hm htext ⊢
    rw [turn_act (f := .beginString) (type := "begin_instring".toList) ht hd hc hm htext (by decide +kernel)]
    simp [turnOf, after, Piece.text, Piece.lineno, Piece.reports, run_begin]
  rw [if_neg h4] at hm htext ⊢
  by_cases h5 : c = '\n'
  · rw [if_pos h5] at hm htext ⊢
    rw [turn_act (f := .newlines) (type := "ignore_newline".toList) ht hd hc hm htext (by decide +kernel)]
    simp [turnOf, after, Piece.text, Piece.lineno, Piece.reports, Act.run, hs]
  rw [if_neg h5] at hm htext ⊢
  by_cases h6 : isUp c = true
  · rw [if_pos h6] at hm htext ⊢
    rw [turn_plain (type := kindName .uppername) ht hd hc hm htext (by decide +kernel)]
    simp [turnOf, after, Piece.text, Piece.lineno, Piece.reports, hst]
  rw [if_neg h6] at hm htext ⊢
  rcases symbol_step (dig := dig) c cs with ⟨i, k, v, rest, e1, e2, e3⟩ | ⟨e1, e2⟩
  · rw [e1] at hm
    rw [e2] at htext ⊢
    rw [turn_plain ht hd hc hm htext e3]
    simp [turnOf, after, Piece.text, Piece.lineno, Piece.reports, hst]
  · rw [e1] at hm
    rw [e2]
    rw [turn_error ht hd hc hm rfl]
    simp [turnOf, after, Piece.text, Piece.lineno, Piece.reports, hs]

theorem match_instring (c : Char) (cs : Lexer.Text) : matchAt dig tableS.regex (c :: cs) =
    if c = '"' then some (cs, some 1)
    else if c = '[' ∧ cs.takeWhile isUp ≠ [] ∧ (cs.dropWhile isUp).head? = some ']' then some ((cs.dropWhile isUp).tail, some 2)
    else if c = '[' then some (cs.dropWhile strBody, some 3)
    else if strBody c then some (cs.dropWhile strBody, some 4)
    else none := by
  have hup : inSet dig false [.span 'A' 'Z', .one '_'] = isUp := funext inSet_up
  have hb : inSet dig true bodyItems = strBody := funext inSet_body
  have hbr := first_bracketed (dig := dig) '[' ']' false [.span 'A' 'Z', .one '_'] (by rw [inSet_up]; decide) c cs
  show matchAt dig (altsRe _ _) (c :: cs) = _
  rw [matchAt_alts]
  simp only [List.findSome?_cons, List.findSome?_nil, first_one, hbr, first_after, first_run, hup, hb]
  split_ifs <;> rfl

theorem turn_instring (n : ℕ) {data : Lexer.Text} {l : Lex} {c : Char} {cs : Lexer.Text} (hs : l.state = modeName .instring)
    (hd : data.drop l.lexpos = c :: cs) :
    token dig tabs data (n + 1) l = turnOf dig data n l (step dig .instring c cs).2.1 (step dig .instring c cs).1 := by
  have ht : tableOf tabs l.state = some tableS := by rw [hs]; exact tableOf_instring
  have hst : ∀ q : ℕ, ({ l with lexpos := q } : Lex) = ⟨q, l.lineno, modeName .instring, l.illegal⟩ := fun q => by rw [← hs]
  have hm := match_instring (dig := dig) c cs
  have htext := step_text (dig := dig) .instring c cs
  have hc : c ∉ tableS.ignore := List.not_mem_nil
  rw [show step dig .instring c cs = stepString c cs from rfl] at htext ⊢
  rw [stepString] at htext ⊢
  by_cases h1 : c = '"'
  · rw [if_pos h1] at hm htext ⊢
    rw [turn_act (f := .endString) (type := "end".toList) ht hd hc hm htext (by decide +kernel)]
    simp [turnOf, after, Piece.text, Piece.lineno, Piece.reports, run_end]
  rw [if_neg h1] at hm htext ⊢
  by_cases h2 : c = '['
  · rw [if_pos h2] at htext ⊢
    by_cases h3 : cs.takeWhile isUp ≠ [] ∧ (cs.dropWhile isUp).head? = some ']'
    · rw [if_pos ⟨h2, h3⟩] at hm
      rw [if_pos h3] at htext ⊢
      rw [turn_plain (type := kindName .instringVar) ht hd hc hm htext (by decide +kernel)]
      simp [turnOf, after, Piece.text, Piece.lineno, Piece.reports, hst]
    · rw [if_neg fun h => h3 h.2, if_pos h2] at hm
      rw [if_neg h3] at htext ⊢
      rw [turn_plain (type := kindName .instringNonvar) ht hd hc hm htext (by decide +kernel)]
      simp [turnOf, after, Piece.text, Piece.lineno, Piece.reports, hst]
  rw [if_neg fun h => h2 h.1, if_neg h2] at hm
  rw [if_neg h2] at htext ⊢
  by_cases h3 : strBody c = true
  · rw [if_pos h3] at hm htext ⊢
    rw [turn_plain (type := kindName .instringAny) ht hd hc hm htext (by decide +kernel)]
    simp [turnOf, after, Piece.text, Piece.lineno, Piece.reports, hst]
  · rw [if_neg h3] at hm htext ⊢
    rw [turn_error ht hd hc hm rfl]
    simp [turnOf, after, Piece.text, Piece.lineno, Piece.reports, hs]

theorem turn (n : ℕ) {data : Lexer.Text} {l : Lex} {m : Mode} {c : Char} {cs : Lexer.Text} (hs : l.state = modeName m)
    (hd : data.drop l.lexpos = c :: cs) :
    token dig tabs data (n + 1) l = turnOf dig data n l (step dig m c cs).2.1 (step dig m c cs).1 := by
  cases m with
  | initial => exact turn_initial n hs hd
  | instring => exact turn_instring n hs hd

/-! ## The whole text -/

/-- A token in its place. -/
def tokOf (x : Token × ℕ × ℕ) : Tok := ⟨kindName x.1.kind, x.1.value, x.2.2, x.2.1⟩

theorem token_nil (n : ℕ) {data : Lexer.Text} {l : Lex} {m : Mode} (hs : l.state = modeName m) (hd : data.drop l.lexpos = []) :
    token dig tabs data (n + 1) l = (none, { l with illegal := l.illegal ++ reportsFrom data m l.lexpos l.lineno [] }) := by
  have ht : ∃ tab, tableOf tabs l.state = some tab ∧ tab.eof = some .eof := by
    cases m with
    | initial => exact ⟨tableI, by rw [hs]; exact tableOf_initial, rfl⟩
    | instring => exact ⟨tableS, by rw [hs]; exact tableOf_instring, rfl⟩
  obtain ⟨tab, h1, h2⟩ := ht
  rw [token, h1]
  dsimp only
  rw [hd]
  dsimp only
  rw [h2]
  dsimp only
  rw [Act.run, hs]
  cases m with
  | initial =>
    rw [if_neg (by decide), reportsFrom, if_neg (by decide), List.append_nil, ← hs]
  | instring => rw [if_pos (show modeName .instring = "instring".toList from rfl), reportsFrom, if_pos rfl]

theorem collect_eq (data : Lexer.Text) : ∀ (r : ℕ) (m : Mode) (l : Lex) (n k : ℕ), (data.drop l.lexpos).length = r →
    l.state = modeName m → l.lexpos ≤ data.length → r + 1 ≤ n → r ≤ k →
    (match token dig tabs data n l with
      | (none, l') => (([], l') : List Tok × Lex)
      | (some t, l') => (t :: (collect dig tabs data k l').1, (collect dig tabs data k l').2)) =
    ((Compiler.placed l.lexpos l.lineno (run dig m (data.drop l.lexpos)).1).map tokOf,
      ⟨data.length, Compiler.lineAfter l.lineno (run dig m (data.drop l.lexpos)).1, modeName (run dig m (data.drop l.lexpos)).2,
        l.illegal ++ reportsFrom data (run dig m (data.drop l.lexpos)).2 l.lexpos l.lineno (run dig m (data.drop l.lexpos)).1⟩) := by
  intro r
  induction r using Nat.strong_induction_on with
  | _ r ih =>
    intro m l n k hr hs hp hn hk
    obtain ⟨n, rfl⟩ : ∃ n', n = n' + 1 := ⟨n - 1, by omega⟩
    cases hd : data.drop l.lexpos with
    | nil =>
      rw [token_nil n hs hd]
      have hlen : l.lexpos = data.length := by
        have := List.length_drop (i := l.lexpos) (l := data)
        rw [hd, List.length_nil] at this
        omega
      show (([], _) : List Tok × Lex) = _
      rw [show run dig m [] = ([], m) from rfl]
      simp [Compiler.placed, Compiler.lineAfter, ← hlen, hs]
    | cons c cs =>
      rw [turn n hs hd, run_cons]
      have htext := step_text (dig := dig) m c cs
      have hne := step_text_ne (dig := dig) m c cs
      generalize step dig m c cs = st at htext hne ⊢
      obtain ⟨p, m', rest⟩ := st
      dsimp only at htext hne ⊢
      have hdrop : data.drop (l.lexpos + p.text.length) = rest := by
        rw [← List.drop_drop, hd, ← htext, List.drop_left]
      have hpos : 0 < p.text.length := List.length_pos_iff.2 hne
      have hrl : p.text.length + rest.length = r := by
        rw [← hr, hd, ← htext, List.length_append]
      have hle : l.lexpos + p.text.length ≤ data.length := by
        have := List.length_drop (i := l.lexpos) (l := data)
        rw [hr] at this
        omega
      have hdr : data.drop (after data p m' l).lexpos = rest := hdrop
      have hlen : (data.drop (after data p m' l).lexpos).length = rest.length := by rw [hdr]
      have key : ∀ n k, rest.length + 1 ≤ n → rest.length ≤ k → _ := fun n k hn hk =>
        ih rest.length (by omega) m' (after data p m' l) n k hlen rfl hle hn hk
      have hline : ∀ ps, Compiler.lineAfter l.lineno (p :: ps) = Compiler.lineAfter (l.lineno + p.lineno) ps := fun ps => by
        simp [Compiler.lineAfter, Nat.add_assoc]
      rw [hline, reportsFrom, ← List.append_assoc]
      rw [hdr] at key
      cases p with
      | token t =>
        obtain ⟨k, rfl⟩ : ∃ k', k = k' + 1 := ⟨k - 1, by omega⟩
        have hrd : rest.length ≤ data.length := by
          rw [← hdrop, List.length_drop]
          omega
        have h := key (data.length + 1) k (by omega) (by omega)
        show (_ :: (collect dig tabs data (k + 1) (after data (.token t) m' l)).1,
          (collect dig tabs data (k + 1) (after data (.token t) m' l)).2) = _
        rw [show collect dig tabs data (k + 1) (after data (.token t) m' l) = _ from h]
        rfl
      | ignored c => exact key n k (by omega) (by omega)
      | newlines s => exact key n k (by omega) (by omega)
      | comment s => exact key n k (by omega) (by omega)
      | quote => exact key n k (by omega) (by omega)
      | illegal c => exact key n k (by omega) (by omega)

theorem doLex_eq (data : Lexer.Text) (m : Mode) (l : Lex) (hs : l.state = modeName m) :
    doLex dig tabs data l = ((Compiler.placed 0 l.lineno (run dig m data).1).map tokOf,
      ⟨data.length, Compiler.lineAfter l.lineno (run dig m data).1, modeName (run dig m data).2,
        l.illegal ++ reportsFrom data (run dig m data).2 0 l.lineno (run dig m data).1⟩) :=
  collect_eq data data.length m { l with lexpos := 0 } (data.length + 1) data.length rfl hs (Nat.zero_le _) le_rfl le_rfl

end PythonDice.PlyLex
