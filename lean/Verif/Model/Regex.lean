import Mathlib.Data.List.Basic

/-!
# Model of the regular expressions of Python, as far as the tokenizer uses them

`src/parser/ply/lex.py` hands the rules of `src/parser/myparser.py` to Python's module `re`.  Modelled are the syntax these rules use, read
with the flag `re.VERBOSE` (ply/lex.py:723), and `Pattern.match`, which tries the alternatives in order and goes back when it fails.  `re` itself
is not part of the repository; this file is part of the trusted base.
-/

namespace PythonDice.Regex

/-- A text. -/
abbrev Text := List Char

/-- What stands in a set of characters: a character, a range or `\d`. -/
inductive Item
  | one (c : Char)
  | span (a b : Char)
  | digit
  deriving DecidableEq, Repr

/-- A regular expression.  `a+` is `a` followed by `a*`. -/
inductive Re
  | empty
  | set (neg : Bool) (items : List Item)
  | cat (a b : Re)
  | alt (a b : Re)
  | star (greedy : Bool) (a : Re)
  | group (i : ℕ) (a : Re)
  deriving DecidableEq, Repr

/-! ## Reading a regular expression -/

/-- `\x`: a category or a character. -/
def escape (c : Char) : Option Item :=
  if c = 'd' then some .digit
  else if c = 'n' then some (.one '\n')
  else if c.isAlphanum then none
  else some (.one c)

/-- One member of a set, not yet knowing whether it starts a range. -/
def setItem : Text → Option (Item × Text)
  | '\\' :: c :: t => (escape c).map fun i => (i, t)
  | '\\' :: [] => none
  | c :: t => some (.one c, t)
  | [] => none

/-- The members of a set up to the closing bracket; a bracket that comes first is a member. -/
def setItems : ℕ → Bool → List Item → Text → Option (List Item × Text)
  | 0, _, _, _ => none
  | n + 1, first, acc, t =>
    if first = false ∧ t.head? = some ']' then some (acc.reverse, t.tail)
    else match setItem t with
      | none => none
      | some (.one a, '-' :: b :: t') =>
        if b = ']' then setItems n false (.one a :: acc) ('-' :: b :: t')
        else match setItem (b :: t') with
          | some (.one b', t'') => setItems n false (.span a b' :: acc) t''
          | _ => none
      | some (i, t') => setItems n false (i :: acc) t'

/-- `[...]` or `[^...]`, after the opening bracket. -/
def setRe (t : Text) : Option (Re × Text) :=
  match t with
  | '^' :: t' => (setItems (t'.length + 1) true [] t').map fun r => (.set true r.1, r.2)
  | _ => (setItems (t.length + 1) true [] t).map fun r => (.set false r.1, r.2)

/-- What is left of the text, the number of groups opened and the names of groups. -/
structure Reading where
  text : Text
  groups : ℕ
  names : List (Text × ℕ)
  deriving DecidableEq, Repr

/-- A sequence; the last item comes first. -/
def catOf : List Re → Re
  | [] => .empty
  | [a] => a
  | b :: a :: l => .cat (catOf (a :: l)) b

/-- The regular expression for `a*`, `a+`, or `a*?`, `a+?`. -/
def repeated (plus greedy : Bool) (a : Re) : Re := if plus then .cat a (.star greedy a) else .star greedy a

mutual

/-- Alternatives, up to a closing parenthesis or the end. -/
def readAlt : ℕ → Reading → Option (Re × Reading)
  | 0, _ => none
  | n + 1, p =>
    match readSeq n [] p with
    | none => none
    | some (a, p') =>
      match p'.text with
      | '|' :: t =>
        match readAlt n { p' with text := t } with
        | none => none
        | some (b, p'') => some (.alt a b, p'')
      | _ => some (a, p')

/-- A sequence of items, with those already read.  White space and comments are skipped (`re.VERBOSE`). -/
def readSeq : ℕ → List Re → Reading → Option (Re × Reading)
  | 0, _, _ => none
  | n + 1, acc, p =>
    match p.text with
    | [] => some (catOf acc, p)
    | c :: t =>
      if c = '|' ∨ c = ')' then some (catOf acc, p)
      else if c = ' ' ∨ c = '\n' ∨ c = '\t' ∨ c = '\r' ∨ c = '\x0b' ∨ c = '\x0c' then readSeq n acc { p with text := t }
      else if c = '#' then readSeq n acc { p with text := (t.dropWhile (· != '\n')).tail }
      else if c = '*' ∨ c = '+' then
        match acc with
        | [] => none
        | a :: acc' =>
          if t.head? = some '?' then readSeq n (repeated (c = '+') false a :: acc') { p with text := t.tail }
          else readSeq n (repeated (c = '+') true a :: acc') { p with text := t }
      else if c = '?' ∨ c = '{' ∨ c = '^' ∨ c = '$' then none
      else if c = '.' then readSeq n (.set true [.one '\n'] :: acc) { p with text := t }
      else if c = '\\' then
        match t with
        | [] => none
        | e :: t' =>
          match escape e with
          | none => none
          | some i => readSeq n (.set false [i] :: acc) { p with text := t' }
      else if c = '[' then
        match setRe t with
        | none => none
        | some (a, t') => readSeq n (a :: acc) { p with text := t' }
      else if c = '(' then
        match readGroup n p t with
        | none => none
        | some (a, p') => readSeq n (a :: acc) p'
      else readSeq n (.set false [.one c] :: acc) { p with text := t }

/-- A group, after its opening parenthesis: `(?P<name>...)` or `(...)`. -/
def readGroup : ℕ → Reading → Text → Option (Re × Reading)
  | 0, _, _ => none
  | n + 1, p, t =>
    let i := p.groups + 1
    let inside : Option Reading := match t with
      | '?' :: 'P' :: '<' :: t' =>
        some ⟨(t'.dropWhile (· != '>')).tail, i, p.names ++ [(t'.takeWhile (· != '>'), i)]⟩
      | '?' :: _ => none
      | _ => some { p with text := t, groups := i }
    match inside with
    | none => none
    | some q =>
      match readAlt n q with
      | none => none
      | some (a, q') =>
        match q'.text with
        | ')' :: t' => some (.group i a, { q' with text := t' })
        | _ => none

end

/-- `re.compile(text, re.VERBOSE)`: the expression and its `groupindex`, or an error (or syntax that is not modelled). -/
def compile (t : Text) : Option (Re × List (Text × ℕ)) :=
  match readAlt (3 * t.length + 3) ⟨t, 0, []⟩ with
  | some (a, p) => if p.text = [] then some (a, p.names) else none
  | none => none

/-! ## Matching -/

/-- Which characters a member of a set stands for; `dig` gives the characters matched by `\d`. -/
def Item.has (dig : Char → Bool) : Item → Char → Bool
  | .one a, c => c == a
  | .span a b, c => decide (a.toNat ≤ c.toNat ∧ c.toNat ≤ b.toNat)
  | .digit, c => dig c

/-- Is the character in the set? -/
def inSet (dig : Char → Bool) (neg : Bool) (items : List Item) (c : Char) : Bool := (items.any fun i => i.has dig c) != neg

/-- The text that is left and `lastindex`, the group closed last. -/
abbrev Spot := Text × Option ℕ

/-- A repetition: once more, then on, or stop; which is tried first depends on `greedy`.  Repeating nothing is not tried.  The number bounds
the repetitions. -/
def repeats (f : Spot → List Spot) (greedy : Bool) : ℕ → Spot → List Spot
  | 0, x => [x]
  | n + 1, x =>
    let more := ((f x).filter fun y => decide (y.1.length < x.1.length)).flatMap (repeats f greedy n)
    if greedy then more ++ [x] else x :: more

/-- All ways to match at a spot, in the order in which `re` tries them. -/
def ways (dig : Char → Bool) : Re → Spot → List Spot
  | .empty, x => [x]
  | .set neg items, x =>
    match x.1 with
    | [] => []
    | c :: cs => if inSet dig neg items c then [(cs, x.2)] else []
  | .cat a b, x => (ways dig a x).flatMap (ways dig b)
  | .alt a b, x => ways dig a x ++ ways dig b x
  | .star greedy a, x => repeats (ways dig a) greedy x.1.length x
  | .group i a, x => (ways dig a x).map fun y => (y.1, some i)

/-- `Pattern.match` at the start of a text: what is left after the match, and `lastindex`. -/
def matchAt (dig : Char → Bool) (r : Re) (s : Text) : Option Spot := (ways dig r (s, none)).head?

end PythonDice.Regex
