import Verif.Spec.Syntax

/-!
# Specification vocabulary: the words of a Python text outside of its literals

A scanner for Python texts, independent of the reader of Spec/Python.lean.  It never fails: it goes through any text and reports the words that Python
could take for names.  Where Python would reject the text, or where this scanner knows less than Python, it reports too much and not too little.
-/

namespace Spec.Words

/-- What the scanner is in, innermost first; outside of everything, and in a field, there is code. -/
inductive Ctx
  /-- a literal that has just begun, with its quote; an f-string or not -/
  | opened (q : Char) (f : Bool)
  /-- a literal -/
  | quoted (q : Char) (f : Bool)
  /-- after an empty literal: a third quote would begin a literal of several lines -/
  | closed (q : Char)
  /-- after a backslash -/
  | escape
  /-- after a brace in an f-string -/
  | brace
  /-- an expression in an f-string -/
  | field
  | comment
  deriving DecidableEq

/-- A state of the scanner: what it is in, the word that is being read, the words that have been read. -/
structure State where
  stack : List Ctx
  word : List Char
  words : List (List Char)
  deriving DecidableEq

/-- The characters of names and numbers; all characters beyond ASCII are taken for letters. -/
def wordChar (c : Char) : Bool := c.isAlphanum || c == '_' || decide (128 ≤ c.toNat)

/-- A number: digits and points. -/
def isNumber (w : List Char) : Bool := (w.headD 'x').isDigit && w.all fun c => c.isDigit || c == '.'

/-- The words that are reported when a word has ended: the word, unless it is a number. -/
def ended (w : List Char) (ws : List (List Char)) : List (List Char) := if w = [] ∨ isNumber w = true then ws else ws ++ [w]

/-- A character of code. -/
def codeStep (st : State) (c : Char) : State :=
  if wordChar c then { st with word := st.word ++ [c] }
  else if c = '.' then
    if isNumber st.word then { st with word := st.word ++ [c] } else ⟨st.stack, [], ended st.word st.words ++ [[c]]⟩
  else if c = '"' ∨ c = '\'' then
    if st.word = [] then ⟨.opened c false :: st.stack, [], st.words⟩
    else if st.word = ['f'] then ⟨.opened c true :: st.stack, [], st.words⟩
    else ⟨.opened c true :: st.stack, [], st.words ++ [st.word ++ [c]]⟩
  else if c = '#' then ⟨.comment :: st.stack, [], ended st.word st.words⟩
  else if c = '}' ∧ st.stack.head? = some .field then ⟨st.stack.tail, [], ended st.word st.words⟩
  else ⟨st.stack, [], ended st.word st.words⟩

/-- A character of a literal. -/
def quotedStep (q : Char) (f : Bool) (st : State) (c : Char) : State :=
  if c = '\\' then { st with stack := .escape :: .quoted q f :: st.stack }
  else if c = q then st
  else if c = '{' ∧ f = true then { st with stack := .brace :: .quoted q f :: st.stack }
  else { st with stack := .quoted q f :: st.stack }

/-- A character.  A line ends everything. -/
def step (st : State) (c : Char) : State :=
  if c = '\n' ∨ c = '\r' then ⟨[], [], ended st.word st.words⟩
  else match st.stack with
    | .opened q f :: r => if c = q then { st with stack := .closed q :: r } else quotedStep q f { st with stack := r } c
    | .quoted q f :: r => quotedStep q f { st with stack := r } c
    | .closed q :: r => if c = q then ⟨r, [], st.words ++ [[q, q, q]]⟩ else codeStep { st with stack := r } c
    | .escape :: r => { st with stack := r }
    | .brace :: r => if c = '{' then { st with stack := r } else codeStep { st with stack := .field :: r } c
    | .comment :: _ => st
    | .field :: _ => codeStep st c
    | [] => codeStep st c

/-- The scanner from a state on. -/
def run (st : State) (s : List Char) : State := s.foldl step st

/-- The words of a text: names, keywords, points that are not in numbers, and what is not understood. -/
def wordsOf (s : List Char) : List (List Char) :=
  let st := run ⟨[], [], []⟩ s
  ended st.word st.words

end Spec.Words

namespace Spec

open PythonDice.Compiler

/-- The words of Python and of the runtime of which compiled programs are made. -/
def baseWords : List (List Char) :=
  ["def".toList, "return".toList, "if".toList, "elif".toList, "else".toList, "for".toList, "in".toList, "pass".toList, "named".toList,
    "output".toList, "roll".toList, "get_seq".toList, "myrange".toList, "settings_set".toList, "anydice_casting".toList, "len".toList, "myLen".toList,
    "myMatmul".toList, "myAnd".toList, "myOr".toList, "myInvert".toList]

/-- A word that the program gives as the type of a parameter. -/
def TypeWord (b : Block) (w : List Char) : Prop := ∃ d body x, StmtIn (.function d body) b ∧ .typed x w ∈ d

/-- The words that the compiled program may contain: those above, variables of the program, functions of the program and of the library, parameters
that have been renamed, and, if variables are kept in a dictionary, what is needed to copy it. -/
inductive Harmless (dict : Bool) (b : Block) : List Char → Prop
  | base {w} : w ∈ baseWords → Harmless dict b w
  | var {w} : VarName w → Harmless dict b w
  | function {s} (pre : Bool) : Defines b s ∨ s ∈ librarySigs → Harmless dict b (pyName pre s)
  | dummy (i : ℕ) : Harmless dict b ("dummy".toList ++ (Nat.repr i).toList)
  | copy {w} : dict = true → w ∈ ["vars".toList, ".".toList, "copy".toList] → Harmless dict b w

end Spec
