import Verif.Spec.Python

/-!
# Specification vocabulary: how Python reads statements

The statements of the fragment of Python that the generated code can use (The Python Language Reference, sections 7 and 8), read from the
lines and blocks of `Spec.Py.readFile`.  Anything else is a syntax error here.  Nothing here refers to the model of the code.
-/

namespace Spec.Py

mutual

/-- Statements. -/
inductive Stmt
  /-- an expression -/
  | expr (e : Expr)
  /-- `f(e, k=v)` -/
  | exprKw (f : List Char) (e : Expr) (k : List Char) (v : Expr)
  /-- `x = e` -/
  | assign (x : List Char) (e : Expr)
  /-- `d['key'] = e` -/
  | setItem (d key : List Char) (e : Expr)
  /-- `d = {}` -/
  | newDict (d : List Char)
  /-- `d = d.copy()` -/
  | copyDict (d : List Char)
  /-- `return e` -/
  | ret (e : Expr)
  /-- `pass` -/
  | pass
  /-- `if c:` with its alternatives -/
  | cond (c : Expr) (body : Block) (rest : Else)
  /-- `for x in e:` -/
  | for_ (x : List Char) (e : Expr) (body : Block)
  /-- `def name(params):`, decorated with `@anydice_casting()` or not; parameters may be annotated with a name -/
  | def_ (deco : Bool) (name : List Char) (params : List (List Char × Option (List Char))) (body : Block)
  deriving DecidableEq

/-- Blocks. -/
inductive Block
  | nil
  | cons (s : Stmt) (b : Block)
  deriving DecidableEq

/-- `elif` and `else`. -/
inductive Else
  | done
  | else_ (body : Block)
  | elif (c : Expr) (body : Block) (rest : Else)
  deriving DecidableEq

end

/-- Statements before a block. -/
def Block.prepend : List Stmt → Block → Block
  | [], b => b
  | s :: ss, b => .cons s (Block.prepend ss b)

/-- A name. -/
def isName (x : List Char) : Bool :=
  decide (x ∉ keywords) && (x.head?.any nameStart) && x.all nameChar

/-- The rest of a text after a prefix. -/
def after (p s : List Char) : Option (List Char) := if p.isPrefixOf s then some (s.drop p.length) else none

/-- A text without a suffix. -/
def before (s p : List Char) : Option (List Char) := if p.isSuffixOf s then some (s.take (s.length - p.length)) else none

/-- Reading a whole text as an expression. -/
def readExpr (n : ℕ) (s : List Char) : Option Expr := (lex n s).bind fun ts => (parse n 0 ts).bind fun r => if r.2 = [] then some r.1 else none

/-- Reading all tokens as an expression. -/
def readToks (n : ℕ) (ts : List Tok) : Option Expr := (parse n 0 ts).bind fun r => if r.2 = [] then some r.1 else none

/-- `e, k=v)` after `f(`. -/
def readKw (n : ℕ) (f : List Char) (ts : List Tok) : Option Stmt :=
  (parse n 0 ts).bind fun r =>
    match r.2 with
    | .op c :: .name k :: .op q :: ts =>
      if c = ",".toList ∧ q = "=".toList then
        (parse n 0 ts).bind fun t => if t.2 = [.op ")".toList] then some (.exprKw f r.1 k t.1) else none
      else none
    | _ => none

/-- `k'] = e` after `x[`. -/
def readItem (n : ℕ) (x : List Char) (ts : List Tok) : Option Stmt :=
  match ts with
  | .str k :: .op c :: .op q :: ts =>
    if c = "]".toList ∧ q = "=".toList then (readToks n ts).map (.setItem x k) else none
  | _ => none

/-- Expressions, calls with a keyword and assignments, from tokens. -/
def readPlain (n : ℕ) (ts : List Tok) : Option Stmt :=
  match ts with
  | .name x :: .op o :: us =>
    if o = "=".toList then (readToks n us).map (.assign x)
    else if o = "(".toList then
      match readKw n x us with
      | some s => some s
      | none => (readToks n ts).map .expr
    else if o = "[".toList then
      match readItem n x us with
      | some s => some s
      | none => (readToks n ts).map .expr
    else (readToks n ts).map .expr
  | ts => (readToks n ts).map .expr

/-- `d["key"] = x`, from text. -/
def readCopy (d s : List Char) : Option Stmt :=
  (after (d ++ "[\"".toList) s).bind fun s =>
    (after (s.takeWhile (· != '"') ++ "\"] = ".toList) s).bind fun x =>
      if isName x = true then some (.setItem d (s.takeWhile (· != '"')) (.name x)) else none

/-- The statements between semicolons, all of the form `d["key"] = x`. -/
def readCopies (d : List Char) : List (List Char) → Option (List Stmt)
  | [] => some []
  | s :: ss =>
    if s.dropWhile (· == ' ') = [] then readCopies d ss
    else (readCopy d (s.dropWhile (· == ' '))).bind fun a => (readCopies d ss).map (a :: ·)

/-- A line without a block. -/
def readSimple (n : ℕ) (s : List Char) : Option (List Stmt) :=
  if s = "pass".toList then some [.pass]
  else match after "return ".toList s with
    | some e => (readExpr n e).map fun e => [.ret e]
    | none =>
      if isName (s.takeWhile nameChar) = true ∧ s.dropWhile nameChar = " = {}".toList then some [.newDict (s.takeWhile nameChar)]
      else if isName (s.takeWhile nameChar) = true ∧
          (" = ".toList ++ s.takeWhile nameChar ++ ".copy();".toList).isPrefixOf (s.dropWhile nameChar) = true then
        (readCopies (s.takeWhile nameChar)
          (((s.dropWhile nameChar).drop (" = ".toList ++ s.takeWhile nameChar ++ ".copy();".toList).length).splitOn ';')).map
            (.copyDict (s.takeWhile nameChar) :: ·)
      else (lex n s).bind fun ts => (readPlain n ts).map ([·])

/-- A parameter: `x` or `x: t`. -/
def readParam (s : List Char) : Option (List Char × Option (List Char)) :=
  if isName s = true then some (s, none)
  else (after (s.takeWhile nameChar ++ ": ".toList) s).bind fun t =>
    if isName (s.takeWhile nameChar) = true ∧ isName t = true then some (s.takeWhile nameChar, some t) else none

/-- Parameters between commas. -/
def readParams : List (List Char) → Option (List (List Char × Option (List Char)))
  | [] => some []
  | s :: ss => (readParam (s.dropWhile (· == ' '))).bind fun p => (readParams ss).map (p :: ·)

/-- `def name(params):`; no parameter may be repeated. -/
def readDef (s : List Char) : Option (List Char × List (List Char × Option (List Char))) :=
  (after "def ".toList s).bind fun s => (after (s.takeWhile nameChar ++ "(".toList) s).bind fun r =>
    (before r "):".toList).bind fun ps =>
      (if ps = [] then some [] else readParams (ps.splitOn ',')).bind fun ps =>
        if isName (s.takeWhile nameChar) = true ∧ (ps.map Prod.fst).Nodup then some (s.takeWhile nameChar, ps) else none

/-- `for x in e:` -/
def readFor (n : ℕ) (s : List Char) : Option (List Char × Expr) :=
  (after "for ".toList s).bind fun s => (after (s.takeWhile nameChar ++ " in ".toList) s).bind fun r =>
    (before r ":".toList).bind fun e => (readExpr n e).bind fun e =>
      if isName (s.takeWhile nameChar) = true then some (s.takeWhile nameChar, e) else none

/-- `w c:` for a word `w`. -/
def readHead (n : ℕ) (w s : List Char) : Option Expr :=
  (after w s).bind fun s => (before s ":".toList).bind fun e => readExpr n e

/-- The statements after a decorator. -/
def decorate : Block → Option Block
  | .cons (.def_ false f ps b) rest => some (.cons (.def_ true f ps b) rest)
  | _ => none

/-- Statements that do not begin with `elif` or `else`. -/
def noElse : Else × Block → Option Block
  | (.done, b) => some b
  | _ => none

/-- A line with the block under it, before other statements. -/
def readNode (n : ℕ) (infun : Bool) (line : List Char) (kids : Option (Else × Block)) (defKids : Option (Else × Block)) (empty : Bool)
    (rest : Else × Block) : Option (Else × Block) :=
  if line = "else:".toList then
    (kids.bind noElse).bind fun b => (noElse rest).map fun r => (.else_ b, r)
  else match readHead n "elif ".toList line with
  | some c => (kids.bind noElse).map fun b => (.elif c b rest.1, rest.2)
  | none =>
    match readHead n "if ".toList line with
    | some c => (kids.bind noElse).map fun b => (.done, .cons (.cond c b rest.1) rest.2)
    | none =>
      (noElse rest).bind fun r =>
        match readFor n line with
        | some (x, e) => (kids.bind noElse).map fun b => (.done, .cons (.for_ x e b) r)
        | none =>
          match readDef line with
          | some (f, ps) => (defKids.bind noElse).map fun b => (.done, .cons (.def_ false f ps b) r)
          | none =>
            if empty = false then none
            else if line = "@anydice_casting()".toList then (decorate r).map fun r => (.done, r)
            else if infun = false ∧ (after "return ".toList line).isSome = true then none
            else (readSimple n line).map fun ss => (.done, Block.prepend ss r)

/-- There are no lines. -/
def Forest.isEmpty : Forest → Bool
  | .nil => true
  | .cons _ _ => false

/-- The statements of a block; alternatives at its beginning belong to the conditional before it.  `return` is a syntax error outside of
functions. -/
def readBlock (n : ℕ) (infun : Bool) : Forest → Option (Else × Block)
  | .nil => some (.done, .nil)
  | .cons (.node line kids) rest =>
    (readBlock n infun rest).bind
      (readNode n infun line (readBlock n infun kids) (readBlock n true kids) kids.isEmpty)

/-- The statements of a file, with a bound on the number of steps spent on each expression. -/
def readProgram (n : ℕ) (s : List Char) : Option Block := (readFile s).bind fun f => (readBlock n false f).bind noElse

/-- Python reads the text as the program. -/
def ReadsProgram (s : List Char) (p : Block) : Prop := ∃ N, ∀ n, N ≤ n → readProgram n s = some p

end Spec.Py
