import Verif.Model.Grammar

/-!
# Model of the construction of the tables: `src/parser/ply/yacc.py`

Symbols are coded by numbers, so that the construction can be evaluated: tokens by 1, ..., 41, the end of the input `$end` by 42, the
nonterminals by 64, ....  Sets of tokens are numbers, a bit for each token.  Left out: the token `error`, which no rule mentions;
the order in which states are numbered is that of the symbols after the dots, not of all symbols of the rules
(ply/yacc.py:1426-1431).
-/

namespace PythonDice.Yacc

open Lexer (Kind)

/-- All token types, src/parser/myparser.py:24-33. -/
def kinds : List Kind :=
  [.plus, .minus, .times, .divide, .power, .colon, .less, .greater, .equals, .notequals, .at_, .hash, .or_, .and_, .exclamation, .dot,
    .doubleDot, .comma, .lparen, .rparen, .lbrace, .rbrace, .lbracket, .rbracket, .lowername, .uppername, .number, .dOp, .instringAny,
    .instringVar, .instringNonvar, .output, .function, .loop, .over, .named, .set, .to, .if_, .else_, .result]

/-- The code of a token. -/
def kindCode (k : Kind) : ℕ := kinds.idxOf k + 1

/-- The code of `$end`. -/
def endCode : ℕ := 42

/-- The nonterminals. -/
def nts : List NT :=
  [.start, .multilineCode, .empty, .singleCode, .ifExpr, .elseExpr, .elseifExpr, .varName, .string, .funcnameDef, .expression, .term,
    .elements, .element, .range, .callElements]

/-- The code of a nonterminal. -/
def ntCode (x : NT) : ℕ := nts.idxOf x + 64

/-- The code of a symbol. -/
def Sym.code : Sym → ℕ
  | .t k => kindCode k
  | .n x => ntCode x

/-- A precedence: associativity and level. -/
abbrev Prec := Assoc × ℕ

/-- `('right', 0)` -/
def noPrec : Prec := (.right, 0)

/-- ply/yacc.py:818-824 `set_precedence`, ply/yacc.py:2143-2169: levels are counted from 1. -/
def precOf (x : PrecName) : ℕ → List (Assoc × List PrecName) → Option Prec
  | _, [] => none
  | i, (a, xs) :: rest => if x ∈ xs then some (a, i) else precOf x (i + 1) rest

/-- ply/yacc.py:693-703 `rightmost_terminal`. -/
def rightmostTerminal (rhs : List Sym) : Option Kind :=
  (rhs.filterMap fun | .t k => some k | .n _ => none).getLast?

/-- ply/yacc.py:868-886: the precedence of a rule. -/
def Rule.precedence (table : List (Assoc × List PrecName)) (r : Rule) : Prec :=
  match r.prec with
  | some x => (precOf x 1 table).getD noPrec
  | none =>
    match rightmostTerminal r.rhs with
    | some k => (precOf (.tok k) 1 table).getD noPrec
    | none => noPrec

/-- ply/yacc.py:831-906 `add_production`: a production, with its number. -/
structure Production where
  number : ℕ
  lhs : ℕ
  rhs : List ℕ
  prec : Prec
  line : ℕ
  deriving DecidableEq, Repr

/-- The productions of the rules, numbered from `i`. -/
def productionsFrom (table : List (Assoc × List PrecName)) : ℕ → List Rule → List Production
  | _, [] => []
  | i, r :: rs => ⟨i, ntCode r.lhs, r.rhs.map Sym.code, r.precedence table, r.line⟩ :: productionsFrom table (i + 1) rs

/-- All productions; number 0 is `S' -> multiline_code` (ply/yacc.py:916-923; src/parser/myparser.py:205). -/
def productions (table : List (Assoc × List PrecName)) (rs : List Rule) : List Production :=
  ⟨0, ntCode .start, [ntCode .multilineCode], noPrec, 0⟩ :: productionsFrom table 1 rs

/-- ply/yacc.py:658-679 `LRItem`: the production, the position of the dot, the symbols after it. -/
structure Item where
  prod : Production
  dot : ℕ
  after : List ℕ
  deriving DecidableEq, Repr

/-- ply/yacc.py:1200-1225: the first item of a production. -/
def Production.item (p : Production) : Item := ⟨p, 0, p.rhs⟩

/-- The code of an item. -/
def Item.code (i : Item) : ℕ := i.prod.number * 8 + i.dot + 1

/-- `lr_after`: the items to be added for a symbol after the dot. -/
def startItems (ps : List Production) (x : ℕ) : List Item := (ps.filter fun p => Nat.beq p.lhs x).map Production.item

/-- The items to be added for each nonterminal. -/
def startTable (ps : List Production) : List (List Item) := (List.range 16).map fun i => startItems ps (64 + i)

/-- Look up. -/
def lookAfter (starts : List (List Item)) (i : Item) : List Item :=
  match i.after with
  | [] => []
  | x :: _ => if Nat.blt x 64 then [] else starts.getD (x - 64) []

/-- Add to the items those that have not been added before (`lr0_added`); `seen` is the set of these productions. -/
def addNew : List Item → ℕ → List Item × ℕ
  | [], seen => ([], seen)
  | i :: is, seen =>
    if seen.testBit i.prod.number then addNew is seen
    else ((i :: (addNew is (seen + 2 ^ i.prod.number)).1), (addNew is (seen + 2 ^ i.prod.number)).2)

/-- ply/yacc.py:1350-1368 `lr0_closure`: the list is extended while it is traversed.  The first argument bounds the number of turns. -/
def closureLoop (starts : List (List Item)) : ℕ → List Item → ℕ → List Item
  | 0, _, _ => []
  | _ + 1, [], _ => []
  | n + 1, i :: queue, seen =>
    i :: closureLoop starts n (queue ++ (addNew (lookAfter starts i) seen).1) (addNew (lookAfter starts i) seen).2

/-- The closure of a set of items: at most all productions are added. -/
def closure (starts : List (List Item)) (size : ℕ) (is : List Item) : List Item := closureLoop starts (is.length + size + 1) is 0

/-- Put an item into the group of a symbol. -/
def addTo (x : ℕ) (i : Item) : List (ℕ × List Item) → List (ℕ × List Item)
  | [] => [(x, [i])]
  | (y, is) :: gs => if Nat.beq x y then (y, is ++ [i]) :: gs else (y, is) :: addTo x i gs

/-- ply/yacc.py:1376-1408 `lr0_goto`, for all symbols: the items with the dot moved over each symbol. -/
def gotos : List Item → List (ℕ × List Item) → List (ℕ × List Item)
  | [], gs => gs
  | i :: is, gs =>
    match i.after with
    | [] => gotos is gs
    | x :: xs => gotos is (addTo x ⟨i.prod, i.dot + 1, xs⟩ gs)

/-- A number that identifies a list of items. -/
def kernelCode : List Item → ℕ
  | [] => 0
  | i :: is => i.code + 1024 * kernelCode is

/-- A state of the automaton: the items, and for each symbol the next state. -/
structure State where
  items : List Item
  next : List (ℕ × ℕ)
  deriving DecidableEq, Repr

/-- The index of a state, from the codes of the states found. -/
def indexOf (c : ℕ) : List ℕ → ℕ → Option ℕ
  | [], _ => none
  | d :: ds, i => if Nat.beq c d then some i else indexOf c ds (i + 1)

/-- Enter the successors of a state: codes of all states, item sets to be processed, transitions. -/
def enter : List (ℕ × List Item) → List ℕ → List (List Item) → List ℕ × List (List Item) × List (ℕ × ℕ)
  | [], known, queue => (known, queue, [])
  | (x, is) :: gs, known, queue =>
    match indexOf (kernelCode is) known 0 with
    | some j => ((enter gs known queue).1, (enter gs known queue).2.1, (x, j) :: (enter gs known queue).2.2)
    | none =>
      ((enter gs (known ++ [kernelCode is]) (queue ++ [is])).1, (enter gs (known ++ [kernelCode is]) (queue ++ [is])).2.1,
        (x, known.length) :: (enter gs (known ++ [kernelCode is]) (queue ++ [is])).2.2)

/-- ply/yacc.py:1411-1436 `lr0_items`; the first argument bounds the number of states. -/
def statesLoop (starts : List (List Item)) (size : ℕ) : ℕ → List ℕ → List (List Item) → List State
  | 0, _, _ => []
  | _ + 1, _, [] => []
  | n + 1, known, is :: queue =>
    ⟨closure starts size is, (enter (gotos (closure starts size is) []) known queue).2.2⟩ ::
      statesLoop starts size n (enter (gotos (closure starts size is) []) known queue).1
        (enter (gotos (closure starts size is) []) known queue).2.1

/-- The states. -/
def states (ps : List Production) (bound : ℕ) : List State :=
  match ps with
  | [] => []
  | p :: _ => statesLoop (startTable ps) ps.length bound [kernelCode [p.item]] [[p.item]]

/-! ## Lookahead -/

/-- A transition by a nonterminal: a state and the code of the nonterminal. -/
abbrev Trans := ℕ × ℕ

/-- Membership in a set of nonterminals. -/
def inSet (set x : ℕ) : Bool := Nat.ble 64 x && set.testBit (x - 64)

/-- One round of ply/yacc.py:1467-1484 `compute_nullable_nonterminals`. -/
def nullableRound : List Production → ℕ → ℕ
  | [], set => set
  | p :: ps, set => nullableRound ps (if p.rhs.all (inSet set) then set ||| 2 ^ (p.lhs - 64) else set)

/-- ply/yacc.py:1467-1484: rounds until nothing changes; the first argument bounds their number. -/
def nullableLoop (ps : List Production) : ℕ → ℕ → ℕ
  | 0, set => set
  | n + 1, set => if Nat.beq (nullableRound ps set) set then set else nullableLoop ps n (nullableRound ps set)

/-- The nonterminals that derive the empty text. -/
def nullable (ps : List Production) : ℕ := nullableLoop ps.tail 16 0

/-- Find the value of a key. -/
def assoc {α : Type} (x : ℕ) : List (ℕ × α) → Option α
  | [] => none
  | (y, v) :: l => if Nat.beq x y then some v else assoc x l

/-- A state that does not exist. -/
def noState : State := ⟨[], []⟩

/-- The state after a symbol. -/
def stepOn (C : List State) (s x : ℕ) : Option ℕ := assoc x (C.getD s noState).next

/-- ply/yacc.py:1496-1505 `find_nonterminal_transitions`, for a state. -/
def ntNext (s : State) : List (ℕ × ℕ) := s.next.filter fun e => Nat.ble 64 e.1

/-- ply/yacc.py:1516-1533 `dr_relation`: the tokens after the dots in a set of items. -/
def shiftSet : List Item → ℕ
  | [] => 0
  | i :: is =>
    match i.after with
    | [] => shiftSet is
    | x :: _ => if Nat.blt x 64 then 2 ^ x ||| shiftSet is else shiftSet is

/-- ply/yacc.py:1516-1533 `dr_relation`. -/
def directReads (C : List State) (s : ℕ) (e : ℕ × ℕ) : ℕ :=
  if Nat.beq s 0 && Nat.beq e.1 (ntCode .multilineCode) then shiftSet (C.getD e.2 noState).items ||| 2 ^ endCode
  else shiftSet (C.getD e.2 noState).items

/-- ply/yacc.py:1540-1554 `reads_relation`: the nonterminals after the dots that derive the empty text. -/
def nullableAfter (null : ℕ) (is : List Item) : List ℕ :=
  is.filterMap fun i => match i.after with
    | [] => none
    | x :: _ => if inSet null x then some x else none

/-- Sets of tokens for the nonterminal transitions: for each state, for each nonterminal. -/
abbrev Sets := List (List (ℕ × ℕ))

/-- The set of a transition. -/
def Sets.get (F : Sets) (t : Trans) : ℕ := (assoc t.2 (F.getD t.1 [])).getD 0

/-- The union of the sets of some transitions. -/
def Sets.union (F : Sets) : List Trans → ℕ
  | [] => 0
  | t :: ts => F.get t ||| F.union ts

/-- A relation between nonterminal transitions, laid out like `Sets`. -/
abbrev Rel := List (List (ℕ × List Trans))

/-- One round of `F(x) = F'(x) ∪ ⋃ {F(y) | x R y}`. -/
def round (R : Rel) (F : Sets) : Sets :=
  List.zipWith (fun rs fs => List.zipWith (fun r f => (f.1, f.2 ||| F.union r.2)) rs fs) R F

/-- ply/yacc.py:1266-1298 `digraph`: the least solution, here by rounds until nothing changes (the algorithm: `Model/Digraph.lean`). -/
def digraph (R : Rel) : ℕ → Sets → Sets
  | 0, F => F
  | n + 1, F => if round R F = F then F else digraph R n (round R F)

/-- The states with their numbers. -/
def numbered (C : List State) : List (ℕ × State) := (List.range C.length).zip C

/-- `DR` of all nonterminal transitions. -/
def directSets (C : List State) : Sets := (numbered C).map fun s => (ntNext s.2).map fun e => (e.1, directReads C s.1 e)

/-- `READS` of all nonterminal transitions. -/
def readsRel (C : List State) (null : ℕ) : Rel :=
  C.map fun s => (ntNext s).map fun e => (e.1, (nullableAfter null (C.getD e.2 noState).items).map fun x => (e.2, x))

/-- ply/yacc.py:1663-1667 `compute_read_sets`. -/
def readSets (C : List State) (null : ℕ) : Sets := digraph (readsRel C null) 200 (directSets C)

/-- ply/yacc.py:1602-1627: follow the symbols after the dot of an item from state `j`; every nonterminal transition after which only
symbols that derive the empty text follow is noted. -/
def walk (C : List State) (null : ℕ) : List ℕ → ℕ → List Trans × ℕ
  | [], j => ([], j)
  | x :: xs, j =>
    match stepOn C j x with
    | none => ([], j)
    | some k =>
      if Nat.ble 64 x && xs.all (inSet null) then ((j, x) :: (walk C null xs k).1, (walk C null xs k).2)
      else walk C null xs k

/-- The transitions met from the items of a state for a nonterminal.  The dot need not be at the start. -/
def includedBy (C : List State) (null s x : ℕ) : List Item → List (Trans × Trans)
  | [] => []
  | i :: is =>
    if Nat.beq i.prod.lhs x then ((walk C null i.after s).1.map fun t => (t, (s, x))) ++ includedBy C null s x is
    else includedBy C null s x is

/-- ply/yacc.py:1583-1649 `compute_lookback_includes`: the relation INCLUDES, as pairs. -/
def includePairs (C : List State) (null : ℕ) : List (Trans × Trans) :=
  (numbered C).flatMap fun s => (ntNext s.2).flatMap fun e => includedBy C null s.1 e.1 s.2.items

/-- Laid out like `Sets`. -/
def includeRel (C : List State) (pairs : List (Trans × Trans)) : Rel :=
  (numbered C).map fun s => (ntNext s.2).map fun e =>
    (e.1, (pairs.filter fun q => Nat.beq q.1.1 s.1 && Nat.beq q.1.2 e.1).map Prod.snd)

/-- ply/yacc.py:1685-1689 `compute_follow_sets`. -/
def followSets (C : List State) (null : ℕ) : Sets :=
  digraph (includeRel C (includePairs C null)) 200 (readSets C null)

/-- ply/yacc.py:1629-1642: LOOKBACK, as pairs: the state in which a production is complete with its number, and the transition.  Only
items with the dot at the start can match (line 1636). -/
def lookback (C : List State) (null : ℕ) : List (Trans × Trans) :=
  (numbered C).flatMap fun s => (ntNext s.2).flatMap fun e =>
    (s.2.items.filter fun i => Nat.beq i.prod.lhs e.1 && Nat.beq i.dot 0).map fun i =>
      (((walk C null i.after s.1).2, i.prod.number), (s.1, e.1))

/-- ply/yacc.py:1703-1712 `add_lookaheads`: the lookahead of production `p` in state `s`. -/
def lookahead (F : Sets) (back : List (Trans × Trans)) (s p : ℕ) : ℕ :=
  F.union ((back.filter fun q => Nat.beq q.1.1 s && Nat.beq q.1.2 p).map Prod.snd)

/-! ## Tables -/

/-- Entries of the table: positive, negative and zero numbers in PLY. -/
inductive Action
  | shift (s : ℕ)
  | reduce (p : ℕ)
  | accept
  deriving DecidableEq, Repr

/-- `Precedence.get(a, ('right', 0))` -/
def tokenPrec (table : List (Assoc × List PrecName)) (a : ℕ) : Prec :=
  match kinds[a - 1]? with
  | some k => if Nat.beq a 0 then noPrec else (precOf (.tok k) 1 table).getD noPrec
  | none => noPrec

/-- An entry under construction: the action and the production it comes from. -/
abbrev Cell := Option (Action × Production)

/-- ply/yacc.py:1762-1815: a completed item in the column of a token with precedence `sp`. -/
def reduceCell (sp : Prec) (p : Production) : Cell → Cell
  | none => some (.reduce p.number, p)
  | some (.shift j, q) =>
    if sp.2 < p.prec.2 ∨ (sp.2 = p.prec.2 ∧ p.prec.1 = .left) then some (.reduce p.number, p)
    else if sp.2 = p.prec.2 ∧ p.prec.1 = .nonassoc then none
    else some (.shift j, q)
  | some (.reduce r, q) => if q.line > p.line then some (.reduce p.number, p) else some (.reduce r, q)
  | some (.accept, q) => some (.accept, q)

/-- ply/yacc.py:1816-1863: an item with the token after the dot. -/
def shiftCell (sp : Prec) (j : ℕ) (p : Production) : Cell → Cell
  | none => some (.shift j, p)
  | some (.shift k, q) => some (.shift k, q)
  | some (.reduce r, q) =>
    if sp.2 > q.prec.2 ∨ (sp.2 = q.prec.2 ∧ q.prec.1 = .right) then some (.shift j, p)
    else if sp.2 = q.prec.2 ∧ q.prec.1 = .nonassoc then none
    else some (.reduce r, q)
  | some (.accept, q) => some (.accept, q)

/-- ply/yacc.py:1760-1863: the loop over the items of a state with their lookahead, for the column of token `a`. -/
def cell (a : ℕ) (sp : Prec) (next : List (ℕ × ℕ)) : List (Item × ℕ) → Cell → Cell
  | [], c => c
  | (i, la) :: is, c =>
    match i.after with
    | [] =>
      if Nat.beq i.prod.number 0 then
        cell a sp next is (if Nat.beq a endCode then some (.accept, i.prod) else c)
      else cell a sp next is (if la.testBit a then reduceCell sp i.prod c else c)
    | x :: _ =>
      if Nat.beq x a then
        match assoc a next with
        | some j => cell a sp next is (shiftCell sp j i.prod c)
        | none => cell a sp next is c
      else cell a sp next is c

/-- The row of a state: the entries that exist. -/
def actionRow (precs : List (ℕ × Prec)) (next : List (ℕ × ℕ)) (is : List (Item × ℕ)) : List (ℕ × Action) :=
  precs.filterMap fun a => (cell a.1 a.2 next is none).map fun c => (a.1, c.1)

/-- The tables. -/
structure Tables where
  action : List (List (ℕ × Action))
  goto : List (List (ℕ × ℕ))
  deriving DecidableEq, Repr

/-- Only completed items need a lookahead. -/
def withLookahead (F : Sets) (back : List (Trans × Trans)) (s : ℕ) (i : Item) : Item × ℕ :=
  (i, if i.after = [] then lookahead F back s i.prod.number else 0)

/-- ply/yacc.py:1745-1893 `lr_parse_table`, from the states and the lookahead. -/
def tablesFrom (precs : List (ℕ × Prec)) (C : List State) (F : Sets) (back : List (Trans × Trans)) : Tables :=
  ⟨(numbered C).map fun s => actionRow precs s.2.next (s.2.items.map (withLookahead F back s.1)), C.map ntNext⟩

/-- The columns of the table: the tokens and `$end`, with their precedence. -/
def columns (table : List (Assoc × List PrecName)) : List (ℕ × Prec) :=
  (List.range 42).map fun i => (i + 1, tokenPrec table (i + 1))

/-- ply/yacc.py:1321-1343 `LRTable`. -/
def build (table : List (Assoc × List PrecName)) (rs : List Rule) (bound : ℕ) : Tables :=
  tablesFrom (columns table) (states (productions table rs) bound)
    (followSets (states (productions table rs) bound) (nullable (productions table rs)))
    (lookback (states (productions table rs) bound) (nullable (productions table rs)))

end PythonDice.Yacc
