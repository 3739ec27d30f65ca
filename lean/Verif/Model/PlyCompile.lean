import Verif.Model.Lalr
import Verif.Model.PlyLex
import Verif.Model.PlyParse

/-!
# Model of `compile_anydice` with PLY's lexer and parser

`src/parser/parse_and_exec.py:10-37` and 76-86, with the lexer built by `lex()` (`Model/PlyLex.lean`), the tables built by `yacc()`
(`Model/Lalr.lean`), and the loop of `LRParser.parse` (as in `Model/PlyParse.lean`), which here asks the lexer for one token after the other and keeps
the tokens with their lines and positions.  `Model/Compile.lean` is the short description of all this.
-/

namespace PythonDice.PlyCompile

open Yacc (Tables Action Val ParseErr)
open PlyLex (Tok Lex)
open Compiler (YaccReport CompileErr Flags)

/-- Texts. -/
abbrev Text := List Char

/-- The symbols: a token, `$end`, a nonterminal, `error`. -/
inductive Sy
  | tok (t : Tok)
  | fin
  | nt (x : ℕ) (v : Val)
  | err

/-- The terminals are numbered in the order of their names (src/parser/myparser.py:20-33). -/
def typeCode (type : Text) : ℕ := PlyLex.tokenNames.idxOf type + 1

/-- `type` -/
def Sy.type : Sy → ℕ
  | .tok t => typeCode t.type
  | .fin => Yacc.endCode
  | .nt x _ => x
  | .err => PlyParse.errorCode

/-- `getattr(n, 'value', None)`; the value of `error` is not a value of the model. -/
def Sy.value : Sy → Option Val
  | .tok t => some (.text t.value)
  | .fin => none
  | .nt _ v => some v
  | .err => none

/-- The variables of the loop, with the lexer; `bad` is `YACC_ILLEGALs`. -/
structure St where
  states : List ℕ
  syms : List Sy
  state : ℕ
  look : Option Sy
  looks : List (Option Sy)
  count : ℕ
  errok : Bool
  lex : Lex
  bad : List YaccReport

/-- What a turn comes to: `return`, an exception, or another turn. -/
inductive Out
  | ret (v : Option Val) (bad : List YaccReport)
  | exc (e : ParseErr) (bad : List YaccReport)
  | more (s : St)

/-- ply/yacc.py:327-340: get the lookahead; `get_token` is `lexer.token`. -/
def fetch (dig : Char → Bool) (ts : List PlyLex.Table) (data : Text) (s : St) : Sy × St :=
  match s.look with
  | some l => (l, s)
  | none =>
    match s.looks with
    | l :: ls => (l.getD .fin, { s with look := some (l.getD .fin), looks := ls })
    | [] =>
      match PlyLex.token dig ts data (data.length + 1) s.lex with
      | (none, l) => (.fin, { s with look := some .fin, lex := l })
      | (some t, l) => (.tok t, { s with look := some (.tok t), lex := l })

/-- ply/yacc.py:350-364: shift. -/
def shift (j : ℕ) (s : St) : Out :=
  match s.look with
  | some l => .more { s with states := j :: s.states, state := j, syms := l :: s.syms, look := none, count := s.count - 1 }
  | none => .exc .internal s.bad

/-- `p.callable(pslice)`; a symbol without a value makes it fail. -/
def call (f : Yacc.Func) (args : List Sy) : Except ParseErr Val :=
  match args.mapM Sy.value with
  | some vs => f.run vs
  | none => .error .internal

/-- ply/yacc.py:366-465: a reduction. -/
def reduce (T : Tables) (r : Yacc.Rule) (s : St) : Out :=
  match call r.func (s.syms.take r.rhs.length).reverse with
  | .ok v =>
    match s.states.drop r.rhs.length with
    | [] => .exc .internal s.bad
    | q :: qs =>
      match Yacc.goto T q r.lhs with
      | some j =>
        .more { s with syms := .nt (Yacc.ntCode r.lhs) v :: s.syms.drop r.rhs.length, states := j :: q :: qs, state := j }
      | none => .exc .internal s.bad
  | .error .syntaxError =>
    match s.states.tail with
    | [] => .exc .internal s.bad
    | q :: qs =>
      .more ⟨q :: qs, if r.rhs.length = 0 then s.syms else s.syms.tail, q, some .err, s.look :: s.looks, 3, false, s.lex, s.bad⟩
  | .error e => .exc e s.bad

/-- src/parser/myparser.py:617-622 `p_error`: an entry of `YACC_ILLEGALs`. -/
def entry (data : Text) (t : Tok) : YaccReport := ⟨t.value, t.lexpos, t.lineno, Lexer.findColumn data t.lexpos⟩

/-- ply/yacc.py:493-526: report the error unless the last one was less than three tokens ago. -/
def report (data : Text) (l : Sy) (s : St) : St :=
  if s.count = 0 ∨ s.errok = true then
    { s with count := 3, errok := false, bad := (match l with | .tok t => s.bad ++ [entry data t] | _ => s.bad) }
  else { s with count := 3 }

/-- ply/yacc.py:528-578: go on after an error. -/
def recover (l : Sy) (s : St) : Out :=
  if s.states.length ≤ 1 ∧ l.type ≠ Yacc.endCode then .more { s with look := none, state := 0, looks := [] }
  else if l.type = Yacc.endCode then .ret none s.bad
  else if l.type ≠ PlyParse.errorCode then
    match s.syms with
    | .err :: _ => .more { s with look := none }
    | _ => .more { s with looks := some l :: s.looks, look := some .err }
  else
    match s.states.tail with
    | [] => .exc .internal s.bad
    | q :: qs => .more { s with syms := s.syms.tail, states := q :: qs, state := q }

/-- What is to be done for an entry of the table. -/
def act (T : Tables) (s : St) : Action → Out
  | .shift j => shift j s
  | .reduce p =>
    match Yacc.rules[p - 1]? with
    | some r => reduce T r s
    | none => .exc .internal s.bad
  | .accept =>
    match s.syms with
    | l :: _ => .ret l.value s.bad
    | [] => .exc .internal s.bad

/-- ply/yacc.py:319-578: a turn of the loop. -/
def turn (dig : Char → Bool) (ts : List PlyLex.Table) (data : Text) (T : Tables) (s : St) : Out :=
  match PlyParse.defaulted T s.state with
  | some a => act T s a
  | none =>
    match Yacc.action T s.state (fetch dig ts data s).1.type with
    | some a => act T (fetch dig ts data s).2 a
    | none => recover (fetch dig ts data s).1 (report data (fetch dig ts data s).1 (fetch dig ts data s).2)

/-- The loop, for a number of turns: the value or the exception, and `YACC_ILLEGALs`. -/
def run (dig : Char → Bool) (ts : List PlyLex.Table) (data : Text) (T : Tables) : ℕ → St → Option (Except ParseErr (Option Val) × List YaccReport)
  | 0, _ => none
  | n + 1, s =>
    match turn dig ts data T s with
    | .ret v bad => some (.ok v, bad)
    | .exc e bad => some (.error e, bad)
    | .more s' => run dig ts data T n s'

/-- ply/yacc.py:273-318: the start, with a lexer that has been used; `input` (ply/lex.py:152-155) sets its position. -/
def start (l : Lex) : St := ⟨[0], [.fin], 0, none, [], 0, true, { l with lexpos := 0 }, []⟩

/-- src/parser/parse_and_exec.py:82-85: what is made of the outcome of the parser. -/
def finish (fl : Flags) : Except ParseErr (Option Val) × List YaccReport → Except CompileErr Text
  | (.ok (some (.block b)), []) =>
    match Compiler.resolve fl b with
    | .ok t => .ok t
    | .error e => .error (.resolver e)
  | (.ok _, bad) => .error (.yacc bad)
  | (.error e, _) => .error (.action e)

/-- src/parser/parse_and_exec.py:76-86 `compile_anydice`, with at most `n` turns of the loop of the parser: `none` if it has not ended, or if the
lexer cannot be built. -/
def compileAnydice (n : ℕ) (fl : Flags) (dig : Char → Bool) (s : Text) : Option (Except CompileErr Text) :=
  if Compiler.blank s then some (.error .empty)
  else match PlyLex.build dig PlyLex.symbols with
    | none => none
    | some ts =>
      let l := (PlyLex.doLex dig ts s .new).2
      if l.illegal ≠ [] then some (.error (.lex l.illegal))
      else (run dig ts s (Yacc.plyBuild Yacc.precedence Yacc.rules 200) n (start l)).map (finish fl)

end PythonDice.PlyCompile
