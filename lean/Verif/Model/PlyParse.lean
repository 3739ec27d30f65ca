import Verif.Model.Compile

/-!
# Model of `LRParser.parse`: `src/parser/ply/yacc.py:255-581`

The loop with its two stacks, the lookahead and its stack, `defaulted_states` and the recovery from errors.  `Model/Compile.lean` has a shorter
description of it.  Stacks have their top first.  Left out: debugging, tracking (both off), the attributes for positions.
-/

namespace PythonDice.PlyParse

open Lexer (Token)
open Yacc (Tables Action Val ParseErr Parsed)

/-- The symbols: a token with all tokens from it on (they identify its place), `$end`, a nonterminal, `error`. -/
inductive Sy
  | tok (t : Token) (rest : List Token)
  | fin
  | nt (x : ℕ) (v : Val)
  | err

/-- The code of `error`: a terminal of every grammar (ply/yacc.py:773). -/
def errorCode : ℕ := 43

/-- `type` -/
def Sy.type : Sy → ℕ
  | .tok t _ => Yacc.kindCode t.kind
  | .fin => Yacc.endCode
  | .nt x _ => x
  | .err => errorCode

/-- `getattr(n, 'value', None)`; the value of `error` is not a value of the model. -/
def Sy.value : Sy → Option Val
  | .tok t _ => some (.text t.value)
  | .fin => none
  | .nt _ v => some v
  | .err => none

/-- The variables of the loop.  `input` is what the lexer has not returned yet; `bad` is `YACC_ILLEGALs`. -/
structure St where
  states : List ℕ
  syms : List Sy
  state : ℕ
  look : Option Sy
  looks : List (Option Sy)
  count : ℕ
  errok : Bool
  input : List Token
  bad : List (List Token)

/-- What a turn comes to: `return`, an exception, or another turn. -/
inductive Out
  | ret (v : Option Val) (bad : List (List Token))
  | exc (e : ParseErr) (bad : List (List Token))
  | more (s : St)

/-- ply/yacc.py:255-260 `set_defaulted_states`: for a state. -/
def defaulted (T : Tables) (s : ℕ) : Option Action :=
  match T.action.getD s [] with
  | [(_, .reduce p)] => some (.reduce p)
  | _ => none

/-- ply/yacc.py:327-340: get the lookahead. -/
def fetch (s : St) : Sy × St :=
  match s.look with
  | some l => (l, s)
  | none =>
    match s.looks with
    | l :: ls => (l.getD .fin, { s with look := some (l.getD .fin), looks := ls })
    | [] =>
      match s.input with
      | [] => (.fin, { s with look := some .fin })
      | t :: ts => (.tok t (t :: ts), { s with look := some (.tok t (t :: ts)), input := ts })

/-- ply/yacc.py:350-364: shift. -/
def shift (j : ℕ) (s : St) : Out :=
  match s.look with
  | some l => .more { s with states := j :: s.states, state := j, syms := l :: s.syms, look := none, count := s.count - 1 }
  | none => .exc .internal s.bad

/-- `p.callable(pslice)`; a symbol without a value makes it fail. -/
def call (f : Yacc.Func) (args : List Sy) : Except ParseErr Val :=
  match args.mapM Sy.value with
  | some vs => f.run vs
  | none => .error .internal

/-- ply/yacc.py:366-465: a reduction; `n` is the number of symbols.  The two branches for `n = 0` and `n > 0` differ in what is put back on the stack
of symbols if the function raises `SyntaxError`. -/
def reduce (T : Tables) (r : Yacc.Rule) (s : St) : Out :=
  match call r.func (s.syms.take r.rhs.length).reverse with
  | .ok v =>
    match s.states.drop r.rhs.length with
    | [] => .exc .internal s.bad
    | q :: qs =>
      match Yacc.goto T q r.lhs with
      | some j =>
        .more { s with syms := .nt (Yacc.ntCode r.lhs) v :: s.syms.drop r.rhs.length, states := j :: q :: qs, state := j }
      | none => .exc .internal s.bad
  | .error .syntaxError =>
    match s.states.tail with
    | [] => .exc .internal s.bad
    | q :: qs =>
      .more ⟨q :: qs, if r.rhs.length = 0 then s.syms else s.syms.tail, q, some .err, s.look :: s.looks, 3, false, s.input, s.bad⟩
  | .error e => .exc e s.bad

/-- ply/yacc.py:493-526 and src/parser/myparser.py:617-622 `p_error`: report the error unless the last one was less than three tokens ago. -/
def report (l : Sy) (s : St) : St :=
  if s.count = 0 ∨ s.errok = true then
    { s with count := 3, errok := false, bad := (match l with | .tok _ rest => s.bad ++ [rest] | _ => s.bad) }
  else { s with count := 3 }

/-- ply/yacc.py:528-578: go on after an error. -/
def recover (l : Sy) (s : St) : Out :=
  if s.states.length ≤ 1 ∧ l.type ≠ Yacc.endCode then .more { s with look := none, state := 0, looks := [] }
  else if l.type = Yacc.endCode then .ret none s.bad
  else if l.type ≠ errorCode then
    match s.syms with
    | .err :: _ => .more { s with look := none }
    | _ => .more { s with looks := some l :: s.looks, look := some .err }
  else
    match s.states.tail with
    | [] => .exc .internal s.bad
    | q :: qs => .more { s with syms := s.syms.tail, states := q :: qs, state := q }

/-- What is to be done for an entry of the table. -/
def act (T : Tables) (s : St) : Action → Out
  | .shift j => shift j s
  | .reduce p =>
    match Yacc.rules[p - 1]? with
    | some r => reduce T r s
    | none => .exc .internal s.bad
  | .accept =>
    match s.syms with
    | l :: _ => .ret l.value s.bad
    | [] => .exc .internal s.bad

/-- ply/yacc.py:319-578: a turn of the loop. -/
def turn (T : Tables) (s : St) : Out :=
  match defaulted T s.state with
  | some a => act T s a
  | none =>
    match Yacc.action T s.state (fetch s).1.type with
    | some a => act T (fetch s).2 a
    | none => recover (fetch s).1 (report (fetch s).1 (fetch s).2)

/-- The loop, for a number of turns. -/
def run (T : Tables) : ℕ → St → Option Parsed
  | 0, _ => none
  | n + 1, s =>
    match turn T s with
    | .ret v bad => some ⟨.ok v, bad⟩
    | .exc e bad => some ⟨.error e, bad⟩
    | .more s' => run T n s'

/-- ply/yacc.py:273-318: the start. -/
def start (ts : List Token) : St := ⟨[0], [.fin], 0, none, [], 0, true, ts, []⟩

end PythonDice.PlyParse
