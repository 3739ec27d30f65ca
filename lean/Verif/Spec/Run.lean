import Verif.Model.PyOps
import Verif.Model.Funclib
import Verif.Spec.Syntax

/-!
# Specification vocabulary: what a program does

A program is run on its syntax tree, with the operations of the library on objects.  There is no Python here: no names of functions, no
dictionaries, no text.  The two ways in which a function can see variables are both described: in anydice a function works on a copy of the
variables of its caller; in Python it has its own variables and reads those of the module.
-/

namespace Spec

open PythonDice PythonDice.Compiler

/-- Variables; the first entry counts. -/
abbrev Vars := List (List Char × Obj)

/-- What a program is run under. -/
structure Rules where
  /-- functions work on a copy of the variables of their caller, instead of having their own variables and reading those of the program -/
  copy : Bool
  /-- `@`, `&`, `|`, `!` and `#` treat numbers as anydice does, instead of as Python does -/
  ints : Bool
  /-- the function library is there -/
  lib : Bool
  deriving DecidableEq

/-- The variables in sight: `own` are the names that belong to the function, if it has its own variables. -/
structure Frame where
  own : Option (List (List Char))
  env : Vars
  outer : Vars

/-- The value of a variable. -/
def Frame.find (f : Frame) (x : List Char) : Option Obj :=
  match f.own with
  | none => f.env.lookup x
  | some names => if x ∈ names then f.env.lookup x else f.outer.lookup x

/-- Giving a value to a variable. -/
def Frame.set (f : Frame) (x : List Char) (o : Obj) : Frame := { f with env := (x, o) :: f.env }

/-- The variables of the program. -/
def Frame.program (f : Frame) : Vars :=
  match f.own with
  | none => f.env
  | some _ => f.outer

/-- What a function name stands for. -/
inductive Fn
  | user (d : List DefPart) (body : Block)
  | lib (f : List Obj → M Obj)

/-- The functions defined so far; the first entry counts. -/
abbrev Fns := List (Sig × Fn)

/-- A function of one argument. -/
def fn1 (f : Obj → M Obj) : Fn := .lib fun
  | [a] => f a
  | _ => M.throw .type

/-- A function of two arguments. -/
def fn2 (f : Obj → Obj → M Obj) : Fn := .lib fun
  | [a, b] => f a b
  | _ => M.throw .type

/-- The function library. -/
def libraryFns : Fns :=
  [([some "absolute".toList, none], fn1 absolute), ([none, some "contains".toList, none], fn2 contains),
    ([some "count".toList, none, some "in".toList, none], fn2 countIn), ([some "explode".toList, none], fn1 fun d => explode d),
    ([some "highest".toList, none, some "of".toList, none], fn2 highestN), ([some "lowest".toList, none, some "of".toList, none], fn2 lowestN),
    ([some "middle".toList, none, some "of".toList, none], fn2 middleN),
    ([some "highest".toList, some "of".toList, none, some "and".toList, none], fn2 highestOf),
    ([some "lowest".toList, some "of".toList, none, some "and".toList, none], fn2 lowestOf),
    ([some "maximum".toList, some "of".toList, none], fn1 maximumOf), ([some "reverse".toList, none], fn1 reverse),
    ([some "sort".toList, none], fn1 sort), ([some "true".toList, some "div".toList, none, none], fn2 trueDiv)]

/-- A variable without value is an error: KeyError or NameError. -/
def Rules.missing (R : Rules) : PythonDice.Err := if R.copy then .key else .name

/-- The value of a variable. -/
def getVar (R : Rules) (f : Frame) (x : List Char) : M Obj :=
  match f.find x with
  | some o => pure o
  | none => M.throw R.missing

/-- The text of a string in which variables are named. -/
def textOf (R : Rules) (f : Frame) : List StrPart → M PyText
  | [] => pure []
  | .text s :: ps => do
    let t ← textOf R f ps
    pure (s.map .inl ++ t)
  | .var x :: ps => do
    let o ← getVar R f x
    let t ← textOf R f ps
    pure (.inr o :: t)

/-- The value of decimal digits. -/
def decimal (s : List Char) : ℤ := ((s.foldl (fun n c => 10 * n + (c.toNat - '0'.toNat)) 0 : ℕ) : ℤ)

/-- Binary operations. -/
def runBin (ints : Bool) : Compiler.BinOp → Obj → Obj → M Obj
  | .add => binop .add
  | .sub => binop .sub
  | .mul => binop .mul
  | .div => binop .floordiv
  | .pow => binop .pow
  | .lt => binop .lt
  | .gt => binop .gt
  | .eq => binop .eq
  | .ne => binop .ne
  | .le => binop .le
  | .ge => binop .ge
  | .at_ => if ints then myMatmul else matmul
  | .and_ => if ints then myAnd else binop .and_
  | .or_ => if ints then myOr else binop .or_

/-- Unary operations. -/
def runUnary (ints : Bool) : UnOp → Obj → M Obj
  | .plus => posOp
  | .minus => negOp
  | .not_ => if ints then myInvert else invertOp

/-- `#` -/
def runLen (ints : Bool) (a : Obj) : M Obj := if ints then pure (.num (myLen a)) else lenOp a

/-- How user functions are called: the variables in sight, the functions, parameters, body, arguments. -/
abbrev RunCall := Frame → Fns → List DefPart → Block → List Obj → M Obj

/-- A call. -/
def applyFn (call : RunCall) (fns : Fns) (fr : Frame) (f : Fn) (args : List Obj) : M Obj :=
  match f with
  | .lib g => g args
  | .user d body => call fr fns d body args

/-- The function of a name. -/
def getFn (fns : Fns) (s : Sig) : M Fn :=
  match fns.lookup s with
  | some f => pure f
  | none => M.throw .name

mutual

/-- The value of an expression.  Strings and decimals are not modelled. -/
def runE (R : Rules) (call : RunCall) (fns : Fns) (fr : Frame) : Expr → M Obj
  | .num n => pure (.num (decimal n))
  | .dec _ _ => M.throw .unmodelled
  | .var x => getVar R fr x
  | .str _ => M.throw .unmodelled
  | .group e => runE R call fns fr e
  | .bin op l r => do
    let a ← runE R call fns fr l
    let b ← runE R call fns fr r
    runBin R.ints op a b
  | .ndm l r => do
    let a ← runE R call fns fr l
    let b ← runE R call fns fr r
    roll a b
  | .dm r => do
    let b ← runE R call fns fr r
    roll1 b
  | .unary op e => do
    let a ← runE R call fns fr e
    runUnary R.ints op a
  | .hash e => do
    let a ← runE R call fns fr e
    runLen R.ints a
  | .seq es => do
    let items ← runElems R call fns fr es
    pure (.seq (getSeq [.iter (items.map Obj.toSrc)]))
  | .call cs => do
    let f ← getFn fns (callSig cs)
    let args ← runArgs R call fns fr cs
    applyFn call fns fr f args

/-- The elements of a sequence. -/
def runElems (R : Rules) (call : RunCall) (fns : Fns) (fr : Frame) : Elems → M (List Obj)
  | .nil => pure []
  | .expr e es => do
    let a ← runE R call fns fr e
    let items ← runElems R call fns fr es
    pure (a :: items)
  | .range l r es => do
    let a ← runE R call fns fr l
    let b ← runE R call fns fr r
    let s ← myRange a b
    let items ← runElems R call fns fr es
    pure (s :: items)

/-- The arguments of a call. -/
def runArgs (R : Rules) (call : RunCall) (fns : Fns) (fr : Frame) : CallParts → M (List Obj)
  | .nil => pure []
  | .word _ cs => runArgs R call fns fr cs
  | .arg e cs => do
    let a ← runE R call fns fr e
    let as ← runArgs R call fns fr cs
    pure (a :: as)

end

/-- What a program has at a point: functions and variables. -/
structure State where
  fns : Fns
  fr : Frame

/-- A loop over the numbers of a sequence, until there is a result. -/
def runLoop (f : State → ℤ → M (State × Option Obj)) : List ℤ → State → M (State × Option Obj)
  | [], s => pure (s, none)
  | n :: ns, s => do
    let r ← f s n
    match r.2 with
    | some v => pure (r.1, some v)
    | none => runLoop f ns r.1

/-- The value of a setting: a string or the value of an expression. -/
def runSet (R : Rules) (call : RunCall) (s : State) (name : List StrPart) : Expr → M Unit
  | .str ps => do
    let n ← textOf R s.fr name
    let t ← textOf R s.fr ps
    settingsSetStr n t
  | e => do
    let n ← textOf R s.fr name
    let o ← runE R call s.fns s.fr e
    settingsSetObj n o

mutual

/-- A statement: functions and variables after it, and the result, if it gives one. -/
def runS (R : Rules) (call : RunCall) : Stmt → State → M (State × Option Obj)
  | .output e, s => do
    let o ← runE R call s.fns s.fr e
    emitOutput o none
    pure (s, none)
  | .outputNamed e n, s => do
    let o ← runE R call s.fns s.fr e
    let t ← textOf R s.fr n
    emitOutput o (some t)
    pure (s, none)
  | .set n v, s => do
    runSet R call s n v
    pure (s, none)
  | .function d body, s => pure ({ s with fns := (defSig d, .user d body) :: s.fns }, none)
  | .result e, s => do
    let o ← runE R call s.fns s.fr e
    pure (s, some o)
  | .cond c body rest, s => do
    let o ← runE R call s.fns s.fr c
    let t ← truthOp o
    if t then runB R call body s else runElse R call rest s
  | .loop x e body, s => do
    let o ← runE R call s.fns s.fr e
    let ns ← iterOp o
    runLoop (fun s n => runB R call body { s with fr := s.fr.set x (.num n) }) ns s
  | .assign x e, s => do
    let o ← runE R call s.fns s.fr e
    pure ({ s with fr := s.fr.set x o }, none)

/-- A block. -/
def runB (R : Rules) (call : RunCall) : Block → State → M (State × Option Obj)
  | .nil, s => pure (s, none)
  | .cons st b, s => do
    let r ← runS R call st s
    match r.2 with
    | some v => pure (r.1, some v)
    | none => runB R call b r.1

/-- Alternatives. -/
def runElse (R : Rules) (call : RunCall) : Else → State → M (State × Option Obj)
  | .done, s => pure (s, none)
  | .else_ b, s => runB R call b s
  | .elif c b r, s => do
    let o ← runE R call s.fns s.fr c
    let t ← truthOp o
    if t then runB R call b s else runElse R call r s

end

mutual

/-- The variables that a statement gives values to. -/
def assignsS : Stmt → List (List Char)
  | .assign x _ => [x]
  | .cond _ b r => assignsB b ++ assignsE r
  | .loop x _ b => x :: assignsB b
  | _ => []

/-- The same of a block. -/
def assignsB : Block → List (List Char)
  | .nil => []
  | .cons s b => assignsS s ++ assignsB b

/-- The same of alternatives. -/
def assignsE : Else → List (List Char)
  | .done => []
  | .else_ b => assignsB b
  | .elif _ b r => assignsB b ++ assignsE r

end

/-- The parameter of a part of a definition, with its type: number, sequence or die. -/
def paramOf : DefPart → Option (List Char × Option Ty)
  | .word _ => none
  | .param x => some (x, none)
  | .typed x t =>
    some (x, if t = "n".toList then some .N else if t = "s".toList then some .S else if t = "d".toList then some .D else none)

/-- The parameters of a definition. -/
def paramsOf (d : List DefPart) : List (List Char × Option Ty) := d.filterMap paramOf

/-- The variables at the beginning of a function.  Of parameters with the same name the first counts. -/
def enter (R : Rules) (fr : Frame) (d : List DefPart) (body : Block) (args : List Obj) : Frame :=
  if R.copy then ⟨none, ((paramsOf d).map Prod.fst).zip args ++ fr.env, []⟩
  else ⟨some ((paramsOf d).map Prod.fst ++ assignsB body), ((paramsOf d).map Prod.fst).zip args, fr.program⟩

/-- User functions calling each other at most so deep.  Arguments are converted to the types of the parameters. -/
def runCall (R : Rules) : ℕ → RunCall
  | 0 => fun _ _ _ _ _ => M.throw .fuel
  | n + 1 => fun fr fns d body args =>
    fnCall (fun os => do
      let r ← runB R (runCall R n) body ⟨fns, enter R fr d body os⟩
      pure r.2) (((paramsOf d).map Prod.snd).zip args)

/-- A program, from its beginning: the outputs. -/
def run (R : Rules) (n : ℕ) (p : Block) : M (List (Obj × Option PyText)) := do
  M.modify fun w => { w with outs := [] }
  let _ ← runB R (runCall R n) p ⟨if R.lib then libraryFns else [], ⟨none, [], []⟩⟩
  let w ← M.get
  pure w.outs

end Spec
