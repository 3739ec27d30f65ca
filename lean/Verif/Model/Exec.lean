import Verif.Model.PyOps
import Verif.Model.Funclib
import Verif.Spec.PyProgram

/-!
# Model of `unsafe_exec`: Python executing the generated code

src/parser/parse_and_exec.py:126-135 hands the generated text to Python's `exec` with the names of `_get_lib()` (lines 46-80) as globals.  This
is an interpreter of the fragment of Python that `Spec.Py.readProgram` reads, over the objects of the model.  What lies outside of the model
(floats, strings as operands, names of Python itself other than `len`) raises the sentinel `Err.unmodelled`; running out of
steps raises `Err.fuel`.
-/

namespace PythonDice.Exec

open Spec.Py

/-- A text. -/
abbrev Text := List Char

/-- A user function: its parameters with their types, and its body. -/
structure FDef where
  params : List (Text × Option Ty)
  body : Block

/-- The names of `_get_lib()`. -/
inductive Lib
  /-- `output` as replaced in src/parser/parse_and_exec.py:132 -/
  | output
  /-- src/settings.py:19-39 -/
  | settings
  /-- src/factory.py:14-26 -/
  | getSeq
  /-- src/roller.py:11-54 -/
  | roll
  /-- src/decorators.py:16-19 -/
  | casting
  /-- a function of so many objects -/
  | exact (k : ℕ) (f : List Obj → M Obj)
  /-- a function that ignores further arguments: `*args, **kwargs` -/
  | atLeast (k : ℕ) (f : List Obj → M Obj)
  /-- modules and classes that generated code does not name -/
  | other

/-- What a variable of Python can hold. -/
inductive Val
  | obj (o : Obj)
  | str (t : PyText)
  | list (items : List Obj)
  | dict (i : ℕ)
  | fn (f : FDef)
  | lib (f : Lib)
  | ty (t : Ty)
  | none

/-- Variables; the first entry counts. -/
abbrev Env := List (Text × Val)

/-- The function on a list with one element. -/
def app1 (f : Obj → M Obj) : List Obj → M Obj
  | [a] => f a
  | _ => M.throw .type

/-- The function on a list with two elements. -/
def app2 (f : Obj → Obj → M Obj) : List Obj → M Obj
  | [a, b] => f a b
  | _ => M.throw .type

/-- `len`. -/
def lenFn : Lib := .exact 1 (app1 lenOp)

/-- src/parser/parse_and_exec.py:46-80 `_get_lib`, with the `output` of line 132. -/
def libGlobals : Env :=
  [("math".toList, .lib .other), ("itertools".toList, .lib .other), ("random".toList, .lib .other), ("functools".toList, .lib .other),
    ("RV".toList, .lib .other), ("Seq".toList, .lib .other), ("get_seq".toList, .lib .getSeq), ("anydice_casting".toList, .lib .casting),
    ("roll".toList, .lib .roll), ("myrange".toList, .lib (.exact 2 (app2 myRange))), ("settings_set".toList, .lib .settings),
    ("output".toList, .lib .output),
    ("T_N".toList, .ty .N), ("T_S".toList, .ty .S), ("T_D".toList, .ty .D),
    ("absolute_X".toList, .lib (.atLeast 1 (app1 absolute))), ("X_contains_X".toList, .lib (.atLeast 2 (app2 contains))),
    ("count_X_in_X".toList, .lib (.atLeast 2 (app2 countIn))), ("explode_X".toList, .lib (.atLeast 1 (app1 fun d => explode d))),
    ("highest_X_of_X".toList, .lib (.atLeast 2 (app2 highestN))), ("lowest_X_of_X".toList, .lib (.atLeast 2 (app2 lowestN))),
    ("middle_X_of_X".toList, .lib (.atLeast 2 (app2 middleN))), ("highest_of_X_and_X".toList, .lib (.atLeast 2 (app2 highestOf))),
    ("lowest_of_X_and_X".toList, .lib (.atLeast 2 (app2 lowestOf))), ("maximum_of_X".toList, .lib (.atLeast 1 (app1 maximumOf))),
    ("reverse_X".toList, .lib (.atLeast 1 (app1 reverse))), ("sort_X".toList, .lib (.atLeast 1 (app1 sort))),
    ("myMatmul".toList, .lib (.exact 2 (app2 myMatmul))), ("myLen".toList, .lib (.exact 1 (app1 fun a => pure (.num (myLen a))))),
    ("myInvert".toList, .lib (.exact 1 (app1 myInvert))), ("myAnd".toList, .lib (.exact 2 (app2 myAnd))),
    ("myOr".toList, .lib (.exact 2 (app2 myOr))), ("true_div_X_X".toList, .lib (.exact 2 (app2 trueDiv)))]

/-- The names of Python itself that are spelled with lower case letters only. -/
def builtins : List Text :=
  ["abs", "aiter", "all", "anext", "any", "ascii", "bin", "bool", "breakpoint", "bytearray", "bytes", "callable", "chr", "classmethod",
    "compile", "complex", "copyright", "credits", "delattr", "dict", "dir", "divmod", "enumerate", "eval", "exec", "exit", "filter", "float",
    "format", "frozenset", "getattr", "globals", "hasattr", "hash", "help", "hex", "id", "input", "int", "isinstance", "issubclass", "iter",
    "len", "license", "list", "locals", "map", "max", "memoryview", "min", "next", "object", "oct", "open", "ord", "pow", "print",
    "property", "quit", "range", "repr", "reversed", "round", "set", "setattr", "slice", "sorted", "staticmethod", "str", "sum", "super",
    "tuple", "type", "vars", "zip"].map String.toList

/-- The variables in sight: those of the module, and in a function its own, with the names that are its own. -/
structure Scope where
  globals : Env
  locals : Option (List Text × Env)

/-- A name that is not local. -/
def globalFind (g : Env) (x : Text) : Except Err Val :=
  match g.lookup x with
  | some v => .ok v
  | none => if x = "len".toList then .ok (.lib lenFn) else if x ∈ builtins then .error .unmodelled else .error .name

/-- A name that is local. -/
def localFind (env : Env) (x : Text) : Except Err Val :=
  match env.lookup x with
  | some v => .ok v
  | none => .error .name

/-- The value of a name: local variables, then those of the module, then Python's own. -/
def Scope.find (σ : Scope) (x : Text) : Except Err Val :=
  match σ.locals with
  | some l => if x ∈ l.1 then localFind l.2 x else globalFind σ.globals x
  | none => globalFind σ.globals x

/-- Binding a name. -/
def Scope.set (σ : Scope) (x : Text) (v : Val) : Scope :=
  match σ.locals with
  | some l => { σ with locals := some (l.1, (x, v) :: l.2) }
  | none => { σ with globals := (x, v) :: σ.globals }

/-- `d[k]`. -/
def dictGet (i : ℕ) (k : Text) : M Obj := fun w =>
  match w.dicts[i]? with
  | some d =>
    match d.lookup k with
    | some o => (.ok o, w)
    | none => (.error .key, w)
  | none => (.error .unmodelled, w)

/-- `d[k] = o`. -/
def dictSet (i : ℕ) (k : Text) (o : Obj) : M Unit :=
  M.modify fun w => { w with dicts := w.dicts.modify i ((k, o) :: ·) }

/-- `{}` -/
def dictNew : M ℕ := fun w => (.ok w.dicts.length, { w with dicts := w.dicts ++ [[]] })

/-- `d.copy()` -/
def dictCopy (i : ℕ) : M ℕ := fun w =>
  match w.dicts[i]? with
  | some d => (.ok w.dicts.length, { w with dicts := w.dicts ++ [d] })
  | none => (.error .unmodelled, w)

/-- Raise or return. -/
def lift {β : Type} (r : Except Err β) : M β := fun w => (r, w)

/-- The values are objects of the library. -/
def objs : List Val → Option (List Obj)
  | [] => some []
  | .obj o :: vs => (objs vs).map (o :: ·)
  | _ :: _ => none

/-- Calling what `_get_lib()` contains. -/
def callLib (f : Lib) (args : List Val) : M Val :=
  match f, args with
  | .output, [.obj o] => do
    emitOutput o none
    pure .none
  | .settings, [.str n, .obj v] => do
    settingsSetObj n v
    pure .none
  | .settings, [.str n, .str v] => do
    settingsSetStr n v
    pure .none
  | .getSeq, [.list os] => pure (.obj (.seq (getSeq [.iter (os.map Obj.toSrc)])))
  | .roll, [.obj d] => .obj <$> roll1 d
  | .roll, [.obj n, .obj d] => .obj <$> roll n d
  | .exact k f, args =>
    if args.length ≠ k then M.throw .type
    else match objs args with
      | some os => .obj <$> f os
      | none => M.throw .unmodelled
  | .atLeast k f, args =>
    if args.length < k then M.throw .type
    else match objs (args.take k) with
      | some os => .obj <$> f os
      | none => M.throw .unmodelled
  | _, _ => M.throw .unmodelled

/-- How user functions are called, given the variables of the module. -/
abbrev Caller := Env → FDef → List Val → M Val

/-- A call. -/
def applyVal (call : Caller) (g : Env) (f : Val) (args : List Val) : M Val :=
  match f with
  | .lib f => callLib f args
  | .fn f => call g f args
  | .obj _ => M.throw .type
  | _ => M.throw .unmodelled

/-- The operators on objects. -/
def pyOp (op : Text) : Option (Obj → Obj → M Obj) :=
  if op = "+".toList then some (binop .add)
  else if op = "-".toList then some (binop .sub)
  else if op = "*".toList then some (binop .mul)
  else if op = "//".toList then some (binop .floordiv)
  else if op = "/".toList then some (binop .truediv)
  else if op = "**".toList then some (binop .pow)
  else if op = "@".toList then some matmul
  else if op = "&".toList then some (binop .and_)
  else if op = "|".toList then some (binop .or_)
  else if op = "<".toList then some (binop .lt)
  else if op = ">".toList then some (binop .gt)
  else if op = "==".toList then some (binop .eq)
  else if op = "!=".toList then some (binop .ne)
  else if op = "<=".toList then some (binop .le)
  else if op = ">=".toList then some (binop .ge)
  else none

/-- `a op b`. -/
def binVal (op : Text) (a b : Val) : M Val :=
  match pyOp op, a, b with
  | some f, .obj a, .obj b => .obj <$> f a b
  | _, _, _ => M.throw .unmodelled

/-- `op a`. -/
def unaryVal (op : Text) (a : Val) : M Val :=
  match a with
  | .obj a =>
    if op = "-".toList then .obj <$> negOp a
    else if op = "+".toList then .obj <$> posOp a
    else if op = "~".toList then .obj <$> invertOp a
    else M.throw .unmodelled
  | _ => M.throw .unmodelled

/-- `bool(a)`. -/
def truthVal : Val → M Bool
  | .obj o => truthOp o
  | _ => M.throw .unmodelled

/-- `iter(a)`. -/
def iterVal : Val → M (List ℤ)
  | .obj o => iterOp o
  | _ => M.throw .unmodelled

/-- An object of the library. -/
def asObj : Val → M Obj
  | .obj o => pure o
  | _ => M.throw .unmodelled

/-- A string. -/
def asStr : Val → M PyText
  | .str t => pure t
  | _ => M.throw .unmodelled

/-- A dictionary. -/
def asDict : Val → M ℕ
  | .dict i => pure i
  | _ => M.throw .unmodelled

/-- A list display. -/
def listVal (vs : List Val) : M Val :=
  match objs vs with
  | some os => pure (.list os)
  | none => M.throw .unmodelled

/-- `a['k']`. -/
def indexVal (a i : Val) : M Val :=
  match a, i with
  | .dict i, .str t =>
    match plainText t with
    | some k => .obj <$> dictGet i k
    | none => M.throw .unmodelled
  | _, _ => M.throw .unmodelled

/-- The value of a field of an f-string: `{X}` or `{vars['X']}`. -/
def fieldVal (σ : Scope) (e : Text) : M Obj :=
  if "vars['".toList <+: e ∧ "']".toList <:+ e then do
    let d ← lift (σ.find "vars".toList)
    let i ← asDict d
    dictGet i ((e.drop 6).dropLast.dropLast)
  else do
    let v ← lift (σ.find e)
    asObj v

/-- The value of an f-string. -/
def fstrVal (σ : Scope) : List FPiece → M PyText
  | [] => pure []
  | .char c :: ps => do
    let t ← fstrVal σ ps
    pure (.inl c :: t)
  | .field e :: ps => do
    let o ← fieldVal σ e
    let t ← fstrVal σ ps
    pure (.inr o :: t)

/-- The value of decimal digits. -/
def digitsVal (s : Text) : ℤ := ((s.foldl (fun n c => 10 * n + (c.toNat - '0'.toNat)) 0 : ℕ) : ℤ)

mutual

/-- The value of an expression. -/
def evalE (call : Caller) (σ : Scope) : Expr → M Val
  | .name x => lift (σ.find x)
  | .int s => pure (.obj (.num (digitsVal s)))
  | .float _ _ => M.throw .unmodelled
  | .fstr ps => .str <$> fstrVal σ ps
  | .str s => pure (.str (s.map .inl))
  | .bin op l r => do
    let a ← evalE call σ l
    let b ← evalE call σ r
    binVal op a b
  | .cmp false op l r => do
    let a ← evalE call σ l
    let b ← evalE call σ r
    binVal op a b
  | .cmp true op l r => do
    let p ← evalCmp call σ l
    match p.2 with
    | none => pure p.1
    | some b => do
      let t ← truthVal p.1
      if t then do
        let c ← evalE call σ r
        binVal op b c
      else pure p.1
  | .unary op e => do
    let a ← evalE call σ e
    unaryVal op a
  | .call f args => do
    let f ← evalE call σ f
    let vs ← evalArgs call σ args
    applyVal call σ.globals f vs
  | .index e i => do
    let a ← evalE call σ e
    let b ← evalE call σ i
    indexVal a b
  | .list args => do
    let vs ← evalArgs call σ args
    listVal vs

/-- The value of a comparison to be continued, with its last operand, unless a comparison before was false. -/
def evalCmp (call : Caller) (σ : Scope) : Expr → M (Val × Option Val)
  | .cmp false op l r => do
    let a ← evalE call σ l
    let b ← evalE call σ r
    let v ← binVal op a b
    pure (v, some b)
  | .cmp true op l r => do
    let p ← evalCmp call σ l
    match p.2 with
    | none => pure p
    | some b => do
      let t ← truthVal p.1
      if t then do
        let c ← evalE call σ r
        let v ← binVal op b c
        pure (v, some c)
      else pure (p.1, none)
  | _ => M.throw .unmodelled

/-- The values of arguments, from the left. -/
def evalArgs (call : Caller) (σ : Scope) : Args → M (List Val)
  | .nil => pure []
  | .cons e as => do
    let v ← evalE call σ e
    let vs ← evalArgs call σ as
    pure (v :: vs)

end

mutual

/-- The names that a statement binds. -/
def bindsS : Stmt → List Text
  | .assign x _ => [x]
  | .newDict x => [x]
  | .copyDict x => [x]
  | .cond _ b r => bindsB b ++ bindsE r
  | .for_ x _ b => x :: bindsB b
  | .def_ _ f _ _ => [f]
  | _ => []

/-- The same of a block. -/
def bindsB : Block → List Text
  | .nil => []
  | .cons s b => bindsS s ++ bindsB b

/-- The same of alternatives. -/
def bindsE : Else → List Text
  | .done => []
  | .else_ b => bindsB b
  | .elif _ b r => bindsB b ++ bindsE r

end

/-- The type that an annotation names; an int is none of the types, and src/decorators.py:56-59 passes it over. -/
def annotation (σ : Scope) : Option Text → M (Option Ty)
  | none => pure none
  | some t => do
    let v ← lift (σ.find t)
    match v with
    | .ty t => pure (some t)
    | .obj (.num _) => pure none
    | _ => M.throw .unmodelled

/-- Parameters with the types that their annotations name. -/
def annotations (σ : Scope) : List (Text × Option Text) → M (List (Text × Option Ty))
  | [] => pure []
  | p :: ps => do
    let t ← annotation σ p.2
    let ts ← annotations σ ps
    pure ((p.1, t) :: ts)

/-- Is it `anydice_casting`? -/
def isCasting : Val → Bool
  | .lib .casting => true
  | _ => false

/-- A loop over the elements of a sequence, until something is returned. -/
def forLoop (f : Scope → ℤ → M (Scope × Option Val)) : List ℤ → Scope → M (Scope × Option Val)
  | [], σ => pure (σ, none)
  | n :: ns, σ => do
    let r ← f σ n
    match r.2 with
    | some v => pure (r.1, some v)
    | none => forLoop f ns r.1

/-- `output(e, named=t)` -/
def callKw (f : Val) (a : Val) (k : Text) (v : Val) : M Unit :=
  match f, a, v with
  | .lib .output, .obj o, .str t => if k = "named".toList then emitOutput o (some t) else M.throw .unmodelled
  | _, _, _ => M.throw .unmodelled

/-- The definition of a function; functions in functions are not modelled. -/
def defStmt (σ : Scope) (deco : Bool) (f : Text) (ps : List (Text × Option Text)) (body : Block) : M Scope :=
  if deco = true ∧ σ.locals.isNone = true then do
    let c ← lift (σ.find "anydice_casting".toList)
    let ps ← annotations σ ps
    if isCasting c = true then pure (σ.set f (.fn ⟨ps, body⟩)) else M.throw .unmodelled
  else M.throw .unmodelled

mutual

/-- The execution of a statement: the variables after it, and what is returned, if it returns. -/
def execS (call : Caller) : Stmt → Scope → M (Scope × Option Val)
  | .expr e, σ => do
    let _ ← evalE call σ e
    pure (σ, none)
  | .exprKw f e k v, σ => do
    let f ← lift (σ.find f)
    let a ← evalE call σ e
    let b ← evalE call σ v
    callKw f a k b
    pure (σ, none)
  | .assign x e, σ => do
    let v ← evalE call σ e
    pure (σ.set x v, none)
  | .setItem d k e, σ => do
    let v ← evalE call σ e
    let o ← asObj v
    let d ← lift (σ.find d)
    let i ← asDict d
    dictSet i k o
    pure (σ, none)
  | .newDict d, σ => do
    let i ← dictNew
    pure (σ.set d (.dict i), none)
  | .copyDict d, σ => do
    let v ← lift (σ.find d)
    let i ← asDict v
    let j ← dictCopy i
    pure (σ.set d (.dict j), none)
  | .ret e, σ => do
    let v ← evalE call σ e
    pure (σ, some v)
  | .pass, σ => pure (σ, none)
  | .cond c b r, σ => do
    let v ← evalE call σ c
    let t ← truthVal v
    if t then execB call b σ else execElse call r σ
  | .for_ x e b, σ => do
    let v ← evalE call σ e
    let ns ← iterVal v
    forLoop (fun σ n => execB call b (σ.set x (.obj (.num n)))) ns σ
  | .def_ deco f ps b, σ => do
    let σ ← defStmt σ deco f ps b
    pure (σ, none)

/-- The execution of a block. -/
def execB (call : Caller) : Block → Scope → M (Scope × Option Val)
  | .nil, σ => pure (σ, none)
  | .cons s b, σ => do
    let r ← execS call s σ
    match r.2 with
    | some v => pure (r.1, some v)
    | none => execB call b r.1

/-- The execution of alternatives. -/
def execElse (call : Caller) : Else → Scope → M (Scope × Option Val)
  | .done, σ => pure (σ, none)
  | .else_ b, σ => execB call b σ
  | .elif c b r, σ => do
    let v ← evalE call σ c
    let t ← truthVal v
    if t then execB call b σ else execElse call r σ

end

/-- The objects at the front, and the rest. -/
def splitArgs : List Val → List Obj × List Val
  | .obj o :: vs => (o :: (splitArgs vs).1, (splitArgs vs).2)
  | vs => ([], vs)

/-- What a function returned. -/
def returned : Option Val → M (Option Obj)
  | none => pure none
  | some (.obj o) => pure (some o)
  | some .none => pure none
  | some _ => M.throw .unmodelled

/-- The body of a function with the values of its parameters. -/
def runBody (call : Caller) (g : Env) (f : FDef) (vals : List Val) : M (Option Obj) := do
  let r ← execB call f.body ⟨g, some (f.params.map Prod.fst ++ bindsB f.body, (f.params.map Prod.fst).zip vals)⟩
  returned r.2

/-- Arguments that are not objects: none, or the dictionary of the variables for a parameter without type. -/
def restOK (types : List (Option Ty)) : List Val → Bool
  | [] => true
  | [.dict _] => decide (types = [none])
  | _ => false

/-- A call of a decorated function: src/decorators.py:16-19. -/
def callF (call : Caller) (g : Env) (f : FDef) (args : List Val) : M Val :=
  if args.length = f.params.length ∧ restOK ((f.params.map Prod.snd).drop (splitArgs args).1.length) (splitArgs args).2 = true then
    .obj <$> fnCall (fun os => runBody call g f (os.map Val.obj ++ (splitArgs args).2)) ((f.params.map Prod.snd).zip (splitArgs args).1)
  else M.throw .unmodelled

/-- User functions calling each other at most so deep. -/
def callU : ℕ → Caller
  | 0 => fun _ _ _ => M.throw .fuel
  | n + 1 => callF (callU n)

/-- The module. -/
def runModule (n : ℕ) (p : Block) : M Unit := do
  let _ ← execB (callU n) p ⟨libGlobals, none⟩
  pure ()

/-- src/parser/parse_and_exec.py:126-135 `unsafe_exec`, without `global_vars`: the outputs. -/
def unsafeExec (n : ℕ) (p : Block) : M (List (Obj × Option PyText)) := do
  M.modify fun w => { w with outs := [] }
  runModule n p
  let w ← M.get
  pure w.outs

end PythonDice.Exec
