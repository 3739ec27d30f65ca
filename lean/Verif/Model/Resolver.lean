import Verif.Model.Ast

/-!
# Model of the code generator: `src/parser/python_resolver.py`

The generator walks the tree once and, along the way, records defined and called functions and counts outputs.  The records do not
influence the text, so that they are modelled as separate functions of the tree.
-/

namespace PythonDice.Compiler

/-- src/parser/python_resolver.py:29-42: the flags. -/
structure Flags where
  nonLocal : Bool := false
  opOnInt : Bool := false
  libConflict : Bool := false
  existCheck : Bool := true
  deriving DecidableEq, Repr

/-- The ways in which compiling a tree fails. -/
inductive Err
  | indexError
  | unknownFunction
  | noOutput
  | libConflict
  deriving DecidableEq, Repr

/-- src/parser/python_resolver.py:229: the Python operator for each operator. -/
def BinOp.py : BinOp → Text
  | .add => "+".toList
  | .sub => "-".toList
  | .mul => "*".toList
  | .div => "//".toList
  | .pow => "**".toList
  | .at_ => "@".toList
  | .and_ => "&".toList
  | .or_ => "|".toList
  | .lt => "<".toList
  | .gt => ">".toList
  | .eq => "==".toList
  | .ne => "!=".toList
  | .le => "<=".toList
  | .ge => ">=".toList

/-- src/parser/python_resolver.py:18: the functions for operators on ints. -/
def BinOp.lib : BinOp → Option Text
  | .at_ => some "myMatmul".toList
  | .and_ => some "myAnd".toList
  | .or_ => some "myOr".toList
  | _ => none

/-- `sep.join(parts)` -/
def join (sep : Text) : List Text → Text
  | [] => []
  | [p] => p
  | p :: q :: ps => p ++ sep ++ join sep (q :: ps)

/-- `", ".join(args)` between parentheses. -/
def callText (f : Text) (args : List Text) : Text := f ++ "(".toList ++ join ", ".toList args ++ ")".toList

/-- src/parser/python_resolver.py:110: `x.replace('{', '{{').replace('}', '}}')`. -/
def escapeBraces (s : Text) : Text := s.flatMap fun c => if c = '{' then ['{', '{'] else if c = '}' then ['}', '}'] else [c]

/-- src/parser/python_resolver.py:106-118 `STRING` and `STRVAR`. -/
def StrPart.emit (fl : Flags) : StrPart → Text
  | .text s => escapeBraces s
  | .var x => if fl.nonLocal then "{vars['".toList ++ x ++ "']}".toList else "{".toList ++ x ++ "}".toList

/-- src/parser/python_resolver.py:106-113 `STRING`. -/
def emitStr (fl : Flags) (ps : List StrPart) : Text := "f\"".toList ++ ps.flatMap (StrPart.emit fl) ++ "\"".toList

/-- src/parser/python_resolver.py:126-130 `VAR`. -/
def emitVar (fl : Flags) (x : Text) : Text := if fl.nonLocal then "vars['".toList ++ x ++ "']".toList else x

/-- src/parser/python_resolver.py:226-243 `EXPR_OP` except `d`, given the texts of the operands. -/
def emitBin (fl : Flags) (op : BinOp) (l r : Text) : Text :=
  match op.lib with
  | some f =>
    if fl.opOnInt then callText f [l, r]
    else if op = .at_ then "(".toList ++ l ++ " ".toList ++ op.py ++ " ".toList ++ r ++ ")".toList
    else l ++ " ".toList ++ op.py ++ " ".toList ++ r
  | none => l ++ " ".toList ++ op.py ++ " ".toList ++ r

/-- src/parser/python_resolver.py:244-250 `UNARY`. -/
def emitUnary (fl : Flags) (op : UnOp) (e : Text) : Text :=
  match op with
  | .not_ => if fl.opOnInt then callText "myInvert".toList [e] else "~".toList ++ e
  | .plus => "+".toList ++ e
  | .minus => "-".toList ++ e

/-- src/parser/python_resolver.py:265-278: the name of a called function, from its words and `X`s. -/
def mangle (fl : Flags) (parts : List Text) : Text := join "_".toList (if fl.libConflict then "f".toList :: parts else parts)

/-- src/parser/python_resolver.py:267-273: words, and `X` for arguments. -/
def CallParts.names : CallParts → List Text
  | .nil => []
  | .word w cs => w :: cs.names
  | .arg _ cs => "X".toList :: cs.names

/-- src/parser/python_resolver.py:275-276. -/
def withVars (fl : Flags) (args : List Text) : List Text := if fl.nonLocal then args ++ ["vars".toList] else args

mutual

/-- src/parser/python_resolver.py:99-282 `resolve_node`, for expressions. -/
def Expr.emit (fl : Flags) : Expr → Text
  | .num n => n
  | .dec a b => a ++ ".".toList ++ b
  | .var x => emitVar fl x
  | .str ps => emitStr fl ps
  | .group e => "(".toList ++ e.emit fl ++ ")".toList
  | .bin op l r => emitBin fl op (l.emit fl) (r.emit fl)
  | .ndm l r => callText "roll".toList [l.emit fl, r.emit fl]
  | .dm r => callText "roll".toList [r.emit fl]
  | .unary op e => emitUnary fl op (e.emit fl)
  | .hash e => callText (if fl.opOnInt then "myLen".toList else "len".toList) [e.emit fl]
  | .seq es => "get_seq([".toList ++ join ", ".toList (es.emit fl) ++ "])".toList
  | .call cs => callText (mangle fl cs.names) (withVars fl (cs.emit fl))

/-- src/parser/python_resolver.py:255-262 `SEQ`, `RANGE`. -/
def Elems.emit (fl : Flags) : Elems → List Text
  | .nil => []
  | .expr e es => e.emit fl :: es.emit fl
  | .range l r es => callText "myrange".toList [l.emit fl, r.emit fl] :: es.emit fl

/-- src/parser/python_resolver.py:267-270: the arguments of a call. -/
def CallParts.emit (fl : Flags) : CallParts → List Text
  | .nil => []
  | .word _ cs => cs.emit fl
  | .arg e cs => e.emit fl :: cs.emit fl

end

mutual

/-- src/parser/python_resolver.py:278: the functions called in an expression. -/
def Expr.calls (fl : Flags) : Expr → List Text
  | .num _ => []
  | .dec _ _ => []
  | .var _ => []
  | .str _ => []
  | .group e => e.calls fl
  | .bin _ l r => l.calls fl ++ r.calls fl
  | .ndm l r => l.calls fl ++ r.calls fl
  | .dm r => r.calls fl
  | .unary _ e => e.calls fl
  | .hash e => e.calls fl
  | .seq es => es.calls fl
  | .call cs => mangle fl cs.names :: cs.calls fl

/-- The functions called in a sequence. -/
def Elems.calls (fl : Flags) : Elems → List Text
  | .nil => []
  | .expr e es => e.calls fl ++ es.calls fl
  | .range l r es => l.calls fl ++ r.calls fl ++ es.calls fl

/-- The functions called in arguments. -/
def CallParts.calls (fl : Flags) : CallParts → List Text
  | .nil => []
  | .word _ cs => cs.calls fl
  | .arg e cs => e.calls fl ++ cs.calls fl

end

/-! ## Functions -/

/-- src/parser/python_resolver.py:157-172: the parts of a function's name. -/
def DefPart.name : DefPart → Text
  | .word w => w
  | .param _ => "X".toList
  | .typed _ _ => "X".toList

/-- src/parser/python_resolver.py:169: `{'s': 'T_S', 'n': 'T_N', 'd': 'T_D'}.get(arg_dtype, arg_dtype)`. -/
def dtype (t : Text) : Text :=
  if t = "s".toList then "T_S".toList else if t = "n".toList then "T_N".toList else if t = "d".toList then "T_D".toList else t

/-- src/parser/python_resolver.py:161-172: an entry of `func_args`; the text `name: type` is kept as a pair. -/
structure Param where
  name : Text
  type : Option Text
  deriving DecidableEq, Repr

/-- The parameter of a part. -/
def DefPart.param? : DefPart → Option Param
  | .word _ => none
  | .param x => some ⟨x, none⟩
  | .typed x t => some ⟨x, some (dtype t)⟩

/-- `func_args` before duplicates are renamed. -/
def params (sig : List DefPart) : List Param := sig.filterMap DefPart.param?

/-- src/parser/python_resolver.py:285-286 `has_dups`: `len(lst) != len(set(lst))`. -/
def hasDups (l : List Text) : Bool := l.length != l.dedup.length

/-- `dummy{i}` -/
def dummy (i : ℕ) : Text := "dummy".toList ++ (Nat.repr i).toList

/-- src/parser/python_resolver.py:292-295: one turn of the loop; `split(': ')[1]` raises if there is no type. -/
def fixAt (i : ℕ) (st : List Param × List Text) : Except Err (List Param × List Text) :=
  match st.2[i]? with
  | none => .error .indexError
  | some n =>
    if st.2.count n > 1 then
      match st.1[i]? with
      | some ⟨_, some t⟩ => .ok (st.1.set i ⟨dummy i, some t⟩, st.2.set i (dummy i))
      | _ => .error .indexError
    else .ok st

/-- src/parser/python_resolver.py:291-295: `for i in range(N - 1, -1, -1)`. -/
def fixLoop : ℕ → List Param × List Text → Except Err (List Param × List Text)
  | 0, st => .ok st
  | i + 1, st => fixAt i st >>= fixLoop i

/-- src/parser/python_resolver.py:173-174, 289-295 `fix_dups_in_args`: parameters and names after renaming. -/
def fixDups (ps : List Param) : Except Err (List Param × List Text) :=
  if hasDups (ps.map Param.name) then fixLoop ps.length (ps, ps.map Param.name) else .ok (ps, ps.map Param.name)

/-- A parameter as written in `func_args`. -/
def Param.text (p : Param) : Text :=
  match p.type with
  | none => p.name
  | some t => p.name ++ ": ".toList ++ t

/-! ## Statements -/

/-- `s.split('\n')` -/
def lines : Text → List Text
  | [] => [[]]
  | c :: cs =>
    if c = '\n' then [] :: lines cs
    else match lines cs with
      | l :: ls => (c :: l) :: ls
      | [] => [[c]]

/-- src/parser/python_resolver.py:44, 95-97 `_indent_str`. -/
def indent (s : Text) : Text := join "\n".toList ((lines s).map fun x => "  ".toList ++ x)

/-- src/parser/python_resolver.py:181: the line of a definition. -/
def defLine (fl : Flags) (sig : List DefPart) (ps : List Param) : Text :=
  "def ".toList ++ mangle fl (sig.map DefPart.name) ++ "(".toList ++
    join ", ".toList (withVars fl (ps.map Param.text)) ++ "):".toList

/-- src/parser/python_resolver.py:183-184: copying the variables. -/
def varsLine (fl : Flags) (names : List Text) : Text :=
  if fl.nonLocal then
    indent ("vars = vars.copy(); ".toList ++
      join "; ".toList (names.map fun n => "vars[\"".toList ++ n ++ "\"] = ".toList ++ n)) ++ "\n".toList
  else []

/-- src/parser/python_resolver.py:213-214. -/
def loopVars (fl : Flags) (x : Text) : Text :=
  if fl.nonLocal then indent ("vars['".toList ++ x ++ "'] = ".toList ++ x) ++ "\n".toList else []

/-- src/parser/python_resolver.py:220-223. -/
def assignText (fl : Flags) (x e : Text) : Text :=
  if fl.nonLocal then "vars['".toList ++ x ++ "'] = ".toList ++ e else x ++ " = ".toList ++ e

/-- src/parser/python_resolver.py:104: the text of a block from those of its statements. -/
def blockText (ls : List Text) : Text := if ls = [] then "pass".toList else join "\n".toList ls

/-- src/parser/python_resolver.py:180-186: the text of a function definition. -/
def functionText (fl : Flags) (sig : List DefPart) (r : List Param × List Text) (body : Text) : Text :=
  "@anydice_casting()\n".toList ++ defLine fl sig r.1 ++ "\n".toList ++ varsLine fl r.2 ++ indent body ++ "\n".toList

mutual

/-- src/parser/python_resolver.py:99-282 `resolve_node`, for statements. -/
def Stmt.emit (fl : Flags) : Stmt → Except Err Text
  | .output e => .ok (callText "output".toList [e.emit fl])
  | .outputNamed e n => .ok ("output(".toList ++ e.emit fl ++ ", named=".toList ++ emitStr fl n ++ ")".toList)
  | .set n v => .ok (callText "settings_set".toList [emitStr fl n, v.emit fl])
  | .function sig body => do
    let r ← fixDups (params sig)
    let ls ← body.emit fl
    .ok (functionText fl sig r (blockText ls))
  | .result e => .ok ("return ".toList ++ e.emit fl)
  | .cond c body rest => do
    let ls ← body.emit fl
    let t ← rest.emit fl
    .ok ("if ".toList ++ c.emit fl ++ ":\n".toList ++ indent (blockText ls) ++ t ++ "\n".toList)
  | .loop x o body => do
    let ls ← body.emit fl
    .ok ("for ".toList ++ x ++ " in ".toList ++ o.emit fl ++ ":\n".toList ++ loopVars fl x ++ indent (blockText ls) ++ "\n".toList)
  | .assign x e => .ok (assignText fl x (e.emit fl))

/-- src/parser/python_resolver.py:103-104 `MULTILINE_CODE`: the texts of the statements. -/
def Block.emit (fl : Flags) : Block → Except Err (List Text)
  | .nil => .ok []
  | .cons s b => do
    let t ← s.emit fl
    let ts ← b.emit fl
    .ok (t :: ts)

/-- src/parser/python_resolver.py:198-206: the blocks after the first, each after a newline. -/
def Else.emit (fl : Flags) : Else → Except Err Text
  | .done => .ok []
  | .else_ body => do
    let ls ← body.emit fl
    .ok ("\nelse:\n".toList ++ indent (blockText ls))
  | .elif c body rest => do
    let ls ← body.emit fl
    let t ← rest.emit fl
    .ok ("\nelif ".toList ++ c.emit fl ++ ":\n".toList ++ indent (blockText ls) ++ t)

end

mutual

/-- src/parser/python_resolver.py:178-179: the functions defined by a statement. -/
def Stmt.defs (fl : Flags) : Stmt → List Text
  | .function sig body => mangle fl (sig.map DefPart.name) :: body.defs fl
  | .cond _ body rest => body.defs fl ++ rest.defs fl
  | .loop _ _ body => body.defs fl
  | _ => []

/-- The functions defined in a block. -/
def Block.defs (fl : Flags) : Block → List Text
  | .nil => []
  | .cons s b => s.defs fl ++ b.defs fl

/-- The functions defined in the other branches. -/
def Else.defs (fl : Flags) : Else → List Text
  | .done => []
  | .else_ body => body.defs fl
  | .elif _ body rest => body.defs fl ++ rest.defs fl

end

mutual

/-- src/parser/python_resolver.py:278: the functions called in a statement. -/
def Stmt.calls (fl : Flags) : Stmt → List Text
  | .output e => e.calls fl
  | .outputNamed e _ => e.calls fl
  | .set _ v => v.calls fl
  | .function _ body => body.calls fl
  | .result e => e.calls fl
  | .cond c body rest => c.calls fl ++ body.calls fl ++ rest.calls fl
  | .loop _ o body => o.calls fl ++ body.calls fl
  | .assign _ e => e.calls fl

/-- The functions called in a block. -/
def Block.calls (fl : Flags) : Block → List Text
  | .nil => []
  | .cons s b => s.calls fl ++ b.calls fl

/-- The functions called in the other branches. -/
def Else.calls (fl : Flags) : Else → List Text
  | .done => []
  | .else_ body => body.calls fl
  | .elif c body rest => c.calls fl ++ body.calls fl ++ rest.calls fl

end

mutual

/-- src/parser/python_resolver.py:136, 140: `_output_counter`. -/
def Stmt.outputs : Stmt → ℕ
  | .output _ => 1
  | .outputNamed _ _ => 1
  | .function _ body => body.outputs
  | .cond _ body rest => body.outputs + rest.outputs
  | .loop _ _ body => body.outputs
  | _ => 0

/-- The outputs in a block. -/
def Block.outputs : Block → ℕ
  | .nil => 0
  | .cons s b => s.outputs + b.outputs

/-- The outputs in the other branches. -/
def Else.outputs : Else → ℕ
  | .done => 0
  | .else_ body => body.outputs
  | .elif _ body rest => body.outputs + rest.outputs

end

/-! ## Programs -/

/-- src/parser/python_resolver.py:17. -/
def library : List Text :=
  ["absolute_X".toList, "X_contains_X".toList, "count_X_in_X".toList, "explode_X".toList, "highest_X_of_X".toList,
    "lowest_X_of_X".toList, "middle_X_of_X".toList, "highest_of_X_and_X".toList, "lowest_of_X_and_X".toList,
    "maximum_of_X".toList, "reverse_X".toList, "sort_X".toList, "true_div_X_X".toList]

/-- src/parser/python_resolver.py:20. -/
def mayCollide : List Text :=
  ["output".toList, "roll".toList, "myrange".toList, "max_func_depth".toList, "anydice_casting".toList, "settings_set".toList]

/-- src/parser/python_resolver.py:52, 178: `_defined_functions` at the end. -/
def defined (fl : Flags) (p : Block) : List Text := library ++ p.defs fl

/-- src/parser/python_resolver.py:65-73: the text, if the checks pass. -/
def resolveOnce (fl : Flags) (p : Block) : Except Err Text := do
  let ls ← p.emit fl
  if fl.existCheck = true ∧ ¬ ∀ f ∈ p.calls fl, f ∈ defined fl p then .error .unknownFunction
  else if p.outputs = 0 then .error .noOutput
  else .ok ((if fl.nonLocal then "vars = {}\n\n".toList else []) ++ blockText ls ++ "\n".toList)

/-- src/parser/python_resolver.py:75. -/
def collides (fl : Flags) (p : Block) : Prop := ∃ f ∈ mayCollide, f ∈ defined fl p

instance (fl : Flags) (p : Block) : Decidable (collides fl p) := by unfold collides; infer_instance

/-- `x.strip() == ''`, for ASCII text. -/
def blank (l : Text) : Bool := l.all fun c => c == ' ' || (9 ≤ c.toNat && c.toNat ≤ 13) || (28 ≤ c.toNat && c.toNat ≤ 31)

/-- src/parser/python_resolver.py:84: the lines kept after a line `prev`. -/
def squeezeFrom (prev : Text) : List Text → List Text
  | [] => []
  | x :: xs => if blank x = false ∨ blank prev = false then x :: squeezeFrom x xs else squeezeFrom x xs

/-- src/parser/python_resolver.py:84. -/
def squeeze : List Text → List Text
  | [] => []
  | x :: xs => x :: squeezeFrom x xs

/-- src/parser/python_resolver.py:83-85. -/
def cleanUp (s : Text) : Text := join "\n".toList (squeeze (lines s))

/-- src/parser/python_resolver.py:64-85 `resolve`. -/
def resolve (fl : Flags) (p : Block) : Except Err Text := do
  let r ← resolveOnce fl p
  if collides fl p then
    if fl.libConflict then .error .libConflict
    else do
      let r' ← resolveOnce { fl with libConflict := true } p
      if collides { fl with libConflict := true } p then .error .libConflict else .ok (cleanUp r')
  else .ok (cleanUp r)

end PythonDice.Compiler
