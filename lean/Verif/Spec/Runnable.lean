import Verif.Spec.Meaning
import Verif.Spec.Run

/-!
# Specification vocabulary: programs whose names mean nothing else in Python

Conditions on syntax trees under which the text of a program, run by Python, does what the program does.
-/

namespace Spec

open PythonDice.Compiler

/-- Variables with these names stand for something else in Python, if variables are variables of Python. -/
def takenVars : List (List Char) := ["RV", "T_N", "T_S", "T_D"].map String.toList

/-- Functions with these names hide what the generated text needs, or stand for something else before they are defined: the names that are
passed along with the text, `vars`, and the names of Python itself. -/
def takenFns : List (List Char) :=
  ["vars", "math", "itertools", "random", "functools", "RV", "Seq", "get_seq", "anydice_casting", "roll", "myrange", "settings_set", "output",
    "T_N", "T_S", "T_D", "myMatmul", "myLen", "myInvert", "myAnd", "myOr", "abs", "aiter", "all", "anext", "any", "ascii", "bin", "bool",
    "breakpoint", "bytearray", "bytes", "callable", "chr", "classmethod", "compile", "complex", "copyright", "credits", "delattr", "dict",
    "dir", "divmod", "enumerate", "eval", "exec", "exit", "filter", "float", "format", "frozenset", "getattr", "globals", "hasattr", "hash",
    "help", "hex", "id", "input", "int", "isinstance", "issubclass", "iter", "len", "license", "list", "locals", "map", "max", "memoryview",
    "min", "next", "object", "oct", "open", "ord", "pow", "print", "property", "quit", "range", "repr", "reversed", "round", "set", "setattr",
    "slice", "sorted", "staticmethod", "str", "sum", "super", "tuple", "type", "zip"].map String.toList

/-- The variable has no other meaning. -/
def varFree (x : List Char) : Bool := decide (x ∉ takenVars)

/-- The name of the function has no other meaning: it contains a word, since a name without words is the name of a variable, it is not taken,
and it is not `true div` where functions are given the variables. -/
def fnFree (st : Style) (s : Sig) : Bool :=
  (st.pre || s.any Option.isSome) && decide (pyName st.pre s ∉ takenFns) &&
    !(st.dict && decide (s = [some "true".toList, some "div".toList, none, none]))

/-- The variables in a literal have no other meaning. -/
def partFree : StrPart → Bool
  | .text _ => true
  | .var x => varFree x

mutual

/-- The same of the names in an expression; and there are no strings in it. -/
def freeX (st : Style) : Expr → Bool
  | .num _ => true
  | .dec _ _ => true
  | .var x => varFree x
  | .str _ => false
  | .group e => freeX st e
  | .bin _ l r => freeX st l && freeX st r
  | .ndm l r => freeX st l && freeX st r
  | .dm r => freeX st r
  | .unary _ e => freeX st e
  | .hash e => freeX st e
  | .seq es => freeL st es
  | .call cs => fnFree st (callSig cs) && freeC st cs

/-- The same of elements. -/
def freeL (st : Style) : Elems → Bool
  | .nil => true
  | .expr e es => freeX st e && freeL st es
  | .range l r es => freeX st l && freeX st r && freeL st es

/-- The same of arguments. -/
def freeC (st : Style) : CallParts → Bool
  | .nil => true
  | .word _ cs => freeC st cs
  | .arg e cs => freeX st e && freeC st cs

end

/-- The same of the value of a setting, which may be a string. -/
def freeV (st : Style) : Expr → Bool
  | .str ps => ps.all partFree
  | e => freeX st e

/-- A parameter is of a known type, and its name has no other meaning. -/
def freeD : DefPart → Bool
  | .word _ => true
  | .param x => varFree x
  | .typed x t => varFree x && decide (t ∈ ["n".toList, "s".toList, "d".toList])

mutual

/-- The same of the names in a statement; and there are no functions in functions. -/
def freeS (st : Style) (top : Bool) : Stmt → Bool
  | .output e => freeX st e
  | .outputNamed e n => freeX st e && n.all partFree
  | .set n v => n.all partFree && freeV st v
  | .function d body => top && fnFree st (defSig d) && d.all freeD && freeB st false body
  | .result e => freeX st e
  | .cond c b r => freeX st c && freeB st top b && freeE st top r
  | .loop x e b => varFree x && freeX st e && freeB st top b
  | .assign x e => varFree x && freeX st e

/-- The same of a block. -/
def freeB (st : Style) (top : Bool) : Block → Bool
  | .nil => true
  | .cons s b => freeS st top s && freeB st top b

/-- The same of alternatives. -/
def freeE (st : Style) (top : Bool) : Else → Bool
  | .done => true
  | .else_ b => freeB st top b
  | .elif c b r => freeX st c && freeB st top b && freeE st top r

end

/-- The rules by which a program runs in a style. -/
def Style.rules (st : Style) : Rules := ⟨st.dict, st.calls, !st.pre⟩

end Spec
