import Verif.Model.Compile

/-!
# Model of the compiler flags: `src/parser/python_resolver.py:29-45`

`compile_anydice` hands the dictionary of its caller on to `PythonResolver`, which takes the flags it knows out of it.
-/

namespace PythonDice.Compiler

/-- A dictionary of flags, without repeated keys.  Of a value only its truth counts. -/
abbrev FlagDict := List (Text × Bool)

/-- `flags.pop(key, default)`: the value, and the dictionary after it. -/
def popFlag (d : FlagDict) (key : Text) (default : Bool) : Bool × FlagDict :=
  ((d.lookup key).getD default, d.filter fun p => p.1 ≠ key)

/-- src/parser/python_resolver.py:29-42: the flags, and what is left of the dictionary.  For an empty dictionary `flags or {}` is a new one. -/
def takeFlags (d : FlagDict) : Flags × FlagDict :=
  let a := popFlag d "COMPILER_FLAG_NON_LOCAL_SCOPE".toList false
  let b := popFlag a.2 "COMPILER_FLAG_OPERATOR_ON_INT".toList false
  let c := popFlag b.2 "COMPILER_FLAG_FUNC_LIB_CONFLICT".toList false
  let e := popFlag c.2 "COMPILER_FLAG_FUNC_EXIST_CHECK".toList true
  (⟨a.1, b.1, c.1, e.1⟩, e.2)

/-- `compile_anydice` got as far as the resolver. -/
def reached : Except CompileErr Text → Bool
  | .ok _ => true
  | .error (.resolver _) => true
  | .error _ => false

/-- The failures of `compile_anydice`, with the assertion of src/parser/python_resolver.py:44. -/
inductive FlagsErr
  | compile (e : CompileErr)
  | unknown (d : FlagDict)
  deriving DecidableEq, Repr

/-- The failures of `compile` among them. -/
def withFlagsErr : Except CompileErr Text → Except FlagsErr Text
  | .ok t => .ok t
  | .error e => .error (.compile e)

/-- src/parser/parse_and_exec.py:76-86 `compile_anydice(s, flags=d)`: the result, and the dictionary of the caller after the call.
`flags=None` is as an empty dictionary. -/
def compileDict (d : FlagDict) (dig : Char → Bool) (s : Text) : Except FlagsErr Text × FlagDict :=
  let r := compile (takeFlags d).1 dig s
  if reached r then
    if (takeFlags d).2 = [] then (withFlagsErr r, (takeFlags d).2) else (.error (.unknown (takeFlags d).2), (takeFlags d).2)
  else (withFlagsErr r, d)

end PythonDice.Compiler
